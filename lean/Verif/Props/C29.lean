import Verif.Cfg.Clauses
import Verif.Cfg.Accept
import Verif.Props.C22

/-!
# C29 switch dispatch, C30 control flow of statements, C73 control operators, C76 constraints on statements
-/

namespace Verif.Cfg

variable {σ : Type} [Prim σ]

set_option linter.unusedSectionVars false

/-! ## C30 -/

/-- **C30**: for every accepted function body in which `break` and `continue` are where C allows them, whatever the
nesting of statements, jumps and labels: the body ends in a state with a returned value on the abstract machine exactly
when the graph does, whatever was in the temporaries before. -/
theorem C30_control_flow (body : Stmt σ) (b : B σ) (hw : WellFormed body) (h : build body = some b) (u u' : St σ) (r : Option Int) :
    Ends body u u' r ↔ Returns b.blk u u' r := by
  constructor
  · rintro ⟨n, hn⟩ tmp
    obtain ⟨L, hL⟩ := forward hw h u tmp
    obtain ⟨j, c, hc, h1, h2, h3, _⟩ := hL hn
    exact ⟨j, c, hc.crun, h1, h2, h3⟩
  · intro hr
    obtain ⟨n, t, h1, h2, h3, h4⟩ := hr fun _ => 0
    have := backward hw h u (fun _ => 0) h1 h2
    rwa [h3, h4] at this

/-- **C30** (order of effects): every state the program is in on the abstract machine, it is also in when the graph is
executed, so effects happen in the same order, also in programs that never end. -/
theorem C30_prefix (body : Stmt σ) (b : B σ) (hw : WellFormed body) (h : build body = some b) (u : St σ) (tmp : Nat → Int)
    (n : Nat) (s : SState σ (St σ)) (hs : SRun body n (.exec body .stop u) s) :
    ∃ j c, CRun b.blk j ⟨0, 0, u, tmp⟩ c ∧ c.mem.user = s.user := by
  obtain ⟨L, hL⟩ := forward hw h u tmp
  obtain ⟨j, c, hc, hm⟩ := hL hs
  exact ⟨j, c, hc.crun, ms_user hm⟩

/-- **C30** (termination): the graph gets stuck or returns only if the abstract machine ends. -/
theorem C30_terminates (body : Stmt σ) (b : B σ) (hw : WellFormed body) (h : build body = some b) (u : St σ) (tmp : Nat → Int)
    (n : Nat) (t : CState σ) (hr : CRun b.blk n ⟨0, 0, u, tmp⟩ t) (ht : cstep b.blk t = none) :
    Ends body u t.mem.user (returned b.blk t) := backward hw h u tmp hr ht

/-- **C30** (labels): in an accepted body every `goto` has its label. -/
theorem C30_labels (body : Stmt σ) (b : B σ) (hw : WellFormed body) (h : build body = some b) : LabelsExist body :=
  wf_mono (x := false) (y := false) (fun _ h => h) body (fun h => nomatch h) (fun h => nomatch h) (labels_exist hw h)

/-- `x = x + k` for the tests below. -/
def add (k : Int) : Fn Int := { act := (· + k), val := id }

def addTo (k : Int) : Stmt (Fn Int) := .expr (.prim true false (add k))

/-- Something read from `x`. -/
def look (f : Int → Int) : Fn Int := { val := f }

/-- `while (x < 10) { x += 3; if (x == 6) continue; if (x > 8) break; x += 1; } return x;` -/
def sampleBody : Stmt (Fn Int) :=
  .seq (.while (.prim false true (look fun x => if x < 10 then 1 else 0))
    (.seq (addTo 3) (.seq (.ite (.prim false true (look fun x => if x = 6 then 1 else 0)) .cont)
      (.seq (.ite (.prim false true (look fun x => if 8 < x then 1 else 0)) .brk) (addTo 1)))))
    (.ret (some (.prim false false (look id))))

/-- From 2: 5, 6, 9, and out. -/
example : WellFormed sampleBody ∧ (build sampleBody).isSome = true ∧ Ends sampleBody (2 : Int) (9 : Int) (some 9) := by
  refine ⟨by simp [WellFormed, sampleBody, Stmt.wf, addTo], by decide, 25, ?_⟩
  repeat first | exact rfl | refine ⟨_, rfl, ?_⟩

/-- `L: x += 1; if (x < 5) goto L; return x;` -/
def sampleGoto : Stmt (Fn Int) :=
  .seq (.label 0 (addTo 1)) (.seq (.ite (.prim false true (look fun x => if x < 5 then 1 else 0)) (.goto 0)) (.ret (some (.prim false false (look id)))))

example : WellFormed sampleGoto ∧ (build sampleGoto).isSome = true := by
  refine ⟨by simp [WellFormed, sampleGoto, Stmt.wf, addTo], by decide⟩

/-! ## C29 -/

/-- **C29**: a switch over any list of clauses with at most one `default` is accepted, and executing its graph evaluates the
controlling expression once and then runs the clauses from the one labelled with its value on, else from `default` on,
else none, up to the first `break`. -/
theorem C29_switch (e : Expr σ) (cl : List (Clause σ)) (h : (cl.filter isDefault).length ≤ 1) :
    ∃ b, build (.switch e (clauses cl)) = some b ∧
      ∀ u, Returns b.blk u (runClauses (select (e.eval u).2 cl) (e.eval u).1) none := by
  obtain ⟨b, hb⟩ := switch_build e cl h
  refine ⟨b, hb, fun u => ?_⟩
  exact (C30_control_flow (.switch e (clauses cl)) b (clauses_wf cl) hb u _ none).1 (clauses_ends e cl u)

/-- `switch (x) { case 1: x += 10; default: x += 100; break; case 2: x += 1000; }` -/
def sampleClauses : List (Clause (Fn Int)) := [⟨some 1, add 10, false⟩, ⟨none, add 100, true⟩, ⟨some 2, add 1000, false⟩]

example : (sampleClauses.filter isDefault).length ≤ 1 ∧ runClauses (select 1 sampleClauses) (1 : Int) = (111 : Int) ∧
    runClauses (select 2 sampleClauses) (2 : Int) = (1002 : Int) ∧ runClauses (select 7 sampleClauses) (7 : Int) = (107 : Int) := by
  refine ⟨by decide, ?_, ?_, ?_⟩ <;> rfl

/-- **C29** (arbitrary bodies): wherever the labels are, also inside nested statements (but not of nested switches), the
switch goes to the statement after the first `case` with its value, else after `default`, else past the switch. -/
theorem C29_dispatch (body : Stmt σ) (b : B σ) (hw : WellFormed body) (h : build body = some b) (u : St σ) (tmp : Nat → Int)
    (n : Nat) (e : Expr σ) (s : Stmt σ) (k : Cont σ) (v : St σ) (hs : SRun body n (.exec body .stop u) (.exec (.switch e s) k v))
    (m : Nat) (t : SState σ (St σ)) (ht : SRun body m (switchTo (e.eval v).2 s k (e.eval v).1) t) :
    ∃ j c, CRun b.blk j ⟨0, 0, u, tmp⟩ c ∧ c.mem.user = t.user :=
  C30_prefix body b hw h u tmp _ t (srun_trans (m := m + 1) hs ⟨_, rfl, ht⟩)

open Verif.Types Verif.Types.Spec Verif.Fold in
open Verif.Fold.Spec (fits conv width) in
/-- **C29** (labels of any type): the case constant `n` of type `t` is compared with the controlling value `v` of type `a` by
`==`, not after conversion to the promoted type of the controlling expression.  The outcome is the one C asks for when that
type can represent `n` or is as wide as the common type.  Missing: the other constants, see below. -/
theorem C29_case_comparison_partial (t a : Basic) (n v : Int) (l r : Imm) (hl : Holds t n l) (hr : Holds a v r)
    (h : fits a.promote n ∨ width (t.common a) = width a.promote) :
    ∃ i, Fold.binary .eq l r = .const i ∧ Holds .int (if conv a.promote n = v then 1 else 0) i := by
  obtain ⟨i, h1, h2⟩ := C22_folding .eq t a n v l r .int _ hl hr rfl
  refine ⟨i, h1, ?_⟩
  have hia := fits_isInt hl.1
  have hib := fits_isInt hr.1
  have hw : width a.promote ≤ width (t.common a) := by
    rcases isInt_cases hia with h | h | h | h | h | h | h | h | h <;> subst h <;>
    rcases isInt_cases hib with h | h | h | h | h | h | h | h | h <;> subst h <;> decide
  have key : conv (t.common a) n = conv (t.common a) v ↔ conv a.promote n = v := by
    have hc := common_cases hia hib
    have hp := promote_cases hib
    obtain ⟨lo, hi, e, p1, p2⟩ := promote_fits hib hr.1
    generalize a.promote = p at *
    generalize t.common a = c at *
    have c1 : ∀ x, conv .int x = x.bmod (2 ^ 32) := fun _ => rfl
    have c2 : ∀ x, conv .uint x = x % 2 ^ 32 := fun _ => rfl
    have c3 : ∀ x, conv .long x = x.bmod (2 ^ 64) := fun _ => rfl
    have c4 : ∀ x, conv .ulong x = x % 2 ^ 64 := fun _ => rfl
    rcases h with ⟨lo2, hi2, e2, p5, p6⟩ | h
    · rcases hc with rfl | rfl | rfl | rfl <;> rcases hp with rfl | rfl | rfl | rfl <;> simp [Basic.range] at e e2 <;>
        simp only [c1, c2, c3, c4, width, Int.bmod_def] at hw ⊢ <;> (try split_ifs) <;> omega
    · rcases hc with rfl | rfl | rfl | rfl <;> rcases hp with rfl | rfl | rfl | rfl <;> simp [Basic.range] at e <;>
        simp [width] at h <;>
        simp only [c1, c2, c3, c4, Int.bmod_def] <;> (try split_ifs) <;> omega
  simpa [key] using h2

open Verif.Types Verif.Types.Spec Verif.Fold in
/-- **C29** violated: `switch (x)` with `int x = 1` does not go to `case 0x100000001L`, which C converts to `int` first,
giving 1. -/
theorem C29_case_not_converted_violated : ∃ (l r i : Imm), Holds .long 0x100000001 l ∧ Holds .int 1 r ∧
    Fold.Spec.conv Basic.int.promote 0x100000001 = 1 ∧ Fold.binary .eq l r = .const i ∧ Holds .int 0 i :=
  ⟨⟨tyOf .long {}, 0x100000001⟩, ⟨tyOf .int {}, 1⟩, ⟨tyOf .int {}, 0⟩, ⟨⟨_, _, rfl, by decide⟩, ⟨{}, rfl⟩, by decide⟩,
    ⟨⟨_, _, rfl, by decide⟩, ⟨{}, rfl⟩, by decide⟩, by decide, by decide, ⟨⟨_, _, rfl, by decide⟩, ⟨{}, rfl⟩, by decide⟩⟩

open Verif.Types Verif.Types.Spec Verif.Fold in
/-- `case 0xFFFFFFFFU` is reached by `int x = -1`. -/
example : Holds .uint 0xFFFFFFFF ⟨tyOf .uint {}, 0xFFFFFFFF⟩ ∧ Holds .int (-1) ⟨tyOf .int {}, -1⟩ ∧
    Fold.Spec.width (Basic.uint.common .int) = Fold.Spec.width Basic.int.promote ∧ Fold.Spec.conv Basic.int.promote 0xFFFFFFFF = -1 :=
  ⟨⟨⟨_, _, rfl, by decide⟩, ⟨{}, rfl⟩, by decide⟩, ⟨⟨_, _, rfl, by decide⟩, ⟨{}, rfl⟩, by decide⟩, by decide, by decide⟩

/-! ## C73 -/

theorem ret_build (e : Expr σ) : ∃ b, build (.ret (some e)) = some b := by
  unfold build
  simp only [B.stmt]
  rw [if_pos]
  · exact ⟨_, rfl⟩
  · show ((({} : B σ).new.expr 0 e).1.labels.all _) = true
    rw [(rest_eq (expr_rest e _ _)).1]; rfl

/-- **C73**: every combination of `&&`, `||`, `?:`, `!` and `,` over arbitrary operands is compiled to a graph that
evaluates the operands C evaluates, in order, and yields the value C gives. -/
theorem C73_operators (e : Expr σ) : ∃ b, build (.ret (some e)) = some b ∧
    ∀ u, Returns b.blk u (e.eval u).1 (some (e.eval u).2) := by
  obtain ⟨b, hb⟩ := ret_build e
  exact ⟨b, hb, fun u => (C30_control_flow (.ret (some e)) b trivial hb u _ _).1 ⟨1, _, rfl, rfl⟩⟩

/-- `(x += 1) && (0 || (x += 10, !x)) ? 5 : 6` from 3: both increments happen, the value is 6. -/
example : (Expr.cond (.and (.prim true false (add 1)) (.or (.imm 0) (.comma (.prim true false (add 10))
    (.not (.prim false false (look id)))))) (.imm 5) (.imm 6) : Expr (Fn Int)).eval (3 : Int) = ((14 : Int), 6) := rfl

/-! ## C76 -/

/-- **C76**: a function body is accepted exactly when `case` and `default` are inside a switch, no switch has two `default`
labels of its own, labels are unique and every label used is defined.  Missing: `break` and `continue` outside a loop, and
duplicate case values, which are not diagnosed. -/
theorem C76_accepted_partial (body : Stmt σ) : (build body).isSome = true ↔
    body.placed false ∧ body.labels.Nodup ∧ ∀ l ∈ body.gotos, l ∈ body.labels := build_iff body

/-- Two labels of the same name; `default` in a nested switch does not count for the outer one. -/
example : (build (.seq (.label 1 .skip) (.label 1 .skip) : Stmt (Fn Int))) = none ∧
    (build (.switch (.imm 1) (.seq (.default .skip) (.switch (.imm 2) (.default .skip))) : Stmt (Fn Int))).isSome = true :=
  ⟨rfl, rfl⟩

/-- **C76** violated: a `break` outside any loop or switch (a constraint violation, 6.8.6.3) is accepted and acts as a
return. -/
theorem C76_stray_break_violated : ∃ (body : Stmt (Fn Int)) (b : B (Fn Int)), ¬ WellFormed body ∧ build body = some b ∧
    Returns b.blk (0 : Int) (0 : Int) none := by
  refine ⟨.seq .brk (addTo 1), _, by simp [WellFormed, Stmt.wf], rfl, ?_⟩
  intro tmp
  exact ⟨0, _, rfl, rfl, rfl, rfl⟩

/-- **C76** violated: two cases with the same value (a constraint violation, 6.8.4.2) are accepted. -/
theorem C76_duplicate_case_violated : ∃ cl : List (Clause (Fn Int)), ¬ (cl.map Clause.label).Nodup ∧
    (build (.switch (.imm 1) (clauses cl))).isSome = true :=
  ⟨[⟨some 1, look id, true⟩, ⟨some 1, add 1, true⟩], by decide, by decide⟩

end Verif.Cfg
