import Verif.Flow.BodyLemmas
import Verif.Expr.AllocLemmas

/-!
# C89: functions, from statements to instructions

The source is `Cfg.Stmt Flow.Leaf`: `if`, `while`, `do`, `for`, `switch`, `case`, `default`, `goto`, labels, `break`, `continue`, `return`, and
expressions with `&&`, `||`, `!`, `?:` and the comma operator over the integer expressions and assignments of C88.  What it means is
`Flow.Ends`: the abstract machine of Verif/Cfg/Spec.lean (C99 6.8), where an expression has the value of `Flow.value` (C99 6.5) or
none if C leaves that undefined.

`compileBody` puts together what is modelled for C30 and C73 (src/parser/statement.c, src/parser/expression.c: the graph), C88
(src/parser/eval.c and src/backend/x86_64/compile.c: expressions and assignments), C31 and C41 (comparisons and jumps) and C74
(`compile_block`: the order of blocks, labels and jumps).  The outcome is a list of instructions and labels, and `Flow.Returns` runs it
on the machine of C87 with a program counter.

Not covered, so the names end in `_partial`: what C88 leaves out (pointers, calls, bit-fields, floating types, casts to
`_Bool`), declarations, conversions between blocks (operands of `?:` of different types; operands of `!`, `?:` and `switch` that need a
promotion), the optimiser, and programs that do not terminate.  What the code does where C says nothing is open.
-/

namespace Verif.Flow

open Verif.Abi (AX BP)
open Verif.Conv (CM)
open Verif.Types.Spec (Basic)
open Verif.Compare (Flags)
open Verif.Fold.Spec (conv fits)
open Verif.Cfg (Stmt Cont SState sstepWith WellFormed)
open Verif.Expr (Rep Untouched Stores Local Layout allocate allocate_good size Exp)

/-! ### A function to look at

```
int f(unsigned n) {
  int i; long s = 0; char c;
  for (i = 0; i < n; i++) if (i % 3 == 0 || i % 5 == 0) s += i;
  c = 5 < s && n != 7;
  switch (i) { case 3: ++s; case 10: --s; break; }
  return s;
}
```
-/

def sampleTypes (i : Nat) : Basic := if i = 0 then .uint else if i = 1 then .int else if i = 2 then .long else .char

def sampleMod (n : Int) : Src := .pure (.rel .eq (.bin .mod (.var 1) (.const .int n)) (.const .int 0))

def sampleBody : Stmt Leaf :=
  .seq (.for (some (.prim true false ⟨.stm (.assign 1 (.const .int 0)), false, 0⟩)) (some (.prim true true ⟨.pure (.rel .lt (.var 1) (.var 0)), false, 0⟩))
      (some (.prim true false ⟨.stm (.post true 1), false, 1⟩))
      (.ite (.or (.prim true true ⟨sampleMod 3, false, 3⟩) (.prim true true ⟨sampleMod 5, false, 4⟩))
        (.expr (.prim true false ⟨.stm (.update .add 2 (.var 1)), false, 5⟩))))
    (.seq (.expr (.app false ⟨.hole 3, false, 10⟩ (.and (.prim false true ⟨.pure (.rel .lt (.const .int 5) (.var 2)), false, 6⟩)
        (.prim false true ⟨.pure (.rel .ne (.var 0) (.const .int 7)), false, 6⟩))))
      (.seq (.switch (.prim false false ⟨.pure (.var 1), true, 6⟩)
          (.seq (.case 3 (.expr (.prim true false ⟨.stm (.pre true 2), false, 6⟩)))
            (.seq (.case 10 (.expr (.prim true false ⟨.stm (.pre false 2), false, 7⟩))) .brk)))
        (.ret (some (.prim false false ⟨.pure (.var 2), false, 8⟩)))))

def sampleLocals : List Local := (List.range 4).map .var ++ (List.range 12).map .tmp

def sampleCtx : Ctx := ⟨sampleTypes, 4, 8, 2, fun _ => .int, fun _ => 10, 12, some .int, allocate 0 sampleLocals⟩

def sampleValues (i : Nat) : Int := if i = 0 then 10 else 0

/-- `%rbp` is 1000, and `n` is 10. -/
def sampleStart : CM where
  m := ⟨fun r => if r = BP then 1000 else 0, fun a => if a = 952 then 10 else 0⟩
  xmm _ := none
  st := []
  cw := 0x37f
  sf := false
  cf := false
  skip := none

theorem sample_rep : Rep (allocate 0 sampleLocals) sampleTypes 4 sampleStart.m sampleValues := by
  intro i hi
  refine ⟨?_, ?_⟩
  · interval_cases i <;> unfold Stores <;> decide +kernel
  · interval_cases i <;> exact ⟨_, _, rfl, by decide⟩

/-- The abstract machine, as a function. -/
def iter (Γ : Nat → Basic) (body : Stmt Leaf) : Nat → SState Leaf (Nat → Int) → Option (SState Leaf (Nat → Int))
  | 0, s => some s
  | n + 1, s => (sstepWith (value Γ) body s).bind (iter Γ body n)

theorem iter_run {Γ : Nat → Basic} {body : Stmt Leaf} : ∀ {n : Nat} {s t : SState Leaf (Nat → Int)}, iter Γ body n s = some t → Run Γ body n s t
  | 0, s, t, h => by cases h; rfl
  | n + 1, s, t, h => by
    obtain ⟨m, h1, h2⟩ := Option.bind_eq_some_iff.mp h
    exact ⟨m, h1, iter_run h2⟩

def isEnd (i : Nat) (x r : Int) : Option (SState Leaf (Nat → Int)) → Bool
  | some (.done ρ (some y)) => ρ i == x && y == r
  | _ => false

/-- C says that 22 is returned, and that `c` is 1 then. -/
theorem sample_ends : ∃ ρ', Ends sampleTypes sampleBody sampleValues ρ' (some 22) ∧ ρ' 3 = 1 := by
  have h : isEnd 3 1 22 (iter sampleTypes sampleBody 59 (.exec sampleBody .stop sampleValues)) = true := by decide +kernel
  unfold isEnd at h
  split at h
  · rename_i ρ' y hi
    simp only [Bool.and_eq_true, beq_iff_eq] at h
    obtain ⟨h1, rfl⟩ := h
    exact ⟨ρ', ⟨59, iter_run hi⟩, h1⟩
  · cases h

theorem sample_wf : WellFormed sampleBody := by simp [WellFormed, sampleBody, Stmt.wf]

theorem sample_compiles : ∃ prog, compileBody sampleCtx sampleBody = some prog := by
  have h : (compileBody sampleCtx sampleBody).isSome = true := by decide +kernel
  exact Option.isSome_iff_exists.mp h

/-- Functions do what C says: whenever C says that the body of a function, started where the variables have values `ρ`, ends with values
`ρ'` and returns `r`, the code that is made of it, started at its first instruction where the variables have the values `ρ`, runs
to a `ret`, where the variables have the values `ρ'`, and `%rax` has `r`, converted to the type that the function returns.  Nothing
else is different but temporaries and scratch registers.  This is so for any places where nothing overlaps. -/
theorem C89_function_partial {C : Ctx} {body : Stmt Leaf} {prog : List MIns} {ρ ρ' : Nat → Int} {r : Option Int} {s : CM} (enc) (f : Option Flags)
    (hw : WellFormed body) (hc : compileBody C body = some prog) (hL : C.L.Good C.Γ C.N C.M (s.m.reg BP)) (hM : C.nl + C.K ≤ C.M) (hk : s.skip = none)
    (hr : Rep C.L C.Γ C.N s.m ρ) (h : Ends C.Γ body ρ ρ' r) :
    ∃ t g, Returns enc prog (s, f) (t, g) ∧ Rep C.L C.Γ C.N t.m ρ' ∧ Untouched C.L C.Γ C.N C.M (s.m.reg BP) s t ∧
      ∀ x, r = some x → ∃ b, C.tr = some b ∧ t.m.reg AX % 256 ^ size b = conv b x % 256 ^ size b :=
  body_returns enc f hw hc hL hM hk hr h

/-- The hypotheses hold for the function above, and so it returns 22. -/
example (enc) : ∃ prog t g, compileBody sampleCtx sampleBody = some prog ∧ Returns enc prog (sampleStart, none) (t, g) ∧
    Stores (allocate 0 sampleLocals) sampleTypes t.m 3 1 ∧ t.m.reg AX % 4294967296 = 22 := by
  obtain ⟨prog, hp⟩ := sample_compiles
  obtain ⟨ρ', h, h3⟩ := sample_ends
  obtain ⟨t, g, h1, h2, _, h4⟩ := C89_function_partial enc none sample_wf hp
    (allocate_good _ _ (by decide) (by decide) (by decide)) (by decide) rfl sample_rep h
  obtain ⟨b, hb, h5⟩ := h4 22 rfl
  cases hb
  exact ⟨prog, t, g, hp, h1, h3 ▸ (h2 3 (by decide)).1, h5⟩

/-- The code has one outcome: the state at the `ret` is the only one. -/
theorem C89_outcome {enc} {prog : List MIns} {s t t' : Expr.XM} (h : Returns enc prog s t) (h' : Returns enc prog s t') : t = t' := by
  have stop : ∀ {pc : Nat} {u : Expr.XM}, prog[pc]? = some .ret → mstep enc prog (pc, u) = none := by
    intro pc u h
    simp only [mstep, h]
  have key : ∀ {n n' : Nat} {a : Nat × Expr.XM} {p p' : Nat} {t t' : Expr.XM}, Steps enc prog n a (p, t) → Steps enc prog n' a (p', t') →
      prog[p]? = some .ret → prog[p']? = some .ret → t = t' := by
    intro n
    induction n with
    | zero =>
      intro n' a p p' t t' h h' hp hp'
      cases show a = (p, t) from h
      cases n' with
      | zero => cases show (p, t) = (p', t') from h'; rfl
      | succ n' => obtain ⟨m, hm, _⟩ := h'; rw [stop hp] at hm; cases hm
    | succ n ih =>
      rintro n' a p p' t t' ⟨m, hm, h⟩ h' hp hp'
      cases n' with
      | zero => cases show a = (p', t') from h'; rw [stop hp'] at hm; cases hm
      | succ n' =>
        obtain ⟨m', hm', h'⟩ := h'
        rw [hm] at hm'
        cases hm'
        exact ih h h' hp hp'
  obtain ⟨n, p, h1, h2⟩ := h
  obtain ⟨n', p', h1', h2'⟩ := h'
  exact key h1 h1' h2 h2'

/-- Two programs that return, in different states. -/
example (enc) : Returns enc [.label 0, .jmp 1, .ret, .label 1, .ret] (sampleStart, none) (sampleStart, none) ∧
    ¬ Returns enc [.label 0, .x (.cmp 4 (.imm 1) (.imm 1)), .jcc .e 1, .ret, .label 1, .x (.cmp 4 (.imm 1) (.imm 2)), .ret] (sampleStart, none) (sampleStart, none) := by
  refine ⟨⟨3, 4, ⟨_, rfl, _, rfl, _, rfl, rfl⟩, rfl⟩, ?_⟩
  intro h
  have h' : Returns enc [.label 0, .x (.cmp 4 (.imm 1) (.imm 1)), .jcc .e 1, .ret, .label 1, .x (.cmp 4 (.imm 1) (.imm 2)), .ret] (sampleStart, none)
      (sampleStart, some (Expr.compareFlags 4 1 2)) := ⟨5, 6, ⟨_, rfl, _, rfl, _, rfl, _, rfl, _, rfl, rfl⟩, rfl⟩
  cases C89_outcome h h'

/-- The same where the back end gives variables and temporaries their places (`allocate_locals`, `allocate_registers`), with nothing
assumed about them: all that is needed is that every variable and every temporary is among the locals. -/
theorem C89_frame_partial {C : Ctx} {body : Stmt Leaf} {prog : List MIns} {ρ ρ' : Nat → Int} {r : Option Int} {s : CM} (enc) (f : Option Flags)
    (so : Int) (l : List Local) (hv : ∀ i < C.N, .var i ∈ l) (ht : ∀ k < C.M, .tmp k ∈ l) (hL : C.L = allocate so l) (hw : WellFormed body)
    (hc : compileBody C body = some prog) (hM : C.nl + C.K ≤ C.M) (hk : s.skip = none) (hr : Rep C.L C.Γ C.N s.m ρ) (h : Ends C.Γ body ρ ρ' r) :
    ∃ t g, Returns enc prog (s, f) (t, g) ∧ (∀ t' g', Returns enc prog (s, f) (t', g') → t' = t) ∧ Rep C.L C.Γ C.N t.m ρ' ∧
      ∀ x, r = some x → ∃ b, C.tr = some b ∧ t.m.reg AX % 256 ^ size b = conv b x % 256 ^ size b := by
  have hG : C.L.Good C.Γ C.N C.M (s.m.reg BP) := by
    rw [hL]
    exact allocate_good so _ hv ht fun i hi => Fold.fits_isInt (hr i hi).2
  obtain ⟨t, g, h1, h2, _, h3⟩ := C89_function_partial enc f hw hc hG hM hk hr h
  refine ⟨t, g, h1, ?_, h2, h3⟩
  intro t' g' h'
  cases C89_outcome h1 h'
  rfl

example (enc) : ∃ prog t g, compileBody sampleCtx sampleBody = some prog ∧ Returns enc prog (sampleStart, none) (t, g) ∧ t.m.reg AX % 4294967296 = 22 := by
  obtain ⟨prog, hp⟩ := sample_compiles
  obtain ⟨ρ', h, _⟩ := sample_ends
  obtain ⟨t, g, h1, _, _, h4⟩ := C89_frame_partial enc none 0 sampleLocals (by decide) (by decide) rfl sample_wf hp (by decide) rfl sample_rep h
  obtain ⟨b, hb, h5⟩ := h4 22 rfl
  cases hb
  exact ⟨prog, t, g, hp, h1, h5⟩

end Verif.Flow
