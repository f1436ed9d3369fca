import Verif.Opt.Optimize
import Verif.Opt.Array

/-!
# C33 liveness, C34 dead stores, C35 chained assignments, C36 termination of the optimiser, C60 the statement array
-/

namespace Verif.Opt

open Verif (Bytes)

/-! ## A small world for examples and counterexamples -/

namespace Demo

/-- Type 0 is `int`, 1 `char`, 2 a pointer, 3 a large structure.  Symbols 0 and 1
are automatic `int`s, 2 and 3 automatic pointers, 4 an automatic `volatile int`, 5
an automatic structure, 6 a static `int`, 7 a static pointer; the rest are static
`int`s. -/
def env : Env where
  sym := fun n =>
    match n with
    | 0 | 1 => ⟨true, true, true, false, 0⟩
    | 2 | 3 => ⟨true, true, true, false, 2⟩
    | 4 => ⟨true, true, true, true, 0⟩
    | 5 => ⟨true, false, true, false, 3⟩
    | 7 => ⟨true, true, false, false, 2⟩
    | _ => ⟨true, true, false, false, 0⟩
  size := fun t => match t with | 0 => 4 | 1 => 1 | 2 => 8 | _ => 32
  hasPtr := fun t => t == 2
  aggregate := fun t => t == 3

theorem env_ok : EnvOk env := by
  intro o
  match o with
  | 0 | 1 | 2 | 3 | 4 | 5 => intro _; exact ⟨by omega, rfl⟩
  | 6 | 7 => intro h; cases h
  | n + 8 => intro h; cases h

/-- A pointer value holds the number of an object; a called function copies what
the static pointer (object 7) designates, if that is variable 0, to the static
`int` (object 6). -/
def sem : Sem env where
  decode := fun b off => ((b.getD 0 0).toNat, off)
  addr := fun s _ => [UInt8.ofNat s]
  const := fun n _ => [UInt8.ofNat n, 1, 2, 3]
  op := fun _ _ a _ => a
  fieldGet := fun _ _ v => v
  fieldPut := fun _ _ _ v => v
  call := fun _ _ m => (fun o i => if o = 6 ∧ m 7 0 = 0 ∧ i < 4 then m 0 i else m o i, [])
  call_ext := by
    intro f as m m' h
    refine ⟨rfl, ?_⟩
    intro o i _ hi
    have h7 : m 7 0 = m' 7 0 := h 7 0 trivial (by decide)
    simp only [h7]
    split
    · rename_i hc; exact h 0 i trivial hc.2.2
    · exact h o i trivial hi
  vaArg := fun _ v => (v, v)
  vaStart := []
  truth := fun v => v.getD 0 0 != 0

def direct (s ty : Nat) : Var := ⟨.direct, some s, ty, 0, 0, 0, 0⟩
def imm (n ty : Nat) : Var := ⟨.immediate, none, ty, 0, 0, 0, n⟩
def addrOf (s : Nat) : Var := ⟨.address, some s, 2, 0, 0, 0, 0⟩
def through (s ty : Nat) : Var := ⟨.deref, some s, ty, 0, 0, 0, 0⟩
def val (v : Var) : Expr := ⟨.cast, v.ty, v, v⟩
def set (t : Var) (e : Expr) : Stmt := ⟨.assign, t, e, 0⟩
def callOf (ty : Nat) : Expr := ⟨.call, ty, imm 9 2, imm 0 0⟩

/-- A body of one block returning the value of `e`. -/
def body (l : List Stmt) (e : Expr) : Prog := fun _ => ⟨l, e, none, none, true, 0, 0⟩

/-- A called function does nothing at all. -/
def quiet : Sem env := { sem with
  call := fun _ _ m => (m, [])
  call_ext := fun _ _ _ _ h => ⟨rfl, h⟩ }

theorem quiet_confined : Confined quiet := fun _ _ _ _ _ h => ⟨rfl, h, fun _ _ _ _ => rfl⟩

theorem body_graph (l : List Stmt) (e : Expr) : GraphOk (body l e) 1 :=
  ⟨by decide, (by rintro n a (h | h) <;> (cases h)), (by intro n h; (cases h))⟩

theorem body_cycle (l : List Stmt) (e : Expr) : NoEmptyCycle (body l e) 1 :=
  ⟨fun _ => 0, (fun _ => Nat.one_pos), (by intro n y _ _ h; (cases h))⟩

/-- What is executed in block 0. -/
def view (P : Prog) : List Stmt × Expr × Option Nat × Option Nat × Bool :=
  ((P 0).code.map erase, (P 0).expr, (P 0).j0, (P 0).j1, (P 0).hasReturnValue)

theorem body_returns {l : List Stmt} {e : Expr} {Q : Prog} {E : Env} (S : Sem E)
    (h : view Q = (l, e, none, none, true)) {m : Mem} {v : Option Bytes} {m' : Mem} :
    Returns S Q m v m' ↔
      (some (evalE S e (execs S l ⟨m, []⟩)).2, (evalE S e (execs S l ⟨m, []⟩)).1.mem) = (v, m') := by
  unfold view at h
  simp only [Prod.mk.injEq] at h
  obtain ⟨h1, h2, h3, h4, h5⟩ := h
  have hstep : ∀ k, run S Q (k + 1) 0 ⟨m, []⟩
      = .done (some (evalE S e (execs S l ⟨m, []⟩)).2) (evalE S e (execs S l ⟨m, []⟩)).1.mem := by
    intro k
    unfold run stepBlock leave
    rw [h3, h5, h2, ← execs_erase S (Q 0).code, h1]
    rfl
  constructor
  · rintro ⟨k, hk⟩
    cases k with
    | zero => cases hk
    | succ k =>
      rw [hstep k] at hk
      simp only [Next.done.injEq] at hk
      rw [hk.1, hk.2]
  · intro h
    simp only [Prod.mk.injEq] at h
    exact ⟨1, by rw [hstep 0, h.1, h.2]⟩

/-- `x = 1; y = x; x = 2; return y`. -/
def good : List Stmt :=
  [set (direct 0 0) (val (imm 1 0)), set (direct 1 0) (val (direct 0 0)),
    set (direct 0 0) (val (imm 2 0))]

theorem good_ok : ProgOk env (body good (val (direct 1 0))) := by
  intro n
  refine ⟨?_, ?_, ?_⟩
  · intro s hs
    have hs' : s ∈ good := hs
    simp only [good, List.mem_cons, List.not_mem_nil, or_false] at hs'
    rcases hs' with rfl | rfl | rfl <;>
      exact ⟨(by rintro y _ _ h _; (cases h); exact ⟨rfl, rfl, rfl⟩), (by rintro y _ h; (cases h)),
        (by rintro y _ _ h; (cases h); decide)⟩
  · show ParamsOk false good _
    simp [good, ParamsOk, set]
  · intro _ e _
    show ParamsOk false good _
    simp [good, ParamsOk, set]

end Demo

/-! ## C33 -/

/-- **C33** (termination): whatever the program and whatever the blocks visited,
the iteration started by `initialize_dataflow` stops. -/
theorem C33_terminates (E : Env) (bl : List Nat) (P : Prog) :
    ∃ fuel Q, dataflow E bl fuel (initDataflow P) = some Q := by
  obtain ⟨Q, h⟩ := dataflow_terminates up (bl.length * 2 ^ 64 + 1) (initDataflow P)
    (moving_init (E := E) (bl := bl)) (Nat.lt_succ_of_le (potential_bound up bl _))
  exact ⟨_, Q, h⟩

/-- **C33** (soundness at the start of a block): a variable that is not reported
live there can hold anything without that being noticed.  *Partial*: the address
of no automatic variable escapes to a callee that is not handed a pointer
(`Confined`) and assignments to a scalar variable by name write all of it
(`WholeStore`, in `ProgOk`). -/
theorem C33_block_partial {E : Env} (S : Sem E) (hE : EnvOk E) (hS : Confined S) {P Q : Prog}
    {bl : List Nat} {fuel : Nat} (hok : ProgOk E P) (hc : Closed P bl)
    (h : dataflow E bl fuel P = some Q) (k n : Nat) (hn : n ∈ bl) (x x' : State)
    (ha : AlikeOn E (Q n).inn x x') :
    SameOutcome E (run S P k n x) (run S P k n x') := by
  have := outcome_of_rel (run_live S hE hS hok hc h k n hn x x' (agree_of_alike ha) ha.1)
  have s1 := (dataflow_fixed fuel P Q h).1
  rwa [← run_same S s1, ← run_same S s1] at this

/-- **C33** (soundness at every point): the same for the point after any statement
that does not set aside an argument. -/
theorem C33_statement_partial {E : Env} (S : Sem E) (hE : EnvOk E) (hS : Confined S) {P Q : Prog}
    {bl : List Nat} {fuel : Nat} (hok : ProgOk E P) (hc : Closed P bl)
    (h : dataflow E bl fuel P = some Q) (k n : Nat) (hn : n ∈ bl) {pre post : List Stmt} {s : Stmt}
    (hcode : (Q n).code = pre ++ s :: post) (hs : s.st ≠ .param) {x x' : State}
    (ha : AlikeOn E s.out x x') :
    SameOutcome E (resume S Q k n post x) (resume S Q k n post x') :=
  resume_live S hE hS hok hc h k n hn hcode hs ha

/-- Not everything is live: before the last statement of the example `x` is dead
and `y` is not. -/
example : ∃ Q s pre post, dataflow Demo.env [0] 3 (Demo.body Demo.good (Demo.val (Demo.direct 1 0))) = some Q
    ∧ (Q 0).code = pre ++ s :: post ∧ s.st ≠ .param ∧ s.out = bit 1
    ∧ EnvOk Demo.env ∧ Confined Demo.quiet
    ∧ ProgOk Demo.env (Demo.body Demo.good (Demo.val (Demo.direct 1 0)))
    ∧ Closed (Demo.body Demo.good (Demo.val (Demo.direct 1 0))) [0] := by
  refine ⟨_, _, [_], [_], rfl, rfl, by decide, ?_, Demo.env_ok, Demo.quiet_confined, Demo.good_ok, ?_⟩
  · decide +kernel
  · intro n _; exact ⟨fun a h => by (cases h), fun a h => by (cases h)⟩

/-- **C33 violated**: `int x = n; *(char *) &x = 0; return x;` — after the first
assignment `x` is reported dead, although three of its bytes are still read. -/
theorem C33_partial_write_violated :
    ∃ (P Q : Prog) (s : Stmt) (post : List Stmt), dataflow Demo.env [0] 3 P = some Q
      ∧ (Q 0).code = s :: post ∧ s.st ≠ .param
      ∧ ∃ x x', AlikeOn Demo.env s.out x x'
        ∧ ¬ SameOutcome Demo.env (resume Demo.quiet Q 0 0 post x) (resume Demo.quiet Q 0 0 post x') := by
  refine ⟨Demo.body [Demo.set (Demo.direct 0 0) (Demo.val (Demo.imm 4 0)),
    Demo.set (Demo.direct 0 1) (Demo.val (Demo.imm 0 1))] (Demo.val (Demo.direct 0 0)), _, _, [_],
    rfl, rfl, by decide, ⟨fun _ _ => 0, []⟩, ⟨fun o _ => if o = 0 then 1 else 0, []⟩,
    ⟨rfl, rfl, ?_⟩, ?_⟩
  · intro o i _ h
    simp only
    split
    · rename_i e
      subst e
      have := h rfl
      exact absurd this (by decide +kernel)
    · rfl
  · intro h
    exact absurd h.1 (by decide +kernel)

/-! ## C34 -/

/-- **C34**: dead store elimination of any of the blocks, as annotated by the
analysis, leaves the behaviour of the function as it was.  *Partial*: same
conditions as C33. -/
theorem C34_dse_partial {E : Env} (S : Sem E) (hE : EnvOk E) (hS : Confined S) {P Q : Prog}
    {bl ns : List Nat} {fuel : Nat} (hok : ProgOk E P) (hc : Closed P bl) (h0 : 0 ∈ bl)
    (h : dataflow E bl fuel P = some Q) (hns : ∀ n ∈ ns, n ∈ bl) :
    Equiv S P (traverse (onCode (dse E)) ns Q).1 := by
  obtain ⟨s1, s2⟩ := dataflow_fixed fuel P Q h
  refine Equiv.trans S (equiv_same S s1) (dse_all S hE hS h0 ns Q hns (progOk_same s1 hok)
    (closed_congr (fun n => ⟨(s1 n).1, (s1 n).2.1⟩) hc) ?_ s2.ann).1
  intro n hn
  rw [s2.eq n hn]
  exact Sub.refl _

/-- **C34** for the optimiser as a whole: threading of jumps, and any number of
rounds of analysis, dead store elimination and merging of assignments.  *Partial*:
same conditions as C33, and assignments through a pointer are not of the type of
the pointer itself (`NoSelfPointer`, in `ProgOk`). -/
theorem C34_optimize_partial {E : Env} (S : Sem E) (hE : EnvOk E) (hS : Confined S) {P Q : Prog}
    {N fuel : Nat} (hok : ProgOk E P) (hg : GraphOk P N) (h : optimize E N fuel P = some Q) :
    Equiv S P Q :=
  optimize_ok S hE hS hok hg h

/-- The example meets the conditions, and the optimiser shortens it to
`y = 1; return y`. -/
example : ProgOk Demo.env (Demo.body Demo.good (Demo.val (Demo.direct 1 0)))
    ∧ GraphOk (Demo.body Demo.good (Demo.val (Demo.direct 1 0))) 1
    ∧ ((optimize Demo.env 1 5 (Demo.body Demo.good (Demo.val (Demo.direct 1 0)))).map Demo.view)
      = some ([Demo.set (Demo.direct 1 0) (Demo.val (Demo.imm 1 0))], Demo.val (Demo.direct 1 0),
          none, none, true) :=
  ⟨Demo.good_ok, Demo.body_graph _ _, by decide +kernel⟩

/-- **C34 violated**, first way: `int x = n; *(char *) &x = 0; return x;` loses the
first assignment, and three of the bytes of `x` are returned uninitialised. -/
theorem C34_partial_write_violated :
    ∃ (P Q : Prog), optimize Demo.env 1 5 P = some Q ∧ GraphOk P 1 ∧ Confined Demo.quiet
      ∧ ¬ Equiv Demo.quiet P Q := by
  have hv : ((optimize Demo.env 1 5 (Demo.body
      [Demo.set (Demo.direct 0 0) (Demo.val (Demo.imm 4 0)),
        Demo.set (Demo.direct 0 1) (Demo.val (Demo.imm 0 1))]
      (Demo.val (Demo.direct 0 0)))).map Demo.view)
      = some ([Demo.set (Demo.direct 0 1) (Demo.val (Demo.imm 0 1))], Demo.val (Demo.direct 0 0),
          none, none, true) := by decide +kernel
  cases hq : optimize Demo.env 1 5 (Demo.body
      [Demo.set (Demo.direct 0 0) (Demo.val (Demo.imm 4 0)),
        Demo.set (Demo.direct 0 1) (Demo.val (Demo.imm 0 1))] (Demo.val (Demo.direct 0 0))) with
  | none => rw [hq] at hv; cases hv
  | some Q =>
    rw [hq] at hv
    simp only [Option.map_some, Option.some.injEq] at hv
    refine ⟨_, Q, hq, Demo.body_graph _ _, Demo.quiet_confined, ?_⟩
    intro h
    obtain ⟨m'', h1, -⟩ := (h (fun _ _ => 7) _).1 _ ((Demo.body_returns Demo.quiet (by rfl)).2 rfl)
    have h2 := (Demo.body_returns Demo.quiet hv).1 h1
    simp only [Prod.mk.injEq] at h2
    exact absurd h2.1 (by decide +kernel)

/-- **C34 violated**, second way: `p = &x; x = n; f(); return 0;` loses the
assignment to `x`, although `f` reads it through the static pointer `p`.  All
stores are whole; the callee is not `Confined`. -/
theorem C34_escape_violated :
    ∃ (P Q : Prog), optimize Demo.env 1 5 P = some Q ∧ GraphOk P 1
      ∧ ¬ Equiv Demo.sem P Q := by
  have hv : ((optimize Demo.env 1 5 (Demo.body
      [Demo.set (Demo.direct 7 2) (Demo.val (Demo.addrOf 0)),
        Demo.set (Demo.direct 0 0) (Demo.val (Demo.imm 4 0)),
        ⟨.expr, Demo.imm 0 0, Demo.callOf 0, 0⟩]
      (Demo.val (Demo.direct 6 0)))).map Demo.view)
      = some ([Demo.set (Demo.direct 7 2) (Demo.val (Demo.addrOf 0)),
          ⟨.expr, Demo.imm 0 0, Demo.callOf 0, 0⟩], Demo.val (Demo.direct 6 0),
          none, none, true) := by decide +kernel
  cases hq : optimize Demo.env 1 5 (Demo.body
      [Demo.set (Demo.direct 7 2) (Demo.val (Demo.addrOf 0)),
        Demo.set (Demo.direct 0 0) (Demo.val (Demo.imm 4 0)),
        ⟨.expr, Demo.imm 0 0, Demo.callOf 0, 0⟩]
      (Demo.val (Demo.direct 6 0))) with
  | none => rw [hq] at hv; cases hv
  | some Q =>
    rw [hq] at hv
    simp only [Option.map_some, Option.some.injEq] at hv
    refine ⟨_, Q, hq, Demo.body_graph _ _, ?_⟩
    intro h
    obtain ⟨m'', h1, -⟩ := (h (fun _ _ => 7) _).1 _ ((Demo.body_returns Demo.sem (by rfl)).2 rfl)
    have h2 := (Demo.body_returns Demo.sem hv).1 h1
    simp only [Prod.mk.injEq] at h2
    exact absurd h2.1 (by decide +kernel)

/-- **C34 violated**, third way: an assignment to a `volatile` variable is
removed. -/
theorem C34_volatile_violated :
    ∃ (P : Prog), (Demo.env.sym 4).volatile = true
      ∧ Demo.set (Demo.direct 4 0) (Demo.val (Demo.imm 1 0)) ∈ (P 0).code
      ∧ ((optimize Demo.env 1 5 P).map fun Q => (Q 0).code) = some [] :=
  ⟨Demo.body [Demo.set (Demo.direct 4 0) (Demo.val (Demo.imm 1 0))] (Demo.val (Demo.imm 0 0)),
    rfl, List.mem_cons_self, by decide +kernel⟩

/-- **C34 violated**, fourth way: `f ();` for `f` returning a structure is built
as an assignment to a temporary, which tells the callee where to put the result;
the optimiser takes the temporary away.  (Code generation then fails the
assertion in src/backend/x86_64/compile.c:2163-2216.) -/
theorem C34_aggregate_call_violated :
    ∃ (P : Prog), (∀ s ∈ (P 0).code, Demo.env.aggregate s.expr.ty = true → s.st = .assign)
      ∧ ((optimize Demo.env 1 5 P).map fun Q =>
          (Q 0).code.any fun s => s.st == .expr && Demo.env.aggregate s.expr.ty) = some true :=
  ⟨Demo.body [Demo.set (Demo.direct 5 3) (Demo.callOf 3)] (Demo.val (Demo.imm 0 0)),
    by intro s hs _; simp only [Demo.body, List.mem_singleton] at hs; subst hs; rfl,
    by decide +kernel⟩

/-! ## C35 -/

/-- **C35**: replacing `s1; s2` by their merger changes nothing but the variable
assigned by `s1`, which is not live after `s2`.  *Partial*: `NoSelfPointer`, whole
and in-bounds stores. -/
theorem C35_pair_partial {E : Env} (S : Sem E) (hE : EnvOk E) {s1 s2 : Stmt}
    (h : canMerge E s1 s2 = true) (h1 : StmtOk E s1) (h2 : StmtOk E s2) (x : State) :
    ∃ y, s1.t.sym = some y ∧ (E.sym y).automatic = true ∧ s2.out.getLsbD y = false
      ∧ (exec S s2 (exec S s1 x)).args = (exec S { s1 with t := s2.t } x).args
      ∧ Same E (· ≠ y) (exec S s2 (exec S s1 x)).mem (exec S { s1 with t := s2.t } x).mem := by
  obtain ⟨y, hy⟩ := canMerge_spec hE h
  obtain ⟨a, b⟩ := merge_pair S hE hy h1 h2 x
  have hauto : (E.sym y).automatic = true := by
    unfold canMerge at h
    simp only [Bool.and_eq_true, hy.sym1] at h
    exact h.2.1.1
  refine ⟨y, hy.sym1, hauto, ?_, a, b⟩
  obtain ⟨hlt, ho⟩ := hE y hauto
  unfold canMerge at h
  simp only [Bool.and_eq_true, hy.sym1, isLiveAfter, ho, if_true, Bool.not_eq_true'] at h
  have := h.2.2
  by_contra c
  simp only [Bool.not_eq_false] at c
  rw [bne_eq_false_iff_eq] at this
  have h3 := congrArg (fun v : Live => v.getLsbD y) this
  simp only [BitVec.getLsbD_and, c, getLsbD_bit, BitVec.getLsbD_zero] at h3
  simp [hlt] at h3

/-- **C35**: merging in any of the blocks, as annotated by the analysis, leaves
the behaviour of the function as it was.  *Partial*: as for C34. -/
theorem C35_merge_partial {E : Env} (S : Sem E) (hE : EnvOk E) (hS : Confined S) {P Q : Prog}
    {bl ns : List Nat} {fuel : Nat} (hok : ProgOk E P) (hc : Closed P bl) (h0 : 0 ∈ bl)
    (h : dataflow E bl fuel P = some Q) (hns : ∀ n ∈ ns, n ∈ bl) (hd : ns.Nodup) :
    Equiv S P (traverse (onCode (merge E)) ns Q).1 := by
  obtain ⟨s1, s2⟩ := dataflow_fixed fuel P Q h
  refine Equiv.trans S (equiv_same S s1) (merge_all S hE hS h0 ns Q hns hd (progOk_same s1 hok)
    (closed_congr (fun n => ⟨(s1 n).1, (s1 n).2.1⟩) hc) ?_ (fun n hn => s2.ann n (hns n hn))).1
  intro n hn
  rw [s2.eq n hn]
  exact Sub.refl _

example : canMerge Demo.env (Demo.set (Demo.direct 0 0) (Demo.val (Demo.imm 1 0)))
    (Demo.set (Demo.direct 1 0) (Demo.val (Demo.direct 0 0))) = true := by decide +kernel

/-- **C35 violated**: `p = q; p->next = p;` becomes `p->next = q;` with `p` never
assigned.  All stores are whole and in bounds and the callee is confined. -/
theorem C35_self_pointer_violated :
    ∃ (P Q : Prog), optimize Demo.env 1 5 P = some Q ∧ GraphOk P 1 ∧ Confined Demo.quiet
      ∧ ¬ Equiv Demo.quiet P Q := by
  have hv : ((optimize Demo.env 1 5 (Demo.body
      [Demo.set (Demo.direct 2 2) (Demo.val (Demo.direct 3 2)),
        Demo.set (Demo.through 2 2) (Demo.val (Demo.direct 2 2))]
      (Demo.val (Demo.direct 7 2)))).map Demo.view)
      = some ([Demo.set (Demo.through 2 2) (Demo.val (Demo.direct 3 2))],
          Demo.val (Demo.direct 7 2), none, none, true) := by decide +kernel
  cases hq : optimize Demo.env 1 5 (Demo.body
      [Demo.set (Demo.direct 2 2) (Demo.val (Demo.direct 3 2)),
        Demo.set (Demo.through 2 2) (Demo.val (Demo.direct 2 2))]
      (Demo.val (Demo.direct 7 2))) with
  | none => rw [hq] at hv; cases hv
  | some Q =>
    rw [hq] at hv
    simp only [Option.map_some, Option.some.injEq] at hv
    refine ⟨_, Q, hq, Demo.body_graph _ _, Demo.quiet_confined, ?_⟩
    intro h
    obtain ⟨m'', h1, -⟩ := (h (fun o _ => if o = 3 then 7 else 8) _).1 _
      ((Demo.body_returns Demo.quiet (by rfl)).2 rfl)
    have h2 := (Demo.body_returns Demo.quiet hv).1 h1
    simp only [Prod.mk.injEq] at h2
    exact absurd h2.1 (by decide +kernel)

/-! ## C36 -/

/-- **C36**: the optimiser terminates.  *Partial*: no cycle of empty blocks, and
the conditions of C34 on the statements. -/
theorem C36_terminates_partial {E : Env} (hE : EnvOk E) {P : Prog} {N : Nat} (hok : ProgOk E P)
    (hg : GraphOk P N) (hr : NoEmptyCycle P N) : ∃ fuel Q, optimize E N fuel P = some Q :=
  optimize_some hE hok hg hr

example : ∃ P N, ProgOk Demo.env P ∧ GraphOk P N ∧ NoEmptyCycle P N ∧ (P 0).code ≠ [] :=
  ⟨_, _, Demo.good_ok, Demo.body_graph _ _, Demo.body_cycle _ _, by decide⟩

/-- **C36** (jump threading): `skip_empty_blocks` keeps the behaviour of every
function. -/
theorem C36_skip {E : Env} (S : Sem E) {P Q : Prog} {N fuel : Nat} (hg : GraphOk P N)
    (h : skipAll fuel (serialize P (N + 1) 0 []) P = some Q) : Equiv S P Q :=
  (skipAll_ok (E := E) _ P Q (fun _ h => h) (serialize_all hg).1 h).equiv S

example : ((skipAll 5 [0, 1] (fun n => if n = 0 then ⟨[], Demo.val (Demo.imm 0 0), some 1, none, false, 0, 0⟩
      else if n = 1 then ⟨[], Demo.val (Demo.imm 0 0), some 2, none, false, 0, 0⟩
      else ⟨[], Demo.val (Demo.imm 0 0), none, none, false, 0, 0⟩)).map fun Q => (Q 0).j0)
    = some (some 2) := by decide +kernel

/-- **C36 violated**: for `for (;;) ;` the optimiser never comes back, however
long it runs. -/
theorem C36_empty_loop_violated (E : Env) :
    ∃ P : Prog, GraphOk P 1 ∧ ∀ fuel, optimize E 1 fuel P = none := by
  refine ⟨fun _ => ⟨[], Demo.val (Demo.imm 0 0), some 0, none, false, 0, 0⟩,
    ⟨by decide, ?_, ?_⟩, fun fuel => ?_⟩
  · rintro n a (h | h)
    · cases h; decide
    · cases h
  · intro n h; cases h
  · have key : ∀ fuel, skipTo (fun _ => ⟨[], Demo.val (Demo.imm 0 0), some 0, none, false, 0, 0⟩) fuel 0 = none := by
      intro fuel
      induction fuel with
      | zero => rfl
      | succ k ih => unfold skipTo; simpa using ih
    have hs : serialize (fun _ => ⟨[], Demo.val (Demo.imm 0 0), some 0, none, false, 0, 0⟩) 2 0 [] = [0] := by
      decide
    unfold optimize
    simp only [hs, skipAll, skipEmpty, key]

/-! ## C60 -/

/-- **C60** (erasing): erasing a statement of block `b` removes it from `b` and
leaves every other block as it was; blocks keep not overlapping. -/
theorem C60_erase {α : Type} {s : Store α} (hs : s.Ok) {b : Nat} {r : Range}
    (hb : s.nodes[b]? = some r) {i : Nat} (hi : i < r.count) :
    ∃ s', s.erase (r.head + i) = some s' ∧ s'.Ok ∧ s'.seq b = (s.seq b).eraseIdx i
      ∧ ∀ k, k ≠ b → s'.seq k = s.seq k := by
  obtain ⟨s', -, h1, h2, h3, h4, -⟩ := erase_block hs hb hi
  exact ⟨s', h1, h2, h3, h4⟩

/-- **C60** (appending): when `append_statement` does not fail its assertion, the
statement is added at the end of block `b` and every other block is as it was. -/
theorem C60_append {α : Type} {s s' : Store α} {b : Nat} {x : α} (hs : s.Ok)
    (h : s.append b x = some s') :
    s'.Ok ∧ s'.seq b = s.seq b ++ [x] ∧ ∀ k, k ≠ b → s'.seq k = s.seq k :=
  append_seq hs h

/-- **C60** (appending succeeds): to the block appended to last, and to a block
without statements. -/
theorem C60_append_ok {α : Type} {s : Store α} {b : Nat} {r : Range} (hb : s.nodes[b]? = some r)
    (h : r.count = 0 ∨ r.head + r.count = s.stmts.length) (x : α) : ∃ s', s.append b x = some s'
      ∧ ∀ y, ∃ s'', s'.append b y = some s'' := by
  have hlt : b < s.nodes.length := by
    by_contra c
    rw [List.getElem?_eq_none (by omega)] at hb; cases hb
  refine ⟨_, by unfold Store.append; rw [hb]; exact if_pos h, fun y => ?_⟩
  unfold Store.append
  simp only [List.getElem?_set_self hlt, List.length_append, List.length_singleton]
  refine ⟨_, if_pos (Or.inr ?_)⟩
  by_cases hc : r.count = 0
  · simp [hc]
  · simp only [hc, if_false]; omega

/-- **C60** (the loops): walking a block of the shared array while erasing does to
the block what C34 and C35 are about, and nothing to the other blocks. -/
theorem C60_loops (E : Env) {s : Store Stmt} (hs : s.Ok) {b : Nat} {r : Range}
    (hb : s.nodes[b]? = some r) :
    (∃ s', dseArray E b (r.count + 1) s 0 0 = some (s', (dse E (s.seq b)).2) ∧ s'.Ok
        ∧ s'.seq b = (dse E (s.seq b)).1 ∧ ∀ k, k ≠ b → s'.seq k = s.seq k)
    ∧ (∃ s', mergeArray E b s = some (s', (merge E (s.seq b)).2) ∧ s'.Ok
        ∧ s'.seq b = (merge E (s.seq b)).1 ∧ ∀ k, k ≠ b → s'.seq k = s.seq k) := by
  have hlen := seq_length hs hb
  constructor
  · obtain ⟨s', h1, h2, h3, h4⟩ := dseArray_ok E b (r.count + 1) s 0 0 [] (s.seq b) r hs hb rfl rfl
      (by omega)
    exact ⟨s', by rw [h1, Nat.zero_add], h2, h3, h4⟩
  · unfold mergeArray
    rw [hb]
    simp only
    cases hseq : s.seq b with
    | nil =>
      rw [hseq] at hlen
      simp only [List.length_nil] at hlen
      rw [if_pos (by omega)]
      refine ⟨s, by unfold merge; rfl, hs, by rw [hseq]; unfold merge; rfl, fun _ _ => rfl⟩
    | cons a l =>
      rw [hseq] at hlen
      simp only [List.length_cons] at hlen
      by_cases h1 : r.count ≤ 1
      · rw [if_pos h1]
        have : l = [] := List.length_eq_zero_iff.1 (by omega)
        subst this
        refine ⟨s, by unfold merge; rfl, hs, by rw [hseq]; unfold merge; rfl, fun _ _ => rfl⟩
      · rw [if_neg h1]
        have hget : s.stmts[r.head]? = some a := by
          have := seq_get hb (i := 0) (by omega)
          rw [Nat.add_zero, hseq] at this
          exact this
        rw [hget]
        simp only
        obtain ⟨s', h1, h2, h3, h4⟩ := mergeLoop_ok E b (r.count + 1) s a 1 0 [] l r hs hb
          (by rw [hseq]; rfl) rfl (by omega)
        exact ⟨s', by rw [h1, Nat.zero_add], h2, h3, h4⟩

/-- Two blocks sharing an array: the second comes first in it. -/
example : ∃ s : Store Nat, s.Ok ∧ s.seq 0 = [3, 4] ∧ s.seq 1 = [1, 2]
    ∧ (s.erase 0).map (fun s' => (s'.seq 0, s'.seq 1)) = some ([3, 4], [2])
    ∧ (s.append 0 5).map (fun s' => (s'.seq 0, s'.seq 1)) = some ([3, 4, 5], [1, 2])
    ∧ s.append 1 5 = none := by
  refine ⟨⟨[1, 2, 3, 4], [⟨2, 2⟩, ⟨0, 2⟩]⟩, ⟨?_, ?_⟩, by decide, by decide, by decide, by decide,
    by decide⟩
  · intro b r h _
    match b with
    | 0 => cases h; decide
    | 1 => cases h; decide
    | n + 2 => simp at h
  · intro b b' r r' hne h h' _ _
    match b, b' with
    | 0, 0 => exact absurd rfl hne
    | 0, 1 => cases h; cases h'; decide
    | 1, 0 => cases h; cases h'; decide
    | 1, 1 => exact absurd rfl hne
    | n + 2, _ => simp at h
    | _, n + 2 => simp at h'

end Verif.Opt
