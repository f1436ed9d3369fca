import Verif.Compare.Lemmas

/-!
# C31 negated comparisons, C41 condition codes, C75 the x87 stack
-/

namespace Verif.Compare

/-! ## C31 -/

/-- The lowering of the six source operators to four IR operators has the C meaning. -/
theorem lower_holds {α : Type} (o : Order α) (r : Rel) (a b : α) : (lower r a b).holds o = r.holds (o.cmp a b) := by
  have h := o.swap a b
  unfold Cmp.holds
  cases r <;> simp only [lower, h] <;> rcases o.cmp a b with _ | (_ | _ | _) <;> rfl

/-- **C31**: `!(a op b)` is the negation of `a op b` for every operator when the operands are ordered.  Missing: unordered
operands, where it fails for the relational operators (`C31_unordered_violated`). -/
theorem C31_negation_partial {α : Type} (o : Order α) (r : Rel) (a b : α) (h : o.cmp a b ≠ none) :
    (negate (lower r a b)).holds o = !(r.holds (o.cmp a b)) := by
  have hs := o.swap a b
  unfold Cmp.holds
  cases r <;> simp only [lower, negate, hs] <;> rcases hc : o.cmp a b with _ | (_ | _ | _) <;> first | rfl | exact absurd hc h

/-- **C31** for `==` and `!=`: also when an operand is a NaN. -/
theorem C31_equality {α : Type} (o : Order α) (r : Rel) (hr : r = .eq ∨ r = .ne) (a b : α) :
    (negate (lower r a b)).holds o = !(r.holds (o.cmp a b)) := by
  rcases hr with rfl | rfl <;> unfold Cmp.holds <;> simp only [lower, negate] <;> rcases o.cmp a b with _ | (_ | _ | _) <;> rfl

/-- Numbers with a NaN. -/
def nanOrder : Order (Option Int) where
  cmp a b := match a, b with
    | some x, some y => some (compare x y)
    | _, _ => none
  swap a b := by
    cases a <;> cases b <;> try rfl
    simp only [Option.map_some]
    rw [Int.compare_swap]

/-- **C31** violated: for every relational operator, `!(a op b)` is 0 when an operand is a NaN, though `a op b` is 0 too. -/
theorem C31_unordered_violated {α : Type} (o : Order α) (r : Rel) (hr : r ≠ .eq ∧ r ≠ .ne) (a b : α) (h : o.cmp a b = none) :
    r.holds (o.cmp a b) = false ∧ (negate (lower r a b)).holds o = false := by
  have hs := o.swap a b
  unfold Cmp.holds
  rw [h] at hs ⊢
  rcases r with _ | _ | _ | _ | _ | _ <;> simp_all [lower, negate, Rel.holds, Op.holds]

/-- `!(1 < 2)` is 0, `!(2 < 1)` is 1; `!(1 < NaN)` is wrong. -/
example : (negate (lower .lt (some 1) (some 2))).holds nanOrder = false ∧ (negate (lower .lt (some 2) (some 1))).holds nanOrder = true ∧
    nanOrder.cmp (some 1) (some 2) ≠ none ∧ nanOrder.cmp (some 1) none = none := by decide

/-! ## C41 -/

/-- Integer comparisons as an `Order`. -/
def intOrder (w : Nat) (s : Bool) : Order (BitVec w) := ⟨fun a b => some (intCmp s a b), fun a b => by simp [intCmp_swap s a b]⟩

def isSigned : Kind → Bool
  | .signed => true
  | _ => false

/-- **C41** (integers): for every operator, signedness, width, placement of the operands (constant, memory, register,
anything else) and all values, the jumps after the emitted `CMP` lead to the block for "true" exactly when the comparison
holds, and so does the value set when the result is stored. -/
theorem C41_integer (k : Kind) (hk : k.isReal = false) (op : Op) (wide : Bool) (lf rf : Form) (w : Nat) (hw : isWidth w)
    (a b : BitVec w) (p : Bool) :
    let c := intCompare k op wide lf rf
    let f := cmpFlags (pick a b c.1.dst) (pick a b c.1.src) p
    runJumps f (branches k c.2) = op.holds (some (intCmp (isSigned k) a b)) ∧
    (setValue k c.2).eval f = op.holds (some (intCmp (isSigned k) a b)) := by
  intro c f
  obtain ⟨z1, s1, u1⟩ := flags_compare hw (isSigned k) a b p
  obtain ⟨z2, s2, u2⟩ := flags_compare hw (isSigned k) b a p
  have hc : (c = (⟨.l, .r⟩, codeOf k op)) ∨ (c = (⟨.r, .l⟩, swapCC (codeOf k op))) := by
    show intCompare k op wide lf rf = _ ∨ intCompare k op wide lf rf = _
    unfold intCompare
    split
    · right; split <;> rfl
    · left; split
      · split <;> rfl
      · split
        · rfl
        · rfl
        · split <;> rfl
  rw [intCmp_swap] at z2 s2 u2
  have sge : ∀ g : Flags, (g.sf == g.of) = !(g.sf != g.of) := fun g => by cases g.sf <;> cases g.of <;> rfl
  rcases hc with hc | hc
  · have hf : f = cmpFlags a b p := by show cmpFlags _ _ p = _; rw [hc]; rfl
    rw [hf, hc]
    cases k <;> first | exact absurd hk (by decide) | skip
    all_goals simp only [isSigned, forall_true_left] at *
    all_goals generalize cmpFlags a b p = g at *
    all_goals generalize intCmp _ a b = o at *
    all_goals cases op <;> simp only [codeOf, branches, setValue, Kind.isReal, Bool.false_eq_true, if_false, SetCC.eval, runJumps, CC.eval, sge,
      Op.holds] <;> cases o <;> simp_all
  · have hf : f = cmpFlags b a p := by show cmpFlags _ _ p = _; rw [hc]; rfl
    rw [hf, hc]
    cases k <;> first | exact absurd hk (by decide) | skip
    all_goals simp only [isSigned, forall_true_left] at *
    all_goals generalize cmpFlags b a p = g at *
    all_goals generalize intCmp _ a b = o at *
    all_goals cases op <;> simp only [codeOf, swapCC, branches, setValue, Kind.isReal, Bool.false_eq_true, if_false, SetCC.eval, runJumps, CC.eval, sge,
      Op.holds] <;> cases o <;> simp_all

/-- **C41** (`float`, `double`): likewise after `UCOMIS`, also for unordered operands. -/
theorem C41_float {α : Type} (o : Order α) (op : Op) (a b : α) :
    let c := sseCompare op
    let f := ucomisFlags (o.cmp (pick a b c.1.dst) (pick a b c.1.src))
    runJumps f (branches .sse c.2) = op.holds (o.cmp a b) ∧ (setValue .sse c.2).eval f = op.holds (o.cmp a b) := by
  intro c f
  have hf : f = ucomisFlags (o.cmp a b) := rfl
  rw [hf]
  show runJumps _ (branches .sse (codeOf .sse op)) = _ ∧ (setValue .sse (codeOf .sse op)).eval _ = _
  rcases o.cmp a b with _ | (_ | _ | _) <;> cases op <;> exact ⟨rfl, rfl⟩

/-- The x87 sequence from an empty stack: the flags compare the operands in the right order. -/
theorem x87_flags {α : Type} (o : Order α) (z : α) (op : Op) (a b : α) (at_ : Nat → Nat) (h0 : at_ 0 = 1) :
    ∃ st, xrun o z a b at_ (x87Compare op).1 (empty, none) =
      some (st, some (ucomisFlags (if op = .ge ∨ op = .gt then o.cmp a b else o.cmp b a))) := by
  cases op <;> simp [x87Compare, xrun, xstep, push, empty, pick, h0, swapTop, pop]

/-- **C41** (`long double`): likewise after `FUCOMIP`, in assembly text and in object code. -/
theorem C41_long_double {α : Type} (o : Order α) (z : α) (op : Op) (a b : α) (at_ : Nat → Nat) (h : at_ = textPos ∨ at_ = codePos) :
    ∃ st f, xrun o z a b at_ (x87Compare op).1 (empty, none) = some (st, some f) ∧
      runJumps f (branches .x87 (x87Compare op).2) = op.holds (o.cmp a b) ∧
      (setValue .x87 (x87Compare op).2).eval f = op.holds (o.cmp a b) := by
  have h0 : at_ 0 = 1 := by rcases h with rfl | rfl <;> rfl
  obtain ⟨st, hx⟩ := x87_flags o z op a b at_ h0
  refine ⟨st, _, hx, ?_⟩
  have hs := o.swap a b
  cases op <;> simp only [reduceCtorEq, or_true, true_or, or_self, if_true, if_false, hs] <;>
    rcases o.cmp a b with _ | (_ | _ | _) <;> exact ⟨rfl, rfl⟩

/-- **C41** (from the source): for each of the six operators, `a op b` on `double` operands, lowered and compiled, branches as C
says, NaN included. -/
theorem C41_source {α : Type} (o : Order α) (r : Rel) (a b : α) :
    let m := lower r a b
    let c := sseCompare m.op
    let f := ucomisFlags (o.cmp (pick m.l m.r c.1.dst) (pick m.l m.r c.1.src))
    runJumps f (branches .sse c.2) = r.holds (o.cmp a b) := by
  intro m c f
  rw [← lower_holds]
  exact (C41_float o m.op m.l m.r).1

/-- **C41** (truth values): a branch on an integer, `float` or `double` is taken unless it equals zero. -/
theorem C41_truth (w : Nat) (a : BitVec w) (p : Bool) (c : Option Ordering) :
    runJumps (cmpFlags a 0 p) (truthBranches .signed) = decide (a ≠ 0) ∧
    runJumps (cmpFlags a 0 p) (truthBranches .unsigned) = decide (a ≠ 0) ∧
    runJumps (ucomisFlags c) (truthBranches .sse) = decide (c ≠ some .eq) := by
  refine ⟨?_, ?_, ?_⟩
  · simp [truthBranches, Kind.isReal, runJumps, CC.eval, zf_eq]
  · simp [truthBranches, Kind.isReal, runJumps, CC.eval, zf_eq]
  · rcases c with _ | (_ | _ | _) <;> rfl

/-- `3 > x` for `unsigned char`-sized x = 200: `cmp $3, x`, `CC_NAE`. -/
example : intCompare .unsigned .gt false .imm (.direct false) = (⟨.r, .l⟩, .nae) ∧ isWidth 8 ∧
    runJumps (cmpFlags (200#8) (3#8) false) (branches .unsigned .nae) = false := by
  refine ⟨rfl, Or.inl rfl, by decide⟩

/-! ## C75 -/

/-- **C75**: in assembly text the x87 registers are empty again after a `long double` comparison.  Missing: object code, and
branches on a `long double` itself. -/
theorem C75_compare_partial {α : Type} (o : Order α) (z : α) (op : Op) (a b : α) :
    ∃ st f, xrun o z a b textPos (x87Compare op).1 (empty, none) = some (st, f) ∧ ∀ i, st i = none := by
  cases op <;> simp [x87Compare, xrun, xstep, push, empty, pick, textPos, swapTop, pop]

/-- **C75** violated: in object code the last instruction is `fstp %st(2)`, which leaves a register occupied. -/
theorem C75_object_violated {α : Type} (o : Order α) (z : α) (op : Op) (a b : α) :
    codePos 1 ≠ textPos 1 ∧
    ∃ st f, xrun o z a b codePos (x87Compare op).1 (empty, none) = some (st, f) ∧ ∃ i < 8, st i ≠ none := by
  refine ⟨by decide, ?_⟩
  cases op <;> simp [x87Compare, xrun, xstep, push, empty, pick, codePos, swapTop, pop] <;> exact ⟨1, by omega, by simp⟩

/-- **C75** violated: a branch on a `long double` ends with `fstp %st(1)` and leaves its operand on the stack. -/
theorem C75_truth_violated {α : Type} (o : Order α) (z a b : α) :
    ∃ st f, xrun o z a b textPos x87Truth (empty, none) = some (st, f) ∧ st 0 = some a := by
  simp [x87Truth, xrun, xstep, push, empty, pick, textPos, pop]

end Verif.Compare
