import Verif.Fold.ConstLemmas

/-!
# C32 integer constant expressions
-/

namespace Verif.Fold
open Verif.Types Verif.Types.Spec
open Verif.Fold.Spec (fits conv typeOf value total decided wellTyped)

/-- The full property **C32**: every well-typed integer constant expression with a defined value is accepted, with its
C type and value. -/
def ConstantsAccepted : Prop :=
  ∀ e z, wellTyped e → value e = some z → ∃ i, constantExpression e = .const i ∧ Holds (typeOf e) z i

/-- **C32** partial: expressions all of whose operands are defined and in which every evaluated `&&` has a zero and every
`||` a nonzero left operand are accepted with the type and value C assigns.  Missing: other `&&`, `||`, and undefined
unevaluated operands (see the violations). -/
theorem C32_accepted_partial (e : Expr) (hw : wellTyped e) (ht : total e) (hd : decided e) :
    ∃ i z, constantExpression e = .const i ∧ value e = some z ∧ Holds (typeOf e) z i := by
  obtain ⟨i, z, s, h1, h2, h3, h4⟩ := parse_total e hw ht
  have := h4.2 hd
  subst this
  exact ⟨i, z, by simp [constantExpression, h1], h2, h3⟩

/-- **C32** partial: whatever is accepted has the right type and value; and no such expression makes the compiler execute
undefined behaviour or fail an assertion. -/
theorem C32_never_wrong_partial (e : Expr) (hw : wellTyped e) (ht : total e) :
    constantExpression e = .diag ∨ ∃ i z, constantExpression e = .const i ∧ value e = some z ∧ Holds (typeOf e) z i := by
  obtain ⟨i, z, s, h1, h2, h3, h4⟩ := parse_total e hw ht
  cases s
  · exact Or.inl (by simp [constantExpression, h1])
  · exact Or.inr ⟨i, z, by simp [constantExpression, h1], h2, h3⟩

/-- **C32 violated**, in general: every other such expression is rejected. -/
theorem C32_rejected_violated (e : Expr) (hw : wellTyped e) (ht : total e) (hd : ¬ decided e) : constantExpression e = .diag := by
  obtain ⟨i, z, s, h1, h2, h3, h4⟩ := parse_total e hw ht
  have : s = false := by
    cases s
    · rfl
    · exact absurd (h4.1 rfl) hd
  subst this
  simp [constantExpression, h1]

/-- **C32 violated**: `char a[1 && 1];` is rejected. -/
theorem C32_logical_and_violated : ¬ ConstantsAccepted := by
  intro h
  obtain ⟨i, hi, _⟩ := h (.and (.lit .int 1) (.lit .int 1)) 1 ⟨⟨_, _, rfl, by decide⟩, ⟨_, _, rfl, by decide⟩⟩ rfl
  have : constantExpression (.and (.lit .int 1) (.lit .int 1)) = .diag := by decide +kernel
  rw [this] at hi
  cases hi

/-- **C32 violated**: `1 ? 2 : 1 / 0` fails an assertion in the compiler. -/
theorem C32_unevaluated_violated : value (.cond (.lit .int 1) (.lit .int 2) (.bin .div (.lit .int 1) (.lit .int 0))) = some 2 ∧
    constantExpression (.cond (.lit .int 1) (.lit .int 2) (.bin .div (.lit .int 1) (.lit .int 0))) = .crash := by
  decide +kernel

/-- `(sizeof (int) == 4 ? 3 : 0 || 1) + (0 && 5)`; `-1 < 1u ? 1 : -1L` has type `long` and value -1. -/
def sample : Expr :=
  .bin .add (.cond (.bin .eq (.lit .ulong 4) (.lit .int 4)) (.lit .int 3) (.or (.lit .int 0) (.lit .int 1)))
    (.and (.lit .int 0) (.lit .int 5))

example : decided sample ∧ value sample = some 3 ∧ constantExpression sample = .const ⟨{ kind := .int }, 3⟩ := by
  refine ⟨⟨⟨⟨trivial, trivial⟩, ?_⟩, rfl, trivial, trivial⟩, by decide +kernel, by decide +kernel⟩
  rw [if_neg (by decide +kernel)]
  trivial

example : total (.cond (.bin .gt (.lit .uint 1) (.neg (.lit .int 1))) (.lit .int 1) (.neg (.lit .long 1))) ∧
    value (.cond (.bin .gt (.lit .uint 1) (.neg (.lit .int 1))) (.lit .int 1) (.neg (.lit .long 1))) = some (-1) := by
  refine ⟨⟨⟨trivial, ⟨trivial, ?_⟩, ?_⟩, trivial, trivial, ?_⟩, ?_⟩ <;> decide +kernel

end Verif.Fold
