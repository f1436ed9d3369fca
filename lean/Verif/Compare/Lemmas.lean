import Verif.Compare.Spec
import Verif.Word

namespace Verif.Compare

/-- Operand widths of the processor. -/
def isWidth (w : Nat) : Prop := w = 8 ∨ w = 16 ∨ w = 32 ∨ w = 64

theorem zf_eq {w : Nat} (a b : BitVec w) (p : Bool) : (cmpFlags a b p).zf = decide (a = b) := by
  show (a - b == 0) = _
  rw [Bool.eq_iff_iff, beq_iff_eq, decide_eq_true_iff]
  constructor
  · intro h
    have := congrArg (· + b) h
    simpa [BitVec.sub_add_cancel] using this
  · rintro rfl; simp

theorem cf_eq {w : Nat} (a b : BitVec w) (p : Bool) : (cmpFlags a b p).cf = decide (a.toNat < b.toNat) := rfl

theorem sf_of_eq {w : Nat} (hw : isWidth w) (a b : BitVec w) (p : Bool) :
    ((cmpFlags a b p).sf != (cmpFlags a b p).of) = decide (a.toInt < b.toInt) := by
  have h1 : (cmpFlags a b p).sf = decide ((a - b).toInt < 0) := BitVec.msb_eq_toInt
  rw [h1]
  have h2 : (cmpFlags a b p).of = (decide (2 ^ (w - 1) ≤ a.toInt - b.toInt) || decide (a.toInt - b.toInt < -2 ^ (w - 1))) := rfl
  rw [h2, BitVec.toInt_sub]
  have ha := BitVec.le_toInt a
  have ha' := BitVec.toInt_lt (x := a)
  have hb := BitVec.le_toInt b
  have hb' := BitVec.toInt_lt (x := b)
  have key : ((a.toInt - b.toInt).bmod (2 ^ w) < 0) = (a.toInt < b.toInt ↔ ¬ (2 ^ (w - 1) ≤ a.toInt - b.toInt ∨ a.toInt - b.toInt < -2 ^ (w - 1))) := by
    rcases hw with rfl | rfl | rfl | rfl <;> simp only [Nat.reduceSub, Int.reducePow, Nat.reducePow, Int.bmod_def, eq_iff_iff] at * <;>
      split <;> omega
  by_cases h3 : a.toInt < b.toInt <;> by_cases h4 : 2 ^ (w - 1) ≤ a.toInt - b.toInt <;> by_cases h5 : a.toInt - b.toInt < -2 ^ (w - 1) <;>
    simp only [key, h3, h4, h5, not_true, not_false_eq_true, or_true, true_or, or_self, iff_true, iff_false, iff_self, true_iff, false_iff] <;> rfl

theorem flags_compare {w : Nat} (hw : isWidth w) (s : Bool) (a b : BitVec w) (p : Bool) :
    (cmpFlags a b p).zf = (intCmp s a b == .eq) ∧
    (s = true → ((cmpFlags a b p).sf != (cmpFlags a b p).of) = (intCmp s a b == .lt)) ∧
    (s = false → (cmpFlags a b p).cf = (intCmp s a b == .lt)) := by
  refine ⟨?_, ?_, ?_⟩
  · rw [zf_eq]
    cases s
    · simp only [intCmp, Bool.false_eq_true, if_false, compare, compareOfLessAndEq]
      by_cases h : a = b
      · subst h; simp
      · have : a.toNat ≠ b.toNat := fun e => h (BitVec.eq_of_toNat_eq e)
        simp only [h, decide_false, this, if_false]
        split <;> rfl
    · simp only [intCmp, if_true, compare, compareOfLessAndEq]
      by_cases h : a = b
      · subst h; simp
      · have : a.toInt ≠ b.toInt := fun e => h (BitVec.eq_of_toInt_eq e)
        simp only [h, decide_false, this, if_false]
        split <;> rfl
  · rintro rfl
    rw [sf_of_eq hw]
    simp only [intCmp, if_true, compare, compareOfLessAndEq]
    by_cases h : a.toInt < b.toInt
    · simp [h]
    · simp only [h, decide_false, if_false]; split <;> rfl
  · rintro rfl
    rw [cf_eq]
    simp only [intCmp, Bool.false_eq_true, if_false, compare, compareOfLessAndEq]
    by_cases h : a.toNat < b.toNat
    · simp [h]
    · simp only [h, decide_false, if_false]; split <;> rfl

theorem intCmp_swap {w : Nat} (s : Bool) (a b : BitVec w) : intCmp s b a = (intCmp s a b).swap := by
  cases s
  · simp only [intCmp, Bool.false_eq_true, if_false, Nat.compare_swap]
  · simp only [intCmp, if_true, Int.compare_swap]

end Verif.Compare
