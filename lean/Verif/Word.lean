import Verif.Tac
import Mathlib.Tactic.NormNum
import Mathlib.Tactic.Positivity
import Mathlib.Tactic.Tauto
/-!
# Facts about 64-bit words as signed and unsigned integers
-/
namespace Verif.Word

theorem toInt_cases (x : BitVec 64) :
    (x.toNat < 2 ^ 63 ∧ x.toInt = x.toNat) ∨ (2 ^ 63 ≤ x.toNat ∧ x.toInt = x.toNat - 2 ^ 64) := by
  have := BitVec.toInt_eq_toNat_cond x
  have h := x.isLt
  split at this <;> omega

theorem toInt_range (x : BitVec 64) : -2 ^ 63 ≤ x.toInt ∧ x.toInt < 2 ^ 63 := by
  have := toInt_cases x
  have h := x.isLt
  omega

theorem toInt_mod (x : BitVec 64) : x.toInt % 2 ^ 64 = x.toNat := by
  have := toInt_cases x
  have h := x.isLt
  omega

theorem toNat_mod (x : BitVec 64) : (x.toNat : Int) % 2 ^ 64 = x.toNat := by
  have h := x.isLt
  omega

theorem ofInt_self {x : Int} (h : -2 ^ 63 ≤ x ∧ x < 2 ^ 63) : (BitVec.ofInt 64 x).toInt = x :=
  BitVec.toInt_ofInt_eq_self (by decide) h.1 h.2

/-- Sum of the bits below `n`. -/
theorem bits_sum (x : Nat) (n : Nat) :
    (List.range n).foldl (fun a i => a + (if x.testBit i then 2 ^ i else 0)) (0 : Int) =
      ((x % 2 ^ n : Nat) : Int) := by
  induction n with
  | zero => simp [Nat.mod_one]
  | succ n ih =>
    rw [List.range_succ, List.foldl_append, ih]
    simp only [List.foldl_cons, List.foldl_nil]
    have e : x % 2 ^ (n + 1) = x % 2 ^ n + 2 ^ n * (x / 2 ^ n % 2) := by
      rw [Nat.pow_succ, Nat.mod_mul]
    rw [e, Nat.testBit_eq_decide_div_mod_eq]
    rcases Nat.mod_two_eq_zero_or_one (x / 2 ^ n) with h | h <;> simp [h]

end Verif.Word
