import Verif.Word
import Verif.IfExpr.Spec
/-! # Arithmetic of the `#if` evaluator agrees with the specification -/
namespace Verif.IfExpr
open Spec Word

/-- The integer a number stands for. -/
def val (n : Num) : Int := if n.signed then n.v.toInt else n.v.toNat

theorem val_mod (n : Num) : val n % 2 ^ 64 = n.v.toNat := by
  unfold val
  split
  · exact toInt_mod _
  · exact toNat_mod _

theorem conv_val (s : Bool) (n : Num) (h : s = true → n.signed = true) :
    conv s (val n) = if s then n.v.toInt else n.v.toNat := by
  unfold conv
  cases s with
  | true => simp [val, h rfl]
  | false => simpa using val_mod n

theorem val_zero (n : Num) : val n = 0 ↔ n.v = 0 := by
  have h1 := val_mod n
  have h2 := n.v.isLt
  have h3 := toInt_range n.v
  have h4 := toInt_cases n.v
  have h5 : n.v = 0 ↔ n.v.toNat = 0 := by
    rw [← BitVec.toNat_inj]; rfl
  rw [h5]
  unfold val at *
  split <;> omega

theorem bit_toNat (x : BitVec 64) (i : Nat) : bitOf (x.toNat : Int) i = x.getLsbD i := by
  unfold bitOf
  rw [BitVec.getLsbD, Nat.testBit_eq_decide_div_mod_eq]
  norm_cast

theorem bit_toInt (x : BitVec 64) (i : Nat) (hi : i < 64) : bitOf x.toInt i = x.getLsbD i := by
  rw [← bit_toNat]
  unfold bitOf
  rcases toInt_cases x with h | h
  · rw [h.2]
  · rw [h.2]
    have e : (2 : Int) ^ 64 = 2 ^ i * (2 * 2 ^ (63 - i)) := by
      rw [show (2 : Int) * 2 ^ (63 - i) = 2 ^ (64 - i) by
        rw [← pow_succ']; congr 1; omega]
      rw [← pow_add]; congr 1; omega
    rw [e, Int.sub_mul_ediv_left _ _ (by positivity)]
    congr 1
    simp only [eq_iff_iff]
    omega

theorem fromBits_word (s : Bool) (x : BitVec 64) (f : Nat → Bool)
    (h : ∀ i, i < 64 → f i = x.getLsbD i) :
    fromBits s f = if s then x.toInt else x.toNat := by
  have e : (List.range 64).foldl (fun a i => a + (if f i then 2 ^ i else 0)) (0 : Int) =
      (x.toNat : Int) := by
    have := bits_sum x.toNat 64
    rw [Nat.mod_eq_of_lt x.isLt] at this
    rw [← this]
    apply List.foldl_ext
    intro a i hi
    rw [h i (List.mem_range.1 hi)]
    rfl
  unfold fromBits
  simp only [e, h 63 (by decide)]
  have hm : x.getLsbD 63 = decide (2 ^ 63 ≤ x.toNat) := by
    rw [BitVec.getLsbD, Nat.testBit_eq_decide_div_mod_eq]
    have := x.isLt
    congr 1
    simp only [eq_iff_iff]
    omega
  rw [hm]
  have := toInt_cases x
  cases s <;> simp <;> split <;> omega

theorem signedResult_fit (x z : Int) (h : fit true x = some z) :
    (∀ rest, signedResult x rest = .ok ⟨true, BitVec.ofInt 64 z⟩ rest) ∧
      val ⟨true, BitVec.ofInt 64 z⟩ = z := by
  unfold fit at h
  simp only [if_true] at h
  split at h
  · rename_i hr
    cases h
    exact ⟨fun rest => by rw [signedResult, if_pos hr], by simp only [val, if_true]; exact ofInt_self hr⟩
  · cases h

theorem val_truth (b : Bool) : val (truth b) = b2i b := by cases b <;> rfl

/-- Signedness of the result of an operator. -/
def resSigned (op : BinOp) (a b : Bool) : Bool :=
  match op with
  | .mul | .div | .mod | .add | .sub | .and | .xor | .or => a && b
  | .shl | .shr => a
  | _ => true

/-- Operators other than the logical ones. -/
theorem binop_correct (op : BinOp) (l r : Num) (z : Int)
    (hs : (op = .shl ∨ op = .shr) → l.signed = true → r.signed = true)
    (h : binVal op l.signed (val l) r.signed (val r) = some z) :
    ∃ n, (∀ rest, binop op l r rest = .ok n rest) ∧ val n = z ∧
      n.signed = resSigned op l.signed r.signed := by
  have cl := conv_val (l.signed && r.signed) l (by simp; tauto)
  have cr := conv_val (l.signed && r.signed) r (by simp)
  have z0 : r.v = 0 ↔ r.v.toNat = 0 := by rw [← BitVec.toNat_inj]; rfl
  have z1 := toInt_cases r.v
  have z2 := r.v.isLt
  have l1 := toInt_cases l.v
  have l2 := l.v.isLt
  cases op
  case land | lor => cases h
  case mul | add | sub =>
    all_goals
    simp only [binVal, cl, cr] at h
    unfold binop bothSigned
    cases hc : (l.signed && r.signed)
    · simp only [hc, fit, Bool.false_eq_true, if_false, Option.some.injEq] at h ⊢
      refine ⟨_, fun _ => rfl, ?_, by simp_all [resSigned, bothSigned, truth]⟩
      rw [← h]
      simp [val, BitVec.toNat_mul, BitVec.toNat_add, BitVec.toNat_sub]
      try omega
    · simp only [hc, if_true] at h ⊢
      obtain ⟨h1, h2⟩ := signedResult_fit _ _ h
      exact ⟨_, h1, h2, by simp_all [resSigned]⟩
  case div =>
    simp only [binVal, cl, cr] at h
    unfold binop bothSigned
    cases hc : (l.signed && r.signed)
    · simp only [hc, fit, Bool.false_eq_true, if_false] at h ⊢
      split at h
      · cases h
      · simp only [if_neg (show ¬ r.v = 0 by rw [z0]; omega)]
        refine ⟨_, fun _ => rfl, ?_, by simp_all [resSigned, bothSigned, truth]⟩
        cases h
        simp only [val, Bool.false_eq_true, if_false, BitVec.toNat_udiv]
        rw [Int.tdiv_eq_ediv_of_nonneg (by omega)]
        have : l.v.toNat / r.v.toNat ≤ l.v.toNat := Nat.div_le_self _ _
        rw [← Int.natCast_ediv]
        generalize l.v.toNat / r.v.toNat = q at this ⊢
        omega
    · simp only [hc, if_true] at h ⊢
      split at h
      · cases h
      · simp only [if_neg (show ¬ r.v = 0 by rw [z0]; omega)]
        obtain ⟨h1, h2⟩ := signedResult_fit _ _ h
        exact ⟨_, h1, h2, by simp_all [resSigned]⟩
  case mod =>
    simp only [binVal, cl, cr] at h
    unfold binop bothSigned
    cases hc : (l.signed && r.signed)
    · simp only [hc, fit, Bool.false_eq_true, if_false] at h ⊢
      split at h
      · cases h
      · simp only [if_neg (show ¬ r.v = 0 by rw [z0]; omega)]
        refine ⟨_, fun _ => rfl, ?_, by simp_all [resSigned, bothSigned, truth]⟩
        simp only [Option.map_some, Option.some.injEq] at h
        rw [← h]
        simp only [val, Bool.false_eq_true, if_false, BitVec.toNat_umod]
        rw [Int.tmod_eq_emod_of_nonneg (by omega)]
        norm_cast
    · simp only [hc, if_true] at h ⊢
      split at h
      · cases h
      · rename_i hr
        simp only [if_neg (show ¬ r.v = 0 by rw [z0]; omega)]
        unfold fit at h
        simp only [if_true] at h
        split at h
        · rename_i hq
          simp only [Option.map_some, Option.some.injEq] at h
          have hnm : ¬ (l.v.toInt = -2 ^ 63 ∧ r.v.toInt = -1) := by
            rintro ⟨e1, e2⟩
            rw [e1, e2] at hq
            revert hq
            decide
          simp only [if_neg hnm]
          · refine ⟨_, fun _ => rfl, ?_, by simp_all [resSigned, bothSigned, truth]⟩
            simp only [val, if_true]
            rw [ofInt_self, h]
            have hb := Int.natAbs_tmod l.v.toInt r.v.toInt
            have hb2 : (l.v.toInt.tmod r.v.toInt).natAbs < r.v.toInt.natAbs := by
              rw [hb]; exact Nat.mod_lt _ (by omega)
            have := toInt_range r.v
            omega
        · cases h
  case shl =>
    simp only [binVal] at h
    unfold binop bothSigned
    have hs := hs (by simp)
    split at h
    · cases h
    · rename_i hy
      simp only [not_or, not_lt] at hy
      rcases Bool.eq_false_or_eq_true l.signed with hl | hl
      rotate_left
      · simp only [hl, Bool.false_and, Bool.false_eq_true, if_false] at h ⊢
        have hr : val r = r.v.toNat := by unfold val at *; split <;> simp_all <;> omega
        rw [hr] at h hy
        simp only [if_neg (show ¬ r.v.toNat ≥ 64 by omega)]
        refine ⟨_, fun _ => rfl, ?_, by simp_all [resSigned, bothSigned, truth]⟩
        simp only [fit, Bool.false_eq_true, if_false, Option.some.injEq] at h
        rw [← h]
        simp [val, hl, Nat.shiftLeft_eq]
      · have hrs := hs hl
        have hr : val r = r.v.toInt := by simp [val, hrs]
        have hlv : val l = l.v.toInt := by simp [val, hl]
        rw [hr, hl, hlv] at h
        rw [hr, hl, hlv] at hy
        simp only [hl, hrs, Bool.and_self, if_true]
        simp only [if_neg (show ¬ (r.v.toInt < 0 ∨ r.v.toInt ≥ 64 ∨ l.v.toInt < 0) by simp at hy; omega)]
        have e : r.v.toInt.toNat = r.v.toNat := by omega
        rw [e] at h
        obtain ⟨h1, h2⟩ := signedResult_fit _ _ h
        exact ⟨_, h1, h2, by simp_all [resSigned]⟩
  case shr =>
    simp only [binVal] at h
    unfold binop bothSigned
    have hs := hs (by simp)
    split at h
    · cases h
    · rename_i hy
      simp only [not_or, not_lt] at hy
      simp only [Option.some.injEq] at h
      rcases Bool.eq_false_or_eq_true l.signed with hl | hl
      rotate_left
      · simp only [hl, Bool.false_and, Bool.false_eq_true, if_false]
        have hr : val r = r.v.toNat := by unfold val at *; split <;> simp_all <;> omega
        rw [hr] at h hy
        simp only [if_neg (show ¬ r.v.toNat ≥ 64 by omega)]
        refine ⟨_, fun _ => rfl, ?_, by simp_all [resSigned, bothSigned, truth]⟩
        rw [← h]
        simp [val, hl, Nat.shiftRight_eq_div_pow]
      · have hrs := hs hl
        have hr : val r = r.v.toInt := by simp [val, hrs]
        have hlv : val l = l.v.toInt := by simp [val, hl]
        rw [hr] at hy
        rw [hr, hlv] at h
        simp only [hl, hrs, Bool.and_self, if_true]
        simp only [if_neg (show ¬ (r.v.toInt < 0 ∨ r.v.toInt ≥ 64) by omega)]
        refine ⟨_, fun _ => rfl, ?_, by simp_all [resSigned, bothSigned, truth]⟩
        have e : r.v.toInt.toNat = r.v.toNat := by omega
        rw [← h, e]
        simp [val, BitVec.toInt_sshiftRight, Int.shiftRight_eq_div_pow]
  case lt | gt | le | ge =>
    all_goals
    simp only [binVal, cl, cr, Option.some.injEq] at h
    refine ⟨_, fun _ => rfl, ?_, by simp_all [resSigned, bothSigned, truth]⟩
    rw [val_truth, ← h]
    try unfold bothSigned
    congr 1
    cases hc : (l.signed && r.signed) <;>
      simp only [hc, Bool.false_eq_true, if_false, if_true, BitVec.slt_eq_decide,
        BitVec.sle_eq_decide, BitVec.ult, BitVec.ule, gt_iff_lt, ge_iff_le, Int.ofNat_lt, Int.ofNat_le]
  case eq | ne =>
    all_goals
    simp only [binVal, cl, cr, Option.some.injEq] at h
    refine ⟨_, fun _ => rfl, ?_, by simp_all [resSigned, bothSigned, truth]⟩
    rw [val_truth, ← h]
    congr 1
    cases hc : (l.signed && r.signed)
    · simp only [Bool.false_eq_true, if_false, Int.natCast_inj, BitVec.toNat_inj, ne_eq]
    · simp only [if_true, BitVec.toInt_inj, ne_eq]
  case and | xor | or =>
    all_goals
    simp only [binVal, cl, cr, Option.some.injEq] at h
    refine ⟨_, fun _ => rfl, ?_, by simp_all [resSigned, bothSigned, truth]⟩
    rw [← h]
    unfold val bothSigned
    refine (fromBits_word _ _ _ ?_).symm
    intro i hi
    cases hc : (l.signed && r.signed) <;>
      simp [bit_toInt, bit_toNat, hi, bne]

end Verif.IfExpr
