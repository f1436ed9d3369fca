import Verif.Expr.Ir
import Verif.Arith.ValueLemmas

/-!
# Lowering
-/

namespace Verif.Expr

open Verif.Types (Ty promoteInteger usualConversion scalarSize)
open Verif.Types.Spec (Basic)
open Verif.Fold (tyOf isInt isOpTy Holds isSigned)
open Verif.Fold.Spec (conv fits)

/-! ### Types -/

theorem size_tyOf {b : Basic} (h : isInt b) : scalarSize (tyOf b {}) = size b := by
  rcases Fold.isInt_cases h with h | h | h | h | h | h | h | h | h <;> subst h <;> rfl

theorem isSize_size {b : Basic} (h : isInt b) : Conv.IsSize (size b) := by
  rcases Fold.isInt_cases h with h | h | h | h | h | h | h | h | h <;> subst h <;> (unfold Conv.IsSize; decide)

theorem opTy_size {b : Basic} (h : isOpTy b) : size b = 4 ∨ size b = 8 := by
  rcases h with h | h | h | h <;> subst h <;> decide

theorem width_size {b : Basic} (h : isInt b) (hb : b ≠ .bool) : Fold.Spec.width b = 8 * size b := by
  rcases Fold.isInt_cases h with h | h | h | h | h | h | h | h | h <;> subst h <;> first | rfl | exact (hb rfl).elim

theorem has_fits {b : Basic} {x : Int} (h : fits b x) : Arith.Has (size b) b.isSigned x := by
  have hi := Fold.fits_isInt h
  obtain ⟨lo, hi', e, p1, p2⟩ := h
  unfold Arith.Has
  rcases Fold.isInt_cases hi with h | h | h | h | h | h | h | h | h <;> subst h <;>
    simp [Basic.range, Basic.isSigned, size, Fold.Spec.width] at e ⊢ <;> omega

theorem fits_has {b : Basic} {x : Int} (hi : isInt b) (hb : b ≠ .bool) (h : Arith.Has (size b) b.isSigned x) : fits b x := by
  unfold Arith.Has at h
  rcases Fold.isInt_cases hi with e | e | e | e | e | e | e | e | e <;> subst e
  · exact (hb rfl).elim
  all_goals
    refine ⟨_, _, rfl, ?_⟩
    simp [Basic.isSigned, Basic.range, size, Fold.Spec.width] at h
    omega

theorem promote_tyOf {b : Basic} (h : isInt b) : promoteInteger (tyOf b {}) = .ok (tyOf b.promote {}) := by
  rcases Fold.isInt_cases h with h | h | h | h | h | h | h | h | h <;> subst h <;> rfl

theorem tyOf_inj {a b : Basic} (h : tyOf a {} = tyOf b {}) : a = b := by
  cases a <;> cases b <;> first | rfl | (exact absurd h (by decide))

theorem common_self {t : Basic} (h : isOpTy t) : t.common t = t := by
  rcases h with h | h | h | h <;> subst h <;> rfl

theorem promote_self {t : Basic} (h : isOpTy t) : t.promote = t := by
  rcases h with h | h | h | h <;> subst h <;> rfl

theorem common_comm (a b : Basic) : a.common b = b.common a := by cases a <;> cases b <;> rfl

theorem conv_low {b : Basic} (hi : isInt b) (hb : b ≠ .bool) (y : Int) : conv b y % 256 ^ size b = y % 256 ^ size b := by
  have hw := width_size hi hb
  have e : (256 : Int) ^ size b = 2 ^ Fold.Spec.width b := by rw [hw, pow_mul]; norm_num
  rw [e]
  unfold Fold.Spec.conv
  rw [if_neg hb]
  split_ifs
  · have := Int.bmod_emod (x := y) (m := 2 ^ Fold.Spec.width b)
    push_cast at this
    exact this
  · exact Int.emod_emod_of_dvd _ (dvd_refl _)

/-! ### Operators -/

def arithOf : Fold.Spec.Op → Option Arith.Op
  | .mul => some .mul
  | .div => some .div
  | .mod => some .mod
  | .add => some .add
  | .sub => some .sub
  | .and => some .and
  | .or => some .or
  | .xor => some .xor
  | .shl => some .shl
  | .shr => some .shr
  | _ => none

theorem result_eq {t : Basic} (h : isOpTy t) (x : Int) : Fold.Spec.result t x = Arith.result (size t) t.isSigned x := by
  unfold Fold.Spec.result Arith.result Arith.Has
  rcases h with h | h | h | h <;> subst h <;> simp [Basic.range, Basic.isSigned, size, Fold.Spec.width] <;>
    (congr 1; exact propext ⟨fun h => by omega, fun h => by omega⟩)

theorem bits_eq {t : Basic} (h : isOpTy t) (x : Int) : (BitVec.ofInt (Fold.Spec.width t) x).toNat = Arith.bits (size t) x := by
  rw [BitVec.toNat_ofInt]
  unfold Arith.bits
  rw [width_size h.isInt.1 h.isInt.2]
  push_cast
  rfl

theorem ofBits_eq {t : Basic} (h : isOpTy t) (v : BitVec (Fold.Spec.width t)) :
    Fold.Spec.ofBits t v = Arith.number (size t) t.isSigned v.toNat := by
  unfold Fold.Spec.ofBits Arith.number
  cases hs : t.isSigned
  · simp
  · simp only [if_true, true_and]
    rw [BitVec.toInt_eq_toNat_cond]
    rw [← width_size h.isInt.1 h.isInt.2]
    have hw : 0 < Fold.Spec.width t := by rcases h with h | h | h | h <;> subst h <;> decide
    have hp : 2 ^ Fold.Spec.width t = 2 * 2 ^ (Fold.Spec.width t - 1) := by
      rw [← Nat.pow_succ']; congr 1; omega
    split_ifs with h1 h2 h2
    · omega
    · rfl
    · push_cast; rfl
    · omega

/-- The meaning of operators with operands of the common type; the left one for shifts. -/
theorem meaning_of {op : Fold.Spec.Op} {o : Arith.Op} {t b u : Basic} {x y z : Int} (ho : arithOf op = some o) (ht : isOpTy t)
    (hx : fits t x) (hy : fits b y) (hb : o = .shl ∨ o = .shr ∨ b = t) (h : Fold.Spec.binary op t b x y = some (u, z)) :
    u = t ∧ Arith.meaning (size t) t.isSigned x y o = some z := by
  have cx : ∀ c, c = t.common t → conv c x = x := fun c hc => by rw [hc, common_self ht, Fold.conv_self hx]
  have key : b = t → t.common b = t ∧ conv t x = x ∧ conv t y = y := by
    rintro rfl
    exact ⟨common_self ht, Fold.conv_self hx, Fold.conv_self hy⟩
  have sr := width_size ht.isInt.1 ht.isInt.2
  cases op <;> simp only [arithOf, Option.some.injEq, reduceCtorEq] at ho <;> subst ho <;>
    simp only [reduceCtorEq, false_or, true_or, or_true] at hb <;>
    simp only [Fold.Spec.binary, promote_self ht] at h
  case mul =>
    obtain ⟨e1, e2, e3⟩ := key hb
    simp only [e1, e2, e3, result_eq ht, Option.map_eq_some_iff, Prod.mk.injEq] at h
    obtain ⟨w, h, rfl, rfl⟩ := h
    exact ⟨rfl, h⟩
  case div =>
    obtain ⟨e1, e2, e3⟩ := key hb
    simp only [e1, e2, e3, result_eq ht] at h
    split_ifs at h with h0
    simp only [Option.map_eq_some_iff, Prod.mk.injEq] at h
    obtain ⟨w, h, rfl, rfl⟩ := h
    exact ⟨rfl, by simp only [Arith.meaning, if_neg h0]; exact h⟩
  case mod =>
    obtain ⟨e1, e2, e3⟩ := key hb
    simp only [e1, e2, e3, result_eq ht] at h
    split_ifs at h with h0
    simp only [Option.some.injEq, Prod.mk.injEq] at h
    obtain ⟨rfl, rfl⟩ := h
    refine ⟨rfl, ?_⟩
    simp only [not_or] at h0
    have hq : Arith.Has (size t) t.isSigned (x.tdiv y) := by
      have h1 := h0.2
      unfold Arith.result at h1
      cases hs : t.isSigned with
      | true => rw [hs] at h1; simp only [if_true] at h1; split_ifs at h1 with h2; exacts [h2, (h1 rfl).elim]
      | false =>
        have f1 := has_fits hx
        subst hb
        have f2 := has_fits hy
        rw [hs] at f1 f2
        simp only [Arith.Has, Bool.false_eq_true, if_false] at f1 f2 ⊢
        rw [Int.tdiv_eq_ediv_of_nonneg f1.1]
        exact ⟨Int.ediv_nonneg f1.1 f2.1, lt_of_le_of_lt (Int.ediv_le_self _ f1.1) f1.2⟩
    simp only [Arith.meaning]
    rw [if_neg (by rw [not_or, not_not]; exact ⟨h0.1, hq⟩)]
    have := Int.tmod_add_mul_tdiv x y
    congr 1
    omega
  case add =>
    obtain ⟨e1, e2, e3⟩ := key hb
    simp only [e1, e2, e3, result_eq ht, Option.map_eq_some_iff, Prod.mk.injEq] at h
    obtain ⟨w, h, rfl, rfl⟩ := h
    exact ⟨rfl, h⟩
  case sub =>
    obtain ⟨e1, e2, e3⟩ := key hb
    simp only [e1, e2, e3, result_eq ht, Option.map_eq_some_iff, Prod.mk.injEq] at h
    obtain ⟨w, h, rfl, rfl⟩ := h
    exact ⟨rfl, h⟩
  case and =>
    obtain ⟨e1, e2, e3⟩ := key hb
    rw [e1, e2, e3] at h
    simp only [Option.some.injEq, Prod.mk.injEq] at h
    obtain ⟨rfl, rfl⟩ := h
    refine ⟨rfl, ?_⟩
    simp only [Arith.meaning]
    rw [ofBits_eq ht, BitVec.toNat_and, bits_eq ht, bits_eq ht]
  case or =>
    obtain ⟨e1, e2, e3⟩ := key hb
    rw [e1, e2, e3] at h
    simp only [Option.some.injEq, Prod.mk.injEq] at h
    obtain ⟨rfl, rfl⟩ := h
    refine ⟨rfl, ?_⟩
    simp only [Arith.meaning]
    rw [ofBits_eq ht, BitVec.toNat_or, bits_eq ht, bits_eq ht]
  case xor =>
    obtain ⟨e1, e2, e3⟩ := key hb
    rw [e1, e2, e3] at h
    simp only [Option.some.injEq, Prod.mk.injEq] at h
    obtain ⟨rfl, rfl⟩ := h
    refine ⟨rfl, ?_⟩
    simp only [Arith.meaning]
    rw [ofBits_eq ht, BitVec.toNat_xor, bits_eq ht, bits_eq ht]
  case shl =>
    split_ifs at h with h0
    simp only [result_eq ht, Option.map_eq_some_iff, Prod.mk.injEq] at h
    obtain ⟨w, h, rfl, rfl⟩ := h
    refine ⟨rfl, ?_⟩
    simp only [Arith.meaning]
    rw [if_pos ⟨h0.1, by rw [sr] at h0; exact_mod_cast h0.2.1, h0.2.2⟩]
    exact h
  case shr =>
    split_ifs at h with h0
    simp only [Option.some.injEq, Prod.mk.injEq] at h
    obtain ⟨rfl, rfl⟩ := h
    refine ⟨rfl, ?_⟩
    simp only [Arith.meaning]
    rw [if_pos ⟨h0.1, by rw [sr] at h0; exact_mod_cast h0.2⟩]

end Verif.Expr
