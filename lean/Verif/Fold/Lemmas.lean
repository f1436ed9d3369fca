import Verif.Fold.Model
import Verif.Fold.Spec
import Verif.Types.Lemmas
import Verif.Word

namespace Verif.Fold
open Verif.Types Verif.Types.Spec Spec

/-- The representation of an arithmetic type with qualifiers `q`. -/
def tyOf (b : Basic) (q : Quals) : Ty := { kind := kindOf b, uns := unsOf b, q := q }

/-- The constant `i` has type `b` and value `n`. -/
def Holds (b : Basic) (n : Int) (i : Imm) : Prop :=
  fits b n ∧ (∃ q, i.ty = tyOf b q) ∧ i.v = BitVec.ofInt 64 n

/-- Integer types. -/
def isInt (b : Basic) : Prop := b.isFloating = false

theorem isInt_cases {b : Basic} (h : isInt b) : b = .bool ∨ b = .char ∨ b = .uchar ∨ b = .short ∨ b = .ushort ∨ b = .int ∨
    b = .uint ∨ b = .long ∨ b = .ulong := by
  revert h; cases b <;> simp [isInt, Basic.isFloating, Basic.range]

theorem fits_isInt {b : Basic} {n : Int} (h : fits b n) : isInt b := by
  obtain ⟨lo, hi, h, _⟩ := h
  simp [isInt, Basic.isFloating, h]

theorem setWidth_ofInt (w : Nat) (hw : w ≤ 64) (n : Int) : (BitVec.ofInt 64 n).setWidth w = BitVec.ofInt w n := by
  apply BitVec.eq_of_toInt_eq
  rw [BitVec.toInt_setWidth, BitVec.toInt_ofInt, BitVec.toNat_ofInt]
  have h1 : (2 : Nat) ^ w ∣ 2 ^ 64 := Nat.pow_dvd_pow 2 hw
  have h2 : ((n % (2 ^ 64 : Nat)).toNat : Int) = n % (2 ^ 64 : Nat) := Int.toNat_of_nonneg (Int.emod_nonneg _ (by norm_num))
  rw [h2]
  apply Int.bmod_eq_bmod_iff_bmod_sub_eq_zero.2
  rw [← Int.dvd_iff_bmod_eq_zero]
  have : (((2 : Nat) ^ 64 : Nat) : Int) ∣ n % (2 ^ 64 : Nat) - n := by
    refine ⟨-(n / (2 ^ 64 : Nat)), ?_⟩
    have := Int.mul_ediv_add_emod n ((2 ^ 64 : Nat) : Int)
    push_cast at *
    omega
  exact Int.dvd_trans (Int.natCast_dvd_natCast.2 h1) this

theorem fits_bounds {t : Basic} {n : Int} (h : fits t n) (hb : t ≠ .bool) :
    if t.isSigned then -2 ^ (width t - 1) ≤ n ∧ n < 2 ^ (width t - 1) else 0 ≤ n ∧ n < 2 ^ width t := by
  obtain ⟨lo, hi, h, h1, h2⟩ := h
  cases t <;> simp only [Basic.range, Basic.isSigned, width] at * <;> simp at h ⊢ <;> omega

theorem ofBits_ofInt {t : Basic} {n : Int} (h : fits t n) (hb : t ≠ .bool) : ofBits t (BitVec.ofInt _ n) = n := by
  have := fits_bounds h hb
  unfold ofBits
  split_ifs at this ⊢ with hs
  · apply BitVec.toInt_ofInt_eq_self _ this.1 this.2
    cases t <;> decide
  · rw [BitVec.toNat_ofInt]
    rw [Int.emod_eq_of_lt this.1 (by exact_mod_cast this.2)]
    omega

theorem fits_ofBits {t : Basic} (hi : isInt t) (hb : t ≠ .bool) (x : BitVec (width t)) : fits t (ofBits t x) := by
  have h1 := x.isLt
  have h2 := x.toInt_lt
  have h3 := x.le_toInt
  rcases isInt_cases hi with h | h | h | h | h | h | h | h | h <;> subst h
  · exact absurd rfl hb
  all_goals
    refine ⟨_, _, rfl, ?_⟩
    simp [ofBits, Basic.isSigned, Basic.range, width] at *
    omega

theorem conv_eq {t : Basic} (hb : t ≠ .bool) (n : Int) : conv t n = ofBits t (BitVec.ofInt _ n) := by
  unfold conv ofBits
  rw [if_neg hb]
  split_ifs
  · rw [BitVec.toInt_ofInt]
  · rw [BitVec.toNat_ofInt, Int.toNat_of_nonneg (Int.emod_nonneg _ (by positivity))]
    norm_cast

theorem signedCast_eq (w : Nat) (v : BitVec 64) : signedCast w v = BitVec.ofInt 64 (v.setWidth w).toInt := rfl

theorem unsignedCast_eq (w : Nat) (hw : w ≤ 64) (v : BitVec 64) : unsignedCast w v = BitVec.ofInt 64 (v.setWidth w).toNat := by
  apply BitVec.eq_of_toNat_eq
  have h1 : (v.setWidth w).toNat < 2 ^ 64 := Nat.lt_of_lt_of_le (v.setWidth w).isLt (Nat.pow_le_pow_right (by omega) hw)
  have : (((v.setWidth w).toNat : Nat) : Int) % ((2 ^ 64 : Nat) : Int) = ((v.setWidth w).toNat : Nat) := by
    norm_cast; exact Nat.mod_eq_of_lt h1
  rw [BitVec.toNat_ofInt, this, unsignedCast, BitVec.toNat_setWidth, Nat.mod_eq_of_lt h1]
  rfl

theorem mask_eq (k : Nat) (hk : k = 1 ∨ k = 2 ∨ k = 4) (v : BitVec 64) :
    v &&& (0xFFFFFFFF#64 >>> ((4 - k) * 8)) = unsignedCast (8 * k) v := by
  apply BitVec.eq_of_toNat_eq
  have h1 : ∀ w, v.toNat &&& (2 ^ w - 1) = v.toNat % 2 ^ w := fun w => Nat.and_two_pow_sub_one_eq_mod ..
  have h8 := h1 8
  have h16 := h1 16
  have h32 := h1 32
  rcases hk with rfl | rfl | rfl <;> simp [unsignedCast, BitVec.toNat_and] <;> norm_num at h8 h16 h32 <;> omega

theorem isSigned_tyOf {b : Basic} (h : isInt b) (q : Quals) : isSigned (tyOf b q) = b.isSigned := by
  rcases isInt_cases h with h | h | h | h | h | h | h | h | h <;> subst h <;> rfl

/-- What `imm_signed` and `imm_unsigned` store. -/
theorem imm_eq {t : Basic} (hi : isInt t) (hb : t ≠ .bool) (q : Quals) (v : BitVec 64) :
    (if isSigned (tyOf t q) = true then immSigned (tyOf t q) v else immUnsigned (tyOf t q) v) =
      .const ⟨tyOf t q, BitVec.ofInt 64 (ofBits t (v.setWidth _))⟩ := by
  have e8 := mask_eq 1 (by decide) v
  have e16 := mask_eq 2 (by decide) v
  have e32 := mask_eq 4 (by decide) v
  rw [unsignedCast_eq _ (by decide)] at e8 e16 e32
  have l1 : BitVec.ofInt 64 v.toInt = v := BitVec.ofInt_toInt
  have l2 : BitVec.ofInt 64 (v.toNat : Int) = v := by
    apply BitVec.eq_of_toNat_eq
    rw [BitVec.toNat_ofInt]
    have := v.isLt
    omega
  rcases isInt_cases hi with h | h | h | h | h | h | h | h | h <;> subst h
  · exact absurd rfl hb
  · rfl
  · exact congrArg (fun x => Out.const ⟨_, x⟩) e8
  · rfl
  · exact congrArg (fun x => Out.const ⟨_, x⟩) e16
  · rfl
  · exact congrArg (fun x => Out.const ⟨_, x⟩) e32
  · change Out.const ⟨_, v⟩ = Out.const ⟨_, BitVec.ofInt 64 (v.setWidth 64).toInt⟩
    rw [BitVec.setWidth_eq, l1]
  · change Out.const ⟨_, v⟩ = Out.const ⟨_, BitVec.ofInt 64 (v.setWidth 64).toNat⟩
    rw [BitVec.setWidth_eq, l2]

theorem ofInt_eq_zero {t : Basic} {n : Int} (h : fits t n) : BitVec.ofInt 64 n = 0 ↔ n = 0 := by
  constructor
  · intro h0
    have h1 : (BitVec.ofInt 64 n).toNat = 0 := by rw [h0]; rfl
    rw [BitVec.toNat_ofInt] at h1
    obtain ⟨lo, hi, h, h2, h3⟩ := h
    cases t <;> simp [Basic.range] at h <;> omega
  · rintro rfl; rfl

/-- `convert` computes C conversion. -/
theorem convert_eq {a t : Basic} {n : Int} (q : Quals) (ha : fits a n) (ht : isInt t) :
    convert (BitVec.ofInt 64 n) (tyOf t q) = some (BitVec.ofInt 64 (conv t n)) := by
  have hs := signedCast_eq
  have h0 := ofInt_eq_zero ha
  have l64 : BitVec.ofInt 64 (conv .long n) = BitVec.ofInt 64 n ∧ BitVec.ofInt 64 (conv .ulong n) = BitVec.ofInt 64 n := by
    constructor <;> rw [conv_eq (by decide)]
    · exact BitVec.ofInt_toInt
    · apply BitVec.eq_of_toNat_eq
      change (BitVec.ofInt 64 ((BitVec.ofInt 64 n).toNat : Int)).toNat = _
      have := (BitVec.ofInt 64 n).isLt
      rw [BitVec.toNat_ofInt]
      omega
  by_cases hb : t = .bool
  · subst hb
    simp only [convert, tyOf, kindOf, Ty.of, conv, if_true]
    by_cases hn : n = 0
    · subst hn; rfl
    · have : BitVec.ofInt 64 n ≠ 0 := fun h => hn (h0.1 h)
      simp [hn]; exact this
  · rcases isInt_cases ht with h | h | h | h | h | h | h | h | h <;> subst h
    · exact absurd rfl hb
    · rw [conv_eq hb]
      exact congrArg some (congrArg (fun x : BitVec 8 => BitVec.ofInt 64 x.toInt) (setWidth_ofInt 8 (by decide) n))
    · rw [conv_eq hb]
      refine (congrArg some (unsignedCast_eq 8 (by decide) _)).trans ?_
      exact congrArg some (congrArg (fun x : BitVec 8 => BitVec.ofInt 64 x.toNat) (setWidth_ofInt 8 (by decide) n))
    · rw [conv_eq hb]
      exact congrArg some (congrArg (fun x : BitVec 16 => BitVec.ofInt 64 x.toInt) (setWidth_ofInt 16 (by decide) n))
    · rw [conv_eq hb]
      refine (congrArg some (unsignedCast_eq 16 (by decide) _)).trans ?_
      exact congrArg some (congrArg (fun x : BitVec 16 => BitVec.ofInt 64 x.toNat) (setWidth_ofInt 16 (by decide) n))
    · rw [conv_eq hb]
      exact congrArg some (congrArg (fun x : BitVec 32 => BitVec.ofInt 64 x.toInt) (setWidth_ofInt 32 (by decide) n))
    · rw [conv_eq hb]
      refine (congrArg some (unsignedCast_eq 32 (by decide) _)).trans ?_
      exact congrArg some (congrArg (fun x : BitVec 32 => BitVec.ofInt 64 x.toNat) (setWidth_ofInt 32 (by decide) n))
    · exact congrArg some l64.1.symm
    · exact congrArg some l64.2.symm

theorem conv_fits {t : Basic} (ht : isInt t) (n : Int) : fits t (conv t n) := by
  by_cases hb : t = .bool
  · subst hb
    refine ⟨0, 1, rfl, ?_⟩
    simp only [conv, if_true]
    split_ifs <;> omega
  · rw [conv_eq hb]; exact fits_ofBits ht hb _

theorem conv_self {t : Basic} {n : Int} (h : fits t n) : conv t n = n := by
  by_cases hb : t = .bool
  · subst hb
    obtain ⟨lo, hi, e, h1, h2⟩ := h
    simp only [Basic.range, Option.some.injEq, Prod.mk.injEq] at e
    simp only [conv, if_true]
    split_ifs <;> omega
  · rw [conv_eq hb]; exact ofBits_ofInt h hb

theorem castOperand_eq {a t : Basic} {n : Int} {i : Imm} (q : Quals) (h : Holds a n i) (ht : isInt t) :
    castOperand i (tyOf t q) = some ⟨tyOf t q, BitVec.ofInt 64 (conv t n)⟩ := by
  obtain ⟨hf, ⟨qa, hty⟩, hv⟩ := h
  unfold castOperand
  by_cases he : i.ty = tyOf t q
  · rw [if_pos he]
    rw [hty] at he
    simp only [tyOf] at he
    injection he with e1 e2 e3
    have := basic_inj e1 e2
    subst this
    rw [conv_self hf]
    cases i
    simp_all [tyOf]
  · rw [if_neg he, hv, convert_eq q hf ht]
    rfl

theorem promote_cases {a : Basic} (h : isInt a) : a.promote = .int ∨ a.promote = .uint ∨ a.promote = .long ∨ a.promote = .ulong := by
  rcases isInt_cases h with h | h | h | h | h | h | h | h | h <;> subst h <;> decide

theorem common_cases {a b : Basic} (ha : isInt a) (hb : isInt b) :
    a.common b = .int ∨ a.common b = .uint ∨ a.common b = .long ∨ a.common b = .ulong := by
  rcases isInt_cases ha with h | h | h | h | h | h | h | h | h <;> subst h <;>
  rcases isInt_cases hb with h | h | h | h | h | h | h | h | h <;> subst h <;> decide

theorem isInteger_tyOf {a : Basic} (h : isInt a) (q : Quals) : (tyOf a q).isInteger = true := by
  rcases isInt_cases h with h | h | h | h | h | h | h | h | h <;> subst h <;> rfl

theorem usual_eq {a b : Basic} (qa qb : Quals) : usualConversion (tyOf a qa) (tyOf b qb) = .ok (tyOf (a.common b) {}) := by
  cases a <;> cases b <;> rfl

theorem promote_eq {a : Basic} (h : isInt a) (q : Quals) : ∃ q', promoteInteger (tyOf a q) = .ok (tyOf a.promote q') := by
  rcases isInt_cases h with h | h | h | h | h | h | h | h | h <;> subst h <;> exact ⟨_, rfl⟩

/-- The four types operations are carried out in. -/
def isOpTy (t : Basic) : Prop := t = .int ∨ t = .uint ∨ t = .long ∨ t = .ulong

theorem isOpTy.isInt {t : Basic} (h : isOpTy t) : isInt t ∧ t ≠ .bool := by
  rcases h with h | h | h | h <;> subst h <;> exact ⟨rfl, by decide⟩

theorem hostLong_fits {t : Basic} (h : isOpTy t) (hs : t.isSigned = true) {n : Int} (hf : fits t n) :
    hostLong n = some (BitVec.ofInt 64 n) := by
  obtain ⟨lo, hi, e, h1, h2⟩ := hf
  unfold hostLong
  rw [if_pos]
  rcases h with h | h | h | h <;> subst h <;> simp [Basic.range, Basic.isSigned] at e hs <;> omega

theorem result_some {t : Basic} {n z : Int} (h : result t n = some z) : (t.isSigned = true → z = n ∧ fits t n) ∧
    (t.isSigned = false → z = n % 2 ^ width t) := by
  unfold result at h
  cases hr : t.range with
  | none => simp [hr] at h
  | some p =>
    obtain ⟨lo, hi⟩ := p
    simp only [hr] at h
    split_ifs at h with h1 h2
    · injection h with h
      exact ⟨fun _ => ⟨h.symm, lo, hi, hr, h2⟩, fun h3 => by simp [h1] at h3⟩
    · injection h with h
      exact ⟨fun h3 => absurd h3 h1, fun _ => h.symm⟩

/-- Storing the result of a signed operation. -/
theorem store_signed {t : Basic} (h : isOpTy t) (hs : t.isSigned = true) (q : Quals) {n : Int} (hf : fits t n) :
    (match hostLong n with | some x => immSigned (tyOf t q) x | none => Out.ub) = .const ⟨tyOf t q, BitVec.ofInt 64 n⟩ := by
  rw [hostLong_fits h hs hf]
  have := imm_eq h.isInt.1 h.isInt.2 q (BitVec.ofInt 64 n)
  rw [if_pos (by rw [isSigned_tyOf h.isInt.1]; exact hs)] at this
  rw [setWidth_ofInt _ (by rcases h with h | h | h | h <;> subst h <;> decide), ofBits_ofInt hf h.isInt.2] at this
  exact this

/-- Storing the result of an unsigned operation. -/
theorem store_unsigned {t : Basic} (h : isOpTy t) (hs : t.isSigned = false) (q : Quals) (n : Int) :
    immUnsigned (tyOf t q) (BitVec.ofInt 64 n) = .const ⟨tyOf t q, BitVec.ofInt 64 (n % 2 ^ width t)⟩ := by
  have := imm_eq h.isInt.1 h.isInt.2 q (BitVec.ofInt 64 n)
  rw [if_neg (by rw [isSigned_tyOf h.isInt.1]; simp [hs])] at this
  rw [setWidth_ofInt _ (by rcases h with h | h | h | h <;> subst h <;> decide), ← conv_eq h.isInt.2] at this
  simp only [conv, if_neg h.isInt.2, hs] at this
  exact this

theorem toInt_fits {t : Basic} (h : isOpTy t) (hs : t.isSigned = true) {n : Int} (hf : fits t n) :
    (BitVec.ofInt 64 n).toInt = n := by
  apply Word.ofInt_self
  obtain ⟨lo, hi, e, h1, h2⟩ := hf
  rcases h with h | h | h | h <;> subst h <;> simp [Basic.range, Basic.isSigned] at e hs <;> omega

theorem toNat_fits {t : Basic} (h : isOpTy t) (hs : t.isSigned = false) {n : Int} (hf : fits t n) :
    0 ≤ n ∧ (BitVec.ofInt 64 n).toNat = n.toNat ∧ n < 2 ^ 64 := by
  obtain ⟨lo, hi, e, h1, h2⟩ := hf
  rw [BitVec.toNat_ofInt]
  rcases h with h | h | h | h <;> subst h <;> simp [Basic.range, Basic.isSigned] at e hs <;> omega

/-- Model operation of a specification operation. -/
def opOf : Spec.Op → Op
  | .mul => .mul | .div => .div | .mod => .mod | .add => .add | .sub => .sub | .and => .and | .or => .or | .xor => .xor
  | .shl => .shl | .shr => .shr | .eq => .eq | .ne => .ne | .ge => .ge | .gt => .gt

theorem width_le (t : Basic) : width t ≤ 64 := by cases t <;> decide

theorem finish_signed {t : Basic} (h : isOpTy t) (hs : t.isSigned = true) (q : Quals) (op : Op) (l r : BitVec 64) :
    finish op (tyOf t q) l r = match signedOp op l r with | some n => immSigned (tyOf t q) n | none => .ub := by
  unfold finish
  rw [if_pos (by rw [isSigned_tyOf h.isInt.1]; exact hs)]
  cases signedOp op l r <;> rfl

theorem finish_unsigned {t : Basic} (h : isOpTy t) (hs : t.isSigned = false) (q : Quals) (op : Op) (l r : BitVec 64) :
    finish op (tyOf t q) l r = match unsignedOp op l r with | some n => immUnsigned (tyOf t q) n | none => .ub := by
  unfold finish
  rw [if_neg (by rw [isSigned_tyOf h.isInt.1, hs]; simp)]
  cases unsignedOp op l r <;> rfl

/-- A signed operation whose exact result is `n`. -/
theorem finish_s {t : Basic} (h : isOpTy t) (hs : t.isSigned = true) (q : Quals) {op : Op} {l r : BitVec 64} {n z : Int}
    (he : signedOp op l r = hostLong n) (hr : result t n = some z) :
    finish op (tyOf t q) l r = .const ⟨tyOf t q, BitVec.ofInt 64 z⟩ ∧ fits t z := by
  obtain ⟨rfl, hf⟩ := (result_some hr).1 hs
  rw [finish_signed h hs, he]
  exact ⟨store_signed h hs q hf, hf⟩

theorem finish_u {t : Basic} (h : isOpTy t) (hs : t.isSigned = false) (q : Quals) {op : Op} {l r : BitVec 64} {n z : Int}
    (he : unsignedOp op l r = some (BitVec.ofInt 64 n)) (hr : result t n = some z) :
    finish op (tyOf t q) l r = .const ⟨tyOf t q, BitVec.ofInt 64 z⟩ ∧ fits t z := by
  have hz := (result_some hr).2 hs
  rw [finish_unsigned h hs, he]
  have e : z = conv t n := by simp only [conv, if_neg h.isInt.2, hs]; exact hz
  exact ⟨by rw [hz]; exact store_unsigned h hs q n, by rw [e]; exact conv_fits h.isInt.1 n⟩

theorem finish_bits {t : Basic} (h : isOpTy t) (q : Quals) {op : Op} {l r v : BitVec 64}
    (h1 : signedOp op l r = some v) (h2 : unsignedOp op l r = some v) :
    finish op (tyOf t q) l r = .const ⟨tyOf t q, BitVec.ofInt 64 (ofBits t (v.setWidth _))⟩ ∧ fits t (ofBits t (v.setWidth _)) := by
  refine ⟨?_, fits_ofBits h.isInt.1 h.isInt.2 _⟩
  unfold finish
  rw [h1, h2]
  exact imm_eq h.isInt.1 h.isInt.2 q v

theorem result_fits {t : Basic} {n : Int} (h : fits t n) (hu : isOpTy t) : result t n = some n := by
  obtain ⟨lo, hi, e, h1⟩ := h
  unfold result
  rw [e]
  dsimp only
  rw [if_pos h1]
  split_ifs with hs
  · rfl
  · congr 1
    rcases hu with h | h | h | h <;> subst h <;> simp [Basic.range, Basic.isSigned, width] at * <;> omega

theorem fits_nonneg {t : Basic} {n : Int} (h : fits t n) (hs : t.isSigned = false) (hu : isOpTy t) : 0 ≤ n := (toNat_fits hu hs h).1

theorem ofNat_ofInt (n : Nat) : BitVec.ofNat 64 n = BitVec.ofInt 64 (n : Int) := by
  apply BitVec.eq_of_toNat_eq; rw [BitVec.toNat_ofInt, BitVec.toNat_ofNat]; omega

/-- The arithmetic operators on operands of the common type. -/
theorem arith {t : Basic} (h : isOpTy t) (q : Quals) {x y z : Int} (hx : fits t x) (hy : fits t y) :
    (result t (x * y) = some z → finish .mul (tyOf t q) (BitVec.ofInt 64 x) (BitVec.ofInt 64 y) =
      .const ⟨tyOf t q, BitVec.ofInt 64 z⟩ ∧ fits t z) ∧
    (result t (x + y) = some z → finish .add (tyOf t q) (BitVec.ofInt 64 x) (BitVec.ofInt 64 y) =
      .const ⟨tyOf t q, BitVec.ofInt 64 z⟩ ∧ fits t z) ∧
    (result t (x - y) = some z → finish .sub (tyOf t q) (BitVec.ofInt 64 x) (BitVec.ofInt 64 y) =
      .const ⟨tyOf t q, BitVec.ofInt 64 z⟩ ∧ fits t z) ∧
    (y ≠ 0 → result t (x.tdiv y) = some z → finish .div (tyOf t q) (BitVec.ofInt 64 x) (BitVec.ofInt 64 y) =
      .const ⟨tyOf t q, BitVec.ofInt 64 z⟩ ∧ fits t z) ∧
    (y ≠ 0 → result t (x.tdiv y) ≠ none → z = x - y * x.tdiv y →
      finish .mod (tyOf t q) (BitVec.ofInt 64 x) (BitVec.ofInt 64 y) =
      .const ⟨tyOf t q, BitVec.ofInt 64 z⟩ ∧ fits t z) := by
  have hy0 : y ≠ 0 → BitVec.ofInt 64 y ≠ 0 := fun hn h0 => hn ((ofInt_eq_zero hy).1 h0)
  cases hs : t.isSigned with
  | true =>
    have ex := toInt_fits h hs hx
    have ey := toInt_fits h hs hy
    refine ⟨finish_s h hs q ?_, finish_s h hs q ?_, finish_s h hs q ?_, fun hn => finish_s h hs q ?_, fun hn hr hz => ?_⟩
    · simp only [signedOp, ex, ey]
    · simp only [signedOp, ex, ey]
    · simp only [signedOp, ex, ey]
    · simp only [signedOp, ex, ey, if_neg (hy0 hn)]
    · have hm : x - y * x.tdiv y = x.tmod y := by have := Int.mul_tdiv_add_tmod x y; omega
      obtain ⟨w, hw⟩ := Option.ne_none_iff_exists'.1 hr
      have hfd := ((result_some hw).1 hs).2
      have hfm : fits t (x.tmod y) := by
        have h1 : (x.tmod y).natAbs ≤ x.natAbs := by rw [Int.natAbs_tmod]; exact Nat.mod_le _ _
        have h2 : 0 ≤ x → 0 ≤ x.tmod y := Int.tmod_nonneg y
        have h3 : x ≤ 0 → x.tmod y ≤ 0 := fun hx => by
          have := Int.neg_tmod x y ▸ Int.tmod_nonneg y (a := -x) (by omega)
          omega
        obtain ⟨lo, hi, e, h4, h5⟩ := hx
        refine ⟨lo, hi, e, ?_⟩
        rcases h with h | h | h | h <;> subst h <;> simp [Basic.range] at e <;> omega
      have hz' : z = x.tmod y := by omega
      subst hz'
      rw [finish_signed h hs]
      have : signedOp .mod (BitVec.ofInt 64 x) (BitVec.ofInt 64 y) = hostLong (x.tmod y) := by
        simp only [signedOp, ex, ey]
        rw [if_neg]
        rintro (h0 | h0)
        · exact hy0 hn h0
        · rw [hostLong_fits h hs hfd] at h0; simp at h0
      rw [this]
      exact ⟨store_signed h hs q hfm, hfm⟩
  | false =>
    obtain ⟨px, ex, bx⟩ := toNat_fits h hs hx
    obtain ⟨py, ey, by'⟩ := toNat_fits h hs hy
    have hd : BitVec.ofNat 64 (x.toNat / y.toNat) = BitVec.ofInt 64 (x.tdiv y) := by
      rw [ofNat_ofInt, Int.tdiv_eq_ediv_of_nonneg px]
      congr 1
      rw [Int.natCast_ediv, Int.toNat_of_nonneg px, Int.toNat_of_nonneg py]
    refine ⟨finish_u h hs q ?_, finish_u h hs q ?_, finish_u h hs q ?_, fun hn => finish_u h hs q ?_, fun hn hr hz => ?_⟩
    · simp only [unsignedOp, BitVec.ofInt_mul]
    · simp only [unsignedOp, BitVec.ofInt_add]
    · simp only [unsignedOp]
      rw [Int.sub_eq_add_neg, BitVec.ofInt_add, BitVec.ofInt_neg, BitVec.sub_eq_add_neg]
    · simp only [unsignedOp, ex, ey, if_neg (hy0 hn), hd]
    · have hm : x - y * x.tdiv y = x.tmod y := by have := Int.mul_tdiv_add_tmod x y; omega
      have hz' : z = x.tmod y := by omega
      have hfm : fits t (x.tmod y) := by
        rw [Int.tmod_eq_emod_of_nonneg px]
        have h1 := Int.emod_nonneg x hn
        have h2 := Int.emod_lt_of_pos x (show 0 < y by omega)
        obtain ⟨lo, hi, e, h4, h5⟩ := hy
        refine ⟨lo, hi, e, ?_⟩
        rcases h with h | h | h | h <;> subst h <;> simp [Basic.range, Basic.isSigned] at e hs <;> omega
      apply finish_u h hs q (n := z)
      · simp only [unsignedOp, ex, ey, if_neg (hy0 hn)]
        rw [ofNat_ofInt, hz', Int.tmod_eq_emod_of_nonneg px, Int.natCast_emod, Int.toNat_of_nonneg px, Int.toNat_of_nonneg py]
      · rw [hz']; exact result_fits hfm h

/-- Shifts. -/
theorem shifts {t : Basic} (h : isOpTy t) (q : Quals) {x y z : Int} (hx : fits t x) (hy : 0 ≤ y ∧ y < width t) :
    ((t.isSigned = true → 0 ≤ x) → result t (x * 2 ^ y.toNat) = some z →
      finish .shl (tyOf t q) (BitVec.ofInt 64 x) (BitVec.ofInt 64 y) = .const ⟨tyOf t q, BitVec.ofInt 64 z⟩ ∧ fits t z) ∧
    (finish .shr (tyOf t q) (BitVec.ofInt 64 x) (BitVec.ofInt 64 y) =
      .const ⟨tyOf t q, BitVec.ofInt 64 (x / 2 ^ y.toNat)⟩ ∧ fits t (x / 2 ^ y.toNat)) := by
  have hw := width_le t
  have ey : (BitVec.ofInt 64 y).toInt = y := Word.ofInt_self (by omega)
  have ey' : (BitVec.ofInt 64 y).toNat = y.toNat := by rw [BitVec.toNat_ofInt]; omega
  have hp : (0 : Int) < 2 ^ y.toNat := by positivity
  have hfd : fits t (x / 2 ^ y.toNat) := by
    obtain ⟨lo, hi, e, h4, h5⟩ := hx
    refine ⟨lo, hi, e, ?_⟩
    have h0 : lo ≤ 0 ∧ 0 ≤ hi := by
      rcases h with h | h | h | h <;> subst h <;> simp [Basic.range] at e <;> omega
    constructor
    · rw [Int.le_ediv_iff_mul_le hp]
      have : lo * 2 ^ y.toNat ≤ lo * 1 := Int.mul_le_mul_of_nonpos_left h0.1 (by omega)
      omega
    · by_cases hx0 : 0 ≤ x
      · have := Int.ediv_le_self (2 ^ y.toNat) hx0; omega
      · have := Int.ediv_neg_of_neg_of_pos (show x < 0 by omega) hp; omega
  cases hs : t.isSigned with
  | true =>
    have ex := toInt_fits h hs hx
    constructor
    · intro h0
      apply finish_s h hs q
      simp only [signedOp, ex, ey]
      rw [if_pos ⟨hy.1, by omega, h0 rfl⟩]
    · rw [finish_signed h hs]
      have : signedOp .shr (BitVec.ofInt 64 x) (BitVec.ofInt 64 y) = hostLong (x / 2 ^ y.toNat) := by
        rw [hostLong_fits h hs hfd]
        simp only [signedOp, ey]
        rw [if_pos ⟨hy.1, by omega⟩]
        congr 1
        apply BitVec.eq_of_toInt_eq
        rw [BitVec.toInt_sshiftRight, ex, Int.shiftRight_eq_div_pow, toInt_fits h hs hfd]
        norm_cast
      rw [this]
      exact ⟨store_signed h hs q hfd, hfd⟩
  | false =>
    obtain ⟨px, ex, bx⟩ := toNat_fits h hs hx
    constructor
    · intro _
      apply finish_u h hs q
      simp only [unsignedOp, ey']
      rw [if_pos (by omega)]
      congr 1
      apply BitVec.eq_of_toNat_eq
      rw [BitVec.toNat_shiftLeft, ex, Nat.shiftLeft_eq, BitVec.toNat_ofInt]
      have : x * 2 ^ y.toNat = ((x.toNat * 2 ^ y.toNat : Nat) : Int) := by
        push_cast; rw [Int.toNat_of_nonneg px]
      rw [this]
      omega
    · apply finish_u h hs q (n := x / 2 ^ y.toNat)
      · simp only [unsignedOp, ey']
        rw [if_pos (by omega)]
        congr 1
        apply BitVec.eq_of_toNat_eq
        have : x / 2 ^ y.toNat = ((x.toNat / 2 ^ y.toNat : Nat) : Int) := by
          push_cast; rw [Int.toNat_of_nonneg px]
        obtain ⟨_, e, _⟩ := toNat_fits h hs hfd
        rw [BitVec.toNat_ushiftRight, ex, Nat.shiftRight_eq_div_pow, e, this]
        omega
      · exact result_fits hfd h

theorem promote_fits {a : Basic} (ha : isInt a) {x : Int} (h : fits a x) : fits a.promote x := by
  obtain ⟨lo, hi, e, h1⟩ := h
  rcases isInt_cases ha with h | h | h | h | h | h | h | h | h <;> subst h <;> simp [Basic.range] at e <;>
    exact ⟨_, _, rfl, by omega⟩

theorem holds_immInt (b : Bool) : Holds .int (if b then 1 else 0) (immInt b) := by
  cases b
  · exact ⟨⟨_, _, rfl, by decide⟩, ⟨{}, rfl⟩, rfl⟩
  · exact ⟨⟨_, _, rfl, by decide⟩, ⟨{}, rfl⟩, rfl⟩

theorem ofInt_inj {t : Basic} (h : isOpTy t) {x y : Int} (hx : fits t x) (hy : fits t y) :
    BitVec.ofInt 64 x = BitVec.ofInt 64 y ↔ x = y := by
  constructor
  · intro he
    cases hs : t.isSigned with
    | true => rw [← toInt_fits h hs hx, he, toInt_fits h hs hy]
    | false =>
      have h1 := toNat_fits h hs hx
      have h2 := toNat_fits h hs hy
      have := congrArg BitVec.toNat he
      omega
  · rintro rfl; rfl

theorem compare_eq {t : Basic} (h : isOpTy t) (q : Quals) {x y : Int} (hx : fits t x) (hy : fits t y) :
    compareOp .eq (tyOf t q) (BitVec.ofInt 64 x) (BitVec.ofInt 64 y) = decide (x = y) ∧
    compareOp .ne (tyOf t q) (BitVec.ofInt 64 x) (BitVec.ofInt 64 y) = decide (x ≠ y) ∧
    compareOp .ge (tyOf t q) (BitVec.ofInt 64 x) (BitVec.ofInt 64 y) = decide (y ≤ x) ∧
    compareOp .gt (tyOf t q) (BitVec.ofInt 64 x) (BitVec.ofInt 64 y) = decide (y < x) := by
  have hi := ofInt_inj h hx hy
  refine ⟨?_, ?_, ?_⟩
  · rw [show compareOp .eq (tyOf t q) (BitVec.ofInt 64 x) (BitVec.ofInt 64 y) = (BitVec.ofInt 64 x == BitVec.ofInt 64 y) from rfl]
    rw [Bool.eq_iff_iff, beq_iff_eq, decide_eq_true_iff, hi]
  · rw [show compareOp .ne (tyOf t q) (BitVec.ofInt 64 x) (BitVec.ofInt 64 y) = (BitVec.ofInt 64 x != BitVec.ofInt 64 y) from rfl]
    rw [Bool.eq_iff_iff, bne_iff_ne, decide_eq_true_iff, ne_eq, hi]
  · cases hs : t.isSigned with
    | true =>
      simp only [compareOp, isSigned_tyOf h.isInt.1, hs, if_true, toInt_fits h hs hx, toInt_fits h hs hy, and_self]
    | false =>
      have h1 := toNat_fits h hs hx
      have h2 := toNat_fits h hs hy
      simp only [compareOp, isSigned_tyOf h.isInt.1, hs, h1, h2]
      constructor
      · apply decide_eq_decide.2; omega
      · apply decide_eq_decide.2; omega

end Verif.Fold
