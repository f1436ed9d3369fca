import Verif.Ptr.UnderLemmas

/-!
# Addresses
-/

namespace Verif.Ptr

open Verif.Abi (rd wr le val sval)
open Verif.Types (Ty)
open Verif.Types.Spec (Basic)
open Verif.Fold (tyOf isInt isOpTy)
open Verif.Fold.Spec (conv fits)

variable {W : World}

set_option linter.unusedSectionVars false

/-! ### Numbers of 64 bits -/

theorem toNat_ofInt (n : Int) : ((BitVec.ofInt 64 n).toNat : Int) = n % 2 ^ 64 := by
  rw [BitVec.toNat_ofInt, Int.toNat_of_nonneg (Int.emod_nonneg _ (by norm_num))]; rfl

theorem ofInt_toInt (v : BitVec 64) : BitVec.ofInt 64 (v.toInt % 2 ^ 64) = v := by
  apply BitVec.eq_of_toNat_eq
  have h := toNat_ofInt (v.toInt % 2 ^ 64)
  have := v.isLt
  have h2 := BitVec.toInt_eq_toNat_cond v
  split_ifs at h2 <;> omega

theorem toInt_emod (v : BitVec 64) : v.toInt % 2 ^ 64 = v.toNat := by
  have := v.isLt
  have h2 := BitVec.toInt_eq_toNat_cond v
  split_ifs at h2 <;> omega

theorem mul_ofNat (n : Int) (s : Nat) : BitVec.ofInt 64 n * BitVec.ofNat 64 s = BitVec.ofInt 64 (n * s) := by
  rw [← BitVec.ofInt_natCast, BitVec.ofInt_mul]

theorem wrap_wrap (x : Int) : wrap (wrap x) = wrap x := by unfold wrap; omega
theorem wrap_range (x : Int) : 0 ≤ wrap x ∧ wrap x < 2 ^ 64 := by unfold wrap; omega
theorem wrap_self {x : Int} (h : 0 ≤ x ∧ x < 2 ^ 64) : wrap x = x := by unfold wrap; omega
theorem wrap_add (x y : Int) : wrap (wrap x + y) = wrap (x + y) := by unfold wrap; omega
theorem wrap_add' (x y : Int) : wrap (x + wrap y) = wrap (x + y) := by unfold wrap; omega
theorem wrap_sub' (x y : Int) : wrap (x - wrap y) = wrap (x - y) := by unfold wrap; omega

theorem wrap_bv (x : Int) (o : BitVec 64) (n : Int) : wrap (x + ((o + BitVec.ofInt 64 n).toNat : Int)) = wrap (x + o.toNat + n) := by
  have h := toNat_ofInt n
  rw [BitVec.toNat_add]
  unfold wrap
  push_cast
  omega

theorem wrap_bv_sub (x : Int) (o : BitVec 64) (n : Int) : wrap (x + ((o - BitVec.ofInt 64 n).toNat : Int)) = wrap (x + o.toNat - n) := by
  rw [BitVec.sub_eq_add_neg, ← BitVec.ofInt_neg, wrap_bv]
  congr 1

theorem bmod64 (x : Int) : x.bmod (2 ^ 64) = if x % 2 ^ 64 < 2 ^ 63 then x % 2 ^ 64 else x % 2 ^ 64 - 2 ^ 64 := by
  unfold Int.bmod
  norm_num

/-! ### Types of eight bytes -/

def Eight (t : CTy) : Prop := t = .int .long ∨ t = .int .ulong ∨ ∃ u, t = .ptr u

theorem Eight.size {t : CTy} (h : Eight t) : t.size W.toDecls = 8 := by
  rcases h with rfl | rfl | ⟨u, rfl⟩ <;> rfl

theorem eight_of {t : CTy} (ht : t.Ok) (hs : isScalar t = true) (h : t.size W.toDecls = 8) : Eight t := by
  cases t with
  | int b =>
    rcases Fold.isInt_cases ht with e | e | e | e | e | e | e | e | e <;> subst e <;>
      first | exact .inl rfl | exact .inr (.inl rfl) | (exact absurd h (by simp only [CTy.size]; decide))
  | ptr u => exact .inr (.inr ⟨u, rfl⟩)
  | _ => cases hs

theorem view_eight {t : CTy} (h : Eight t) (x : Int) :
    view t x = some (if t = .int .long then x.bmod (2 ^ 64) else x % 2 ^ 64) := by
  rcases h with rfl | rfl | ⟨u, rfl⟩
  · rw [if_pos rfl]; rfl
  · rw [if_neg (by simp)]; rfl
  · rw [if_neg (by simp)]; rfl

theorem view_view {t s : CTy} {x y : Int} (ht : Eight t) (hs : Eight s) (h : view t x = some y) : view s x = view s y := by
  rw [view_eight ht, Option.some.injEq] at h
  rw [view_eight hs, view_eight hs, Option.some.injEq]
  subst h
  simp only [bmod64]
  split_ifs <;> omega

theorem sval_bmod {bs : List UInt8} (h : bs.length = 8) : sval bs = (val bs).bmod (2 ^ 64) := by
  have h0 := Abi.val_nonneg bs
  have h1 := Abi.val_lt bs
  unfold sval
  rw [bmod64]
  rw [h, show (256 : Int) ^ 8 = 2 ^ 64 by norm_num] at *
  generalize val bs = V at *
  split_ifs <;> omega

theorem scalar_view {mem : Mem} {t s : CTy} {a x : Int} (ht : Eight t) (hs : Eight s) (h : scalar W mem t a = some x) :
    scalar W mem s a = view s x := by
  have hv := val_rd mem a 8
  norm_num at hv
  obtain ⟨h8, h⟩ := scalar_inv h
  have e : ∀ {t}, Eight t → number mem t a = some (if t = .int .long then (val (rd mem a 8)).bmod (2 ^ 64) else val (rd mem a 8)) := by
    intro t ht
    rcases ht with rfl | rfl | ⟨u, rfl⟩
    · rw [if_pos rfl]
      rw [← sval_bmod (Abi.rd_length ..)]
      have h1 : Expr.size .long = 8 := by decide
      have h2 : Basic.long.isSigned = true := by decide
      simp only [number, h1, h2, if_true]
    · rw [if_neg (by simp)]; rfl
    · rw [if_neg (by simp)]; rfl
  rw [e ht, Option.some.injEq] at h
  unfold scalar
  rw [if_pos (by rw [hs.size]; rw [ht.size] at h8; exact h8), e hs, view_eight hs, Option.some.injEq]
  subst h
  simp only [bmod64]
  generalize val (rd mem a 8) = V at hv ⊢
  split_ifs <;> omega

section
variable {n : Nat} {σ : Env} {v l r : PVar} {t s u : CTy} {x y a : Int}

theorem place_retype : (v.retype s).place W σ = v.place W σ := by
  cases v with
  | dir q o t => cases q <;> rfl
  | _ => rfl

theorem ty_retype : (v.retype s).ty = s := by cases v <;> rfl

/-- Pointers, `long` and `unsigned long` are the same bits. -/
theorem retype_val (h : PVal W n σ v t x) (ht : Eight t) (hs : Eight s) (hok : s.Ok) (hi : isImm v = false) (hx : view s x = some y) :
    PVal W n σ (v.retype s) s y := by
  have hr := h.read
  have hsh := h.shape
  have hty := h.ty
  have hp := place_retype (W := W) (σ := σ) (v := v) (s := s)
  have mem : (v.place W σ).bind (scalar W σ.mem v.ty) = some x → ((v.retype s).place W σ).bind (scalar W σ.mem s) = some y := by
    intro hr
    obtain ⟨a, h1, h2⟩ := Option.bind_eq_some_iff.mp hr
    rw [hp, h1, Option.bind_some, scalar_view (hty ▸ ht) hs h2, hx]
  refine ⟨ty_retype, hok, ?_, ?_⟩
  · cases v with
    | imm t v => cases hi
    | dir q o t => exact hsh
    | adr q o t => exact ⟨hsh.1, hs.size⟩
    | der q o t => exact hsh
    | derImm v o t => trivial
  · cases v with
    | imm t v => cases hi
    | dir q o t' =>
      cases q with
      | var i => exact mem hr
      | tmp k w =>
        cases hty
        simp only [PVar.retype, PVar.read, PVar.ty] at hr ht ⊢
        split_ifs at hr ⊢ with ho
        unfold tmpValue at hr ⊢
        split at hr
        · rename_i c z hc
          split_ifs at hr with hsz
          rw [ht.size] at hsz
          rw [if_pos ⟨by rw [hsz.1, hs.size], fun e => by have := hs.size (W := W); rw [e] at this; cases this⟩, view_view ht hs hr, hx]
        · cases hr
    | adr q o t' =>
      cases q with
      | var i =>
        cases hty
        simp only [PVar.retype, PVar.read, PVar.ty] at hr ht ⊢
        rw [view_view ht hs hr, hx]
      | tmp k w => exact mem hr
    | der q o t => exact mem hr
    | derImm v o t => exact mem hr

theorem ptr_eight : Eight (.ptr u) := .inr (.inr ⟨u, rfl⟩)

theorem retype_ptr (h : PVal W n σ v (.ptr u) x) (hok : (CTy.ptr s).Ok) : PVal W n σ (v.retype (.ptr s)) (.ptr s) x := by
  cases hi : isImm v with
  | true =>
    cases v with
    | imm t v =>
      cases h.ty
      exact ⟨rfl, hok, fun _ e => (by cases e), h.read⟩
    | _ => cases hi
  | false => exact retype_val h ptr_eight ptr_eight hok hi (view_self (t := .ptr s) h.fit)

theorem imm_int {b : Basic} {v : BitVec 64} {t : CTy} (h : PVal W n σ (.imm t v) (.int b) x) : t = .int b ∧ v = BitVec.ofInt 64 x := by
  have ht : t = .int b := h.ty
  subst ht
  have hr := h.read
  simp only [PVar.read, view, Option.some.injEq] at hr
  have := h.shape b rfl
  rw [hr] at this
  exact ⟨rfl, this⟩

theorem imm_ptr {v : BitVec 64} {t : CTy} (h : PVal W n σ (.imm t v) (.ptr u) x) : t = .ptr u ∧ v = BitVec.ofInt 64 x ∧ x = v.toNat := by
  have ht : t = .ptr u := h.ty
  subst ht
  have hr := h.read
  simp only [PVar.read, view, Option.some.injEq] at hr
  exact ⟨rfl, by rw [← hr, ofInt_toInt], by rw [← hr, toInt_emod]⟩

theorem int_imm {b : Basic} (h : fits b x) : PVal W n σ (.imm (.int b) (BitVec.ofInt 64 x)) (.int b) x :=
  ⟨rfl, Fold.fits_isInt h, fun c e => (by cases e; rw [conv_ofInt h]), by simp only [PVar.read, view, conv_ofInt h]⟩

theorem ptr_imm (hu : (CTy.ptr u).Ok) (v : BitVec 64) : PVal W n σ (.imm (.ptr u) v) (.ptr u) v.toNat :=
  ⟨rfl, hu, fun _ e => (by cases e), by simp only [PVar.read, view, toInt_emod]⟩

/-! ### Conversions -/

theorem not_samePtr {a b : Basic} : samePtr W.toDecls (.int a) (.int b) = false := by
  simp only [samePtr, CTy.isPtr, Bool.or_self, Bool.and_false]

theorem cast_val {b : Basic} (h : PVal W n σ v t x) (hi : isImm v = false) (hb : isInt b) (hb' : b ≠ .bool) :
    EVal W n σ (.cast (.int b) v) (.int b) (conv b x) := by
  refine ⟨rfl, hb, ⟨h.shape, by rw [h.ty]; exact h.ok, fun e => by rw [hi] at e; cases e⟩, ?_, Fold.conv_fits hb _, fun _ _ _ _ _ e => by cases e⟩
  simp only [PExp.value, h.read, Option.bind_eq_bind, Option.bind_some, CTy.int.injEq, hb', false_and, if_false, view]

theorem castOperand_int {a b : Basic} (h : PVal W n σ v (.int a) x) (hb : isInt b) (hb' : b ≠ .bool) :
    Sound W σ n (castOperand W.toDecls v (.int b)) fun σ' n' v' => Keep n σ σ' ∧ PVal W n' σ' v' (.int b) (conv b x) := by
  unfold castOperand
  split_ifs with he
  · rw [h.ty] at he
    cases he
    exact .pure ⟨Keep.refl _ _, by rw [Fold.conv_self h.fit]; exact h⟩
  · split
    · rename_i t v
      obtain ⟨rfl, rfl⟩ := imm_int h
      have hc := Fold.castOperand_eq {} (i := ⟨tyOf a {}, BitVec.ofInt 64 x⟩) ⟨h.fit, ⟨{}, rfl⟩, rfl⟩ hb
      simp only [convert, hc, Option.map_some, lift_pure]
      exact .pure ⟨Keep.refl _ _, int_imm (Fold.conv_fits hb x)⟩
    · rename_i hv
      have hi : isImm v = false := by cases v <;> first | rfl | exact (hv _ _ rfl).elim
      rw [h.ty, not_samePtr, if_neg (by simp)]
      exact eval_sound (cast_val h hi hb hb')

theorem castOperand_eight (h : PVal W n σ v (.ptr u) x) (hs : Eight s) (hok : s.Ok) (hx : view s x = some y) :
    Sound W σ n (castOperand W.toDecls v s) fun σ' n' v' => Keep n σ σ' ∧ PVal W n' σ' v' s y := by
  unfold castOperand
  split_ifs with he
  · rw [h.ty] at he
    subst he
    rw [view_self h.fit] at hx
    cases hx
    exact .pure ⟨Keep.refl _ _, h⟩
  · split
    · rename_i t v
      obtain ⟨rfl, h1, h2⟩ := imm_ptr h
      rcases hs with rfl | rfl | ⟨w, rfl⟩
      · have hc := Fold.castOperand_eq {} (i := ⟨tyOf .ulong {}, v⟩) (t := .long) ⟨(⟨0, _, rfl, h.fit.1, by have := h.fit.2; omega⟩ : fits .ulong x), ⟨{}, rfl⟩, h1⟩ rfl
        cases hx
        simp only [convert, hc, Option.map_some, lift_pure]
        exact .pure ⟨Keep.refl _ _, int_imm (Fold.conv_fits (by rfl) x)⟩
      · have hc := Fold.castOperand_eq {} (i := ⟨tyOf .ulong {}, v⟩) (t := .ulong) ⟨(⟨0, _, rfl, h.fit.1, by have := h.fit.2; omega⟩ : fits .ulong x), ⟨{}, rfl⟩, h1⟩ rfl
        cases hx
        simp only [convert, hc, Option.map_some, lift_pure]
        exact .pure ⟨Keep.refl _ _, int_imm (Fold.conv_fits (by rfl) x)⟩
      · rw [view_self (t := .ptr w) h.fit] at hx
        cases hx
        simp only [convert, Option.map_some, lift_pure]
        exact .pure ⟨Keep.refl _ _, h2 ▸ ptr_imm hok v⟩
    · rename_i hv
      have hi : isImm v = false := by cases v <;> first | rfl | exact (hv _ _ rfl).elim
      have : samePtr W.toDecls v.ty s = true := by
        rw [h.ty]; simp only [samePtr, hs.size, CTy.size, CTy.isPtr, beq_self_eq_true, Bool.true_or, Bool.and_self]
      rw [this, if_pos rfl]
      exact .pure ⟨Keep.refl _ _, retype_val h ptr_eight hs hok hi hx⟩

theorem castOperand_long (h : PVal W n σ v (.ptr u) x) :
    Sound W σ n (castOperand W.toDecls v long) fun σ' n' v' => Keep n σ σ' ∧ PVal W n' σ' v' long (x.bmod (2 ^ 64)) :=
  castOperand_eight h (.inl rfl) rfl rfl

theorem castOperand_ulong (h : PVal W n σ v (.ptr u) x) :
    Sound W σ n (castOperand W.toDecls v ulong) fun σ' n' v' => Keep n σ σ' ∧ PVal W n' σ' v' ulong x :=
  castOperand_eight h (.inr (.inl rfl)) rfl (view_self (t := ulong) ⟨0, _, rfl, h.fit.1, by have := h.fit.2; omega⟩)

end

end Verif.Ptr
