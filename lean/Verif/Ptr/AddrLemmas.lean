import Verif.Ptr.OpLemmas

/-!
# Arithmetic with pointers
-/

namespace Verif.Ptr

open Verif.Abi (rd wr le val sval)
open Verif.Types (Ty)
open Verif.Types.Spec (Basic)
open Verif.Fold (tyOf isInt isOpTy)
open Verif.Fold.Spec (conv fits)

variable {W : World}

set_option linter.unusedSectionVars false

section
variable {n : Nat} {σ : Env} {v l r : PVar} {t s u : CTy} {x y p a : Int}

theorem long_fits {x : Int} : fits .long x ↔ -2 ^ 63 ≤ x ∧ x < 2 ^ 63 := by
  constructor
  · rintro ⟨lo, hi, e, h1, h2⟩
    cases e
    omega
  · rintro ⟨h1, h2⟩
    exact ⟨_, _, rfl, by omega, by omega⟩

theorem ulong_fits {x : Int} : fits .ulong x ↔ 0 ≤ x ∧ x < 2 ^ 64 := by
  constructor
  · rintro ⟨lo, hi, e, h1, h2⟩
    cases e
    omega
  · rintro ⟨h1, h2⟩
    exact ⟨_, _, rfl, by omega, by omega⟩

theorem conv_long (x : Int) : conv .long x = x.bmod (2 ^ 64) := rfl
theorem conv_ulong (x : Int) : conv .ulong x = x % 2 ^ 64 := rfl

theorem ptr_ne_bool {e : PExp} (h : e.ty = .ptr t) : ¬ e.ty = .int .bool := by rw [h]; simp

/-- `p + n` in eval_add. -/
theorem addPtr_sound (hl : PVal W n σ l (.ptr t) p) (hr : PVal W n σ r long y) (h0 : t.size W.toDecls ≠ 0) (h1 : t.size W.toDecls < 2 ^ 63)
    (h2 : -2 ^ 63 ≤ y * t.size W.toDecls) (h3 : y * t.size W.toDecls < 2 ^ 63) :
    Sound W σ n (addPtr W.toDecls l r t) fun σ' n' e => Keep n σ σ' ∧ EVal W n' σ' e (.ptr t) (wrap (p + y * t.size W.toDecls)) := by
  have general : Sound W σ n (do
      let l' ← castOperand W.toDecls l long
      let r' ← scaleAdd W.toDecls t r
      pure (.bin .add l.ty l' r')) fun σ' n' e => Keep n σ σ' ∧ EVal W n' σ' e (.ptr t) (wrap (p + y * t.size W.toDecls)) := by
    refine .bind (castOperand_long hl) ?_
    rintro σ1 n1 l' g1 ⟨k1, hl'⟩
    have hr1 := hr.keep k1 g1
    have scaled : Sound W σ1 n1 (scaleAdd W.toDecls t r) fun σ' n' v => Keep n1 σ1 σ' ∧ PVal W n' σ' v long (y * t.size W.toDecls) := by
      unfold scaleAdd scale
      split_ifs with hs
      · exact .pure ⟨Keep.refl _ _, by rw [hs]; simpa using hr1⟩
      · have hc : PVal W n1 σ1 (.imm long (BitVec.ofNat 64 (t.size W.toDecls))) long (t.size W.toDecls) := by
          rw [← BitVec.ofInt_natCast]
          exact int_imm (long_fits.mpr (by omega))
        have hm : Fold.Spec.binary .mul .long .long (t.size W.toDecls) y = some (.long, y * t.size W.toDecls) := by
          have e1 : conv .long (t.size W.toDecls) = t.size W.toDecls := Fold.conv_self (long_fits.mpr (by omega))
          have e2 : conv .long y = y := Fold.conv_self hr.fit
          have e3 : Basic.long.common .long = .long := rfl
          have e4 : Fold.Spec.result .long (y * t.size W.toDecls) = some (y * t.size W.toDecls) := by
            unfold Fold.Spec.result
            simp only [Basic.range]
            rw [if_pos (by decide), if_pos (by omega)]
          simp only [Fold.Spec.binary, e3, e1, e2, Int.mul_comm (t.size W.toDecls : Int) y, e4, Option.map_some]
        refine .bind (evalInt_sound (op := .mul) hc hr1 hm) ?_
        rintro σ2 n2 e g2 ⟨k2, he⟩
        exact (eval_sound he).weaken fun _ _ _ _ ⟨k3, h⟩ => ⟨k2.trans k3 g2, h⟩
    refine .bind scaled ?_
    rintro σ2 n2 r' g2 ⟨k2, hr'⟩
    have hl2 := hl'.keep k2 g2
    refine .pure ⟨k1.trans k2 g1, ?_⟩
    rw [hl.ty]
    refine ⟨rfl, hl.ok, ⟨⟨hl2.shape, by rw [hl2.ty]; exact hl2.ok⟩, ⟨hr'.shape, by rw [hr'.ty]; exact hr'.ok⟩,
      fun _ _ => .inr ⟨t, rfl, by rw [hl2.ty]; rfl, by rw [hr'.ty]; rfl⟩, fun _ ho => by cases ho⟩, ?_, wrap_range _, ?_⟩
    · simp only [PExp.value, hl2.read, hr'.read, Option.bind_eq_bind, Option.bind_some, Expr.arithOp]
      rw [bmod64]
      unfold wrap
      split_ifs <;> congr 1 <;> omega
    · intro op _ _ _ o e ho
      cases e
      cases ho
  unfold addPtr
  rw [if_neg h0]
  simp only
  split
  · rename_i s o w t' x
    obtain ⟨rfl, rfl⟩ := imm_int hr
    cases hl.ty
    obtain ⟨⟨i, rfl⟩, hs⟩ := hl.shape
    refine .pure ⟨Keep.refl _ _, asExpr_val ⟨rfl, hl.ok, ⟨⟨i, rfl⟩, hs⟩, ?_⟩⟩
    have hp := hl.read
    simp only [PVar.read, view, Option.some.injEq] at hp ⊢
    rw [mul_ofNat]
    subst hp
    show wrap (wrap _) = wrap (wrap (wrap _) + _)
    rw [wrap_bv, wrap_wrap, wrap_wrap, wrap_add]
  · rename_i w v t' x
    obtain ⟨rfl, rfl⟩ := imm_int hr
    obtain ⟨rfl, hv, hp⟩ := imm_ptr hl
    refine .pure ⟨Keep.refl _ _, asExpr_val ?_⟩
    have := ptr_imm (W := W) (n := n) (σ := σ) hl.ok (v + BitVec.ofInt 64 y * BitVec.ofNat 64 (t.size W.toDecls))
    rw [mul_ofNat] at this ⊢
    have e := wrap_bv 0 v (y * t.size W.toDecls)
    rw [Int.zero_add, Int.zero_add, wrap_self ⟨by omega, by have := (v + BitVec.ofInt 64 (y * t.size W.toDecls)).isLt; omega⟩, ← hp] at e
    rw [e] at this
    exact this
  · split_ifs with hz
    · subst hz
      have hy : y = 0 := by
        have h := hr.read
        simp only [PVar.read, long, view, Option.some.injEq] at h
        rw [← h]; decide
      subst hy
      refine .pure ⟨Keep.refl _ _, asExpr_val ?_⟩
      rw [Int.zero_mul, Int.add_zero, wrap_self hl.fit]
      exact hl
    · exact general

/-- `p - n` in eval_sub. -/
theorem subPtr_sound (hl : PVal W n σ l (.ptr t) p) (hr : PVal W n σ r long y) (h0 : t.size W.toDecls ≠ 0) (h1 : t.size W.toDecls < 2 ^ 63) :
    Sound W σ n (subPtr W.toDecls l r t) fun σ' n' e => Keep n σ σ' ∧ EVal W n' σ' e (.ptr t) (wrap (p - y * t.size W.toDecls)) := by
  have general : Sound W σ n (do
      let r' ← scaleSub W.toDecls t r
      pure (.bin .sub l.ty l r')) fun σ' n' e => Keep n σ σ' ∧ EVal W n' σ' e (.ptr t) (wrap (p - y * t.size W.toDecls)) := by
    have scaled : Sound W σ n (scaleSub W.toDecls t r) fun σ' n' v => Keep n σ σ' ∧ ∃ s z, PVal W n' σ' v s z ∧
        s.size W.toDecls = 8 ∧ wrap z = wrap (y * t.size W.toDecls) := by
      unfold scaleSub scale
      split_ifs with hs
      · have : t.size W.toDecls = 1 := by omega
        exact .pure ⟨Keep.refl _ _, _, _, hr, rfl, by rw [this]; simp⟩
      · have hc : PVal W n σ (.imm ulong (BitVec.ofNat 64 (t.size W.toDecls))) ulong (t.size W.toDecls) := by
          rw [← BitVec.ofInt_natCast]
          exact int_imm (ulong_fits.mpr (by omega))
        have hm : Fold.Spec.binary .mul .ulong .long (t.size W.toDecls) y = some (.ulong, t.size W.toDecls * (y % 2 ^ 64) % 2 ^ 64) := by
          have e1 : conv .ulong (t.size W.toDecls) = t.size W.toDecls := Fold.conv_self (ulong_fits.mpr (by omega))
          have e3 : Basic.ulong.common .long = .ulong := rfl
          have e4 : ∀ z, Fold.Spec.result .ulong z = some (z % 2 ^ 64) := fun z => rfl
          simp only [Fold.Spec.binary, e3, e1, conv_ulong, e4, Option.map_some]
        refine .bind (evalInt_sound (op := .mul) hc hr hm) ?_
        rintro σ2 n2 e g2 ⟨k2, he⟩
        refine (eval_sound he).weaken fun _ _ _ _ ⟨k3, h⟩ => ⟨k2.trans k3 g2, _, _, h, rfl, ?_⟩
        unfold wrap
        rw [Int.emod_emod_of_dvd _ (dvd_refl _), Int.mul_emod, Int.emod_emod_of_dvd _ (dvd_refl _), ← Int.mul_emod, Int.mul_comm]
    refine .bind scaled ?_
    rintro σ2 n2 r' g2 ⟨k2, s, z, hr', hs8, hz⟩
    have hl2 := hl.keep k2 g2
    refine .pure ⟨k2, ?_⟩
    rw [hl.ty]
    refine ⟨rfl, hl.ok, ⟨⟨hl2.shape, by rw [hl2.ty]; exact hl2.ok⟩, ⟨hr'.shape, by rw [hr'.ty]; exact hr'.ok⟩,
      fun _ _ => .inr ⟨t, rfl, by rw [hl2.ty]; rfl, by rw [hr'.ty]; exact hs8⟩, fun _ ho => by cases ho⟩, ?_, wrap_range _, ?_⟩
    · simp only [PExp.value, hl2.read, hr'.read, Option.bind_eq_bind, Option.bind_some, Expr.arithOp]
      rw [← wrap_sub', hz, wrap_sub']
    · intro op _ _ _ o e ho
      cases e
      cases ho
  unfold subPtr
  rw [if_neg h0]
  split
  · rename_i s o w t' x
    obtain ⟨rfl, rfl⟩ := imm_int hr
    cases hl.ty
    obtain ⟨⟨i, rfl⟩, hs⟩ := hl.shape
    refine .pure ⟨Keep.refl _ _, asExpr_val ⟨rfl, hl.ok, ⟨⟨i, rfl⟩, hs⟩, ?_⟩⟩
    have hp := hl.read
    simp only [PVar.read, view, Option.some.injEq] at hp ⊢
    rw [mul_ofNat]
    subst hp
    show wrap (wrap _) = wrap (wrap (wrap _) - _)
    rw [wrap_bv_sub, wrap_wrap, wrap_wrap]
    generalize y * (t.size W.toDecls : Int) = z
    unfold wrap
    omega
  · rename_i w v t' x
    obtain ⟨rfl, rfl⟩ := imm_int hr
    obtain ⟨rfl, hv, hp⟩ := imm_ptr hl
    refine .pure ⟨Keep.refl _ _, asExpr_val ?_⟩
    have := ptr_imm (W := W) (n := n) (σ := σ) hl.ok (v - BitVec.ofInt 64 y * BitVec.ofNat 64 (t.size W.toDecls))
    rw [mul_ofNat] at this ⊢
    have e := wrap_bv_sub 0 v (y * t.size W.toDecls)
    rw [Int.zero_add, Int.zero_add, wrap_self ⟨by omega, by have := (v - BitVec.ofInt 64 (y * t.size W.toDecls)).isLt; omega⟩, ← hp] at e
    rw [e] at this
    exact this
  · split_ifs with hz
    · subst hz
      have hy : y = 0 := by
        have h := hr.read
        simp only [PVar.read, long, view, Option.some.injEq] at h
        rw [← h]; decide
      subst hy
      refine .pure ⟨Keep.refl _ _, asExpr_val ?_⟩
      rw [Int.zero_mul, Int.sub_zero, wrap_self hl.fit]
      exact hl
    · exact general

/-- The address of an object. -/
theorem evalAddr_sound (hW : W.Good) (h : LVal W n σ v t a) (ho : ∀ s o u, v = .der s o u → o = 0 ∨ o.toNat < 2 ^ 31) :
    Sound W σ n (evalAddr W.toDecls v) fun σ' n' v' => Keep n σ σ' ∧ PVal W n' σ' v' (.ptr t) a := by
  have hp := h.place
  unfold evalAddr
  split
  · cases hp
  · rename_i i o t'
    cases h.ty
    refine .pure ⟨Keep.refl _ _, rfl, h.ok, ⟨⟨i, rfl⟩, rfl⟩, ?_⟩
    simp only [PVar.place, Option.some.injEq] at hp
    subst hp
    simp only [PVar.read, view, PVar.ty]
    exact congrArg some (wrap_wrap _)
  · cases hp
  · cases hp
  · rename_i x o t'
    cases h.ty
    have e := ptr_imm (W := W) (n := n) (σ := σ) (u := t') h.ok (x + o)
    simp only [PVar.place, Option.some.injEq] at hp
    subst hp
    refine .pure ⟨Keep.refl _ _, ?_⟩
    rw [BitVec.toNat_add] at e
    unfold wrap
    push_cast at e
    exact e
  · rename_i s o t'
    cases h.ty
    obtain ⟨g1, g2⟩ := h.shape
    simp only [PVar.place, Option.bind_eq_some_iff, Option.ite_none_right_eq_some, Option.some.injEq] at hp
    obtain ⟨q, hq, hq64, hp⟩ := hp
    have hs : ∀ {w}, w.Ok → PVal W n σ (.dir s 0 (.ptr w)) (.ptr w) q := by
      intro w hw
      refine ⟨rfl, hw, ⟨g1, fun k t' e => ?_⟩, ?_⟩
      · obtain ⟨w', e1, e2⟩ := g2
        subst e
        simp only [Sym.ty] at e1
        subst e1
        exact ⟨rfl, e2⟩
      cases s with
      | var i =>
        have := hW.addr i
        unfold top at this
        have hval := hW.valid i
        obtain ⟨w', e1, _⟩ := g2
        simp only [Sym.ty] at e1
        rw [e1] at hval
        simp only [PVar.read, PVar.place, PVar.ty, Option.bind_some, scalar]
        rw [show wrap (W.addr i + ((0 : BitVec 64).toNat : Int)) = W.addr i by
          rw [show ((0 : BitVec 64).toNat : Int) = 0 from rfl, Int.add_zero]; exact wrap_self (by omega)]
        rw [if_pos (show W.Valid (W.addr i) ((CTy.ptr w).size W.toDecls) from hval)]
        exact hq
      | tmp k w' => simp only [PVar.read, if_true]; rw [← hq]; exact tmpValue_ptr σ k w w'
    split_ifs with hz
    · subst hz
      have e : q = a := by
        rw [← hp, show ((0 : BitVec 64).toNat : Int) = 0 from rfl, Int.add_zero]
      subst e
      exact .pure ⟨Keep.refl _ _, hs h.ok⟩
    · have hlt := (ho s o _ rfl).resolve_left hz
      obtain ⟨w, hw, hwo⟩ := g2
      rw [hw]
      refine .bind (castOperand_eight (hs (w := w) hwo) (ptr_eight (u := .int .char)) rfl (view_self (t := .ptr (.int .char)) (hs (w := .void) trivial).fit)) ?_
      rintro σ1 n1 p' l1 ⟨k1, hp'⟩
      have hc : PVal W n1 σ1 (.imm (.int .int) ((o.setWidth 32).signExtend 64)) (.int .int) o.toNat := by
        rw [show (o.setWidth 32).signExtend 64 = BitVec.ofInt 64 (o.toNat : Int) from ?_]
        · exact int_imm ⟨_, _, rfl, by omega, by omega⟩
        · have : (o.setWidth 32).toNat = o.toNat := by rw [BitVec.toNat_setWidth]; omega
          rw [BitVec.signExtend_eq_setWidth_of_msb_false]
          · apply BitVec.eq_of_toNat_eq
            rw [BitVec.toNat_setWidth, this, BitVec.ofInt_natCast, BitVec.toNat_ofNat]
          · rw [BitVec.msb_eq_decide, this]; simp; omega
      have add : Sound W σ1 n1 (addScalar W.toDecls p' (.imm (.int .int) ((o.setWidth 32).signExtend 64))) fun σ' n' e =>
          Keep n1 σ1 σ' ∧ EVal W n' σ' e (.ptr (.int .char)) a := by
        unfold addScalar
        rw [hp'.ty]
        simp only [PVar.ty]
        refine .bind (castOperand_int hc (b := .long) (by rfl) (by simp)) ?_
        rintro σ2 n2 r l2 ⟨k2, hr⟩
        rw [Fold.conv_self (long_fits.mpr (by omega))] at hr
        have hsz : (CTy.int .char).size W.toDecls = 1 := rfl
        refine (addPtr_sound (hp'.keep k2 l2) hr (by omega) (by omega) (by rw [hsz]; omega) (by rw [hsz]; omega)).weaken ?_
        rintro σ3 n3 e l3 ⟨k3, he⟩
        rw [hsz, Int.natCast_one, Int.mul_one, hp, wrap_self ⟨by have := (hs (w := .void) trivial).fit.1; omega, by omega⟩] at he
        exact ⟨k2.trans k3 l2, he⟩
      refine .bind add ?_
      rintro σ2 n2 e l2 ⟨k2, he⟩
      refine .bind (eval_sound he) ?_
      rintro σ3 n3 p'' l3 ⟨k3, hp''⟩
      exact .pure ⟨(k1.trans k2 l1).trans k3 (by omega), retype_ptr hp'' h.ok⟩
end

end Verif.Ptr
