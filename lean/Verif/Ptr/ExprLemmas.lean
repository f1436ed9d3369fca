import Verif.Ptr.AddrLemmas

/-!
# Expressions
-/

namespace Verif.Ptr

open Verif.Abi (rd wr le val sval)
open Verif.Types (Ty)
open Verif.Types.Spec (Basic)
open Verif.Fold (tyOf isInt isOpTy)
open Verif.Fold.Spec (conv fits)

variable {W : World}

set_option linter.unusedSectionVars false

/-- Offsets are not more than structures can have. -/
def Off (W : World) (v : PVar) (t : CTy) : Prop := ∀ s o u, v = .der s o u → o = 0 ∨ o.toNat + t.size W.toDecls < 2 ^ 31

def VRes (W : World) (n : Nat) (σ : Env) (v : PVar) : Res → Prop
  | .lv t a => LVal W n σ v t a ∧ Off W v t
  | .rv t x => PVal W n σ v t x

def ERes (W : World) (n : Nat) (σ : Env) (e : PExp) : Res → Prop
  | .lv t a => ∃ v, e = asExpr v ∧ LVal W n σ v t a ∧ Off W v t
  | .rv t x => EVal W n σ e t x

section
variable {n n' : Nat} {σ σ' : Env} {v l r : PVar} {e : PExp} {t s u : CTy} {x y z p q a : Int} {res : Res}

theorem VRes.keep (h : VRes W n σ v res) (hk : Keep n σ σ') (hn : n ≤ n') : VRes W n' σ' v res := by
  cases res with
  | lv t a => exact ⟨h.1.keep hk hn, h.2⟩
  | rv t x => exact PVal.keep h hk hn

theorem VRes.ok (h : VRes W n σ v res) : v.ty.Ok := by
  cases res with
  | lv t a => rw [h.1.ty]; exact h.1.ok
  | rv t x => have h : PVal W n σ v t x := h; rw [h.ty]; exact h.ok

theorem identity_asExpr : identity (asExpr v) = some v := by simp only [asExpr, identity, if_true]

theorem evalRes (h : ERes W n σ e res) : Sound W σ n (eval e) fun σ' n' v => Keep n σ σ' ∧ VRes W n' σ' v res := by
  cases res with
  | lv t a =>
    obtain ⟨v, rfl, h1, h2⟩ := h
    unfold eval
    rw [identity_asExpr]
    exact .pure ⟨Keep.refl _ _, h1, h2⟩
  | rv t x => exact eval_sound h

theorem LVal.not_imm (h : LVal W n σ v t a) : isImm v = false := by
  have hp := h.place
  cases v <;> first | rfl | cases hp

theorem retype_lval (h : LVal W n σ v t a) (hs : s.Ok) : LVal W n σ (v.retype s) s a := by
  refine ⟨ty_retype, hs, ?_, place_retype.trans h.place⟩
  have hp := h.place
  have hsh := h.shape
  cases v with
  | imm t v => cases hp
  | dir q o t => exact hsh
  | adr q o t => cases hp
  | der q o t => exact hsh
  | derImm v o t => trivial

theorem rvalue_scalar (h : ∀ m t, v.ty ≠ .arr m t) : rvalue W.toDecls v = pure v := by
  unfold rvalue
  split
  · rename_i m t e
    exact (h m t e).elim
  · rfl

theorem PVal.rvalue (h : PVal W n σ v t x) : rvalue W.toDecls v = pure v := by
  refine rvalue_scalar fun m t' e => ?_
  have := h.fit
  rw [h.ty] at e
  rw [e] at this
  exact this

theorem value_lv {mem : Mem} (h : (Res.lv t a).value W mem = some (s, x)) : (∃ m w, t = .arr m w ∧ s = .ptr w ∧ x = a) ∨ (s = t ∧ scalar W mem t a = some x) := by
  unfold Res.value at h
  split at h
  · rename_i e; cases e
  · rename_i m w b e
    cases e
    cases h
    exact .inl ⟨m, w, rfl, rfl, rfl⟩
  · rename_i t' b he e
    cases e
    obtain ⟨y, h1, h2⟩ := Option.map_eq_some_iff.mp h
    cases h2
    exact .inr ⟨rfl, h1⟩

/-- An array becomes a pointer, other objects are read. -/
theorem rvalue_sound (hW : W.Good) (h : VRes W n σ v res) (hv : res.value W σ.mem = some (t, x)) :
    Sound W σ n (rvalue W.toDecls v) fun σ' n' v' => Keep n σ σ' ∧ PVal W n' σ' v' t x := by
  cases res with
  | rv s y =>
    cases hv
    have h : PVal W n σ v t x := h
    rw [h.rvalue]
    exact .pure ⟨Keep.refl _ _, h⟩
  | lv s a =>
    obtain ⟨h1, h2⟩ := h
    have arr : ∀ m w, s = .arr m w → t = .ptr w → x = a →
        Sound W σ n (rvalue W.toDecls v) fun σ' n' v' => Keep n σ σ' ∧ PVal W n' σ' v' t x := by
      rintro m w rfl rfl rfl
      unfold rvalue
      rw [h1.ty]
      simp only
      refine evalAddr_sound hW (retype_lval h1 h1.ok) ?_
      intro q o u e
      cases v <;> simp only [PVar.retype, PVar.der.injEq, reduceCtorEq] at e
      obtain ⟨rfl, rfl, rfl⟩ := e
      rcases h2 _ _ _ rfl with h | h
      · exact .inl h
      · exact .inr (by omega)
    rcases value_lv hv with ⟨m, w, e1, e2, e3⟩ | ⟨rfl, hs⟩
    · exact arr m w e1 e2 e3
    · have hp := h1.val hs
      rw [hp.rvalue]
      exact .pure ⟨Keep.refl _ _, hp⟩

/-- An operand that is an integer. -/
theorem VRes.int {b : Basic} (h : VRes W n σ v res) (hv : res.value W σ.mem = some (.int b, x)) : PVal W n σ v (.int b) x := by
  cases res with
  | rv s y => cases hv; exact h
  | lv s a =>
    rcases value_lv hv with ⟨m, w, e1, e2, e3⟩ | ⟨rfl, hs⟩
    · cases e2
    · exact h.1.val hs

/-! ### Sums and differences -/

theorem balancedImm_eq {w : BitVec 64} {a b : Basic} {w' : BitVec 64} (hr : PVal W n σ (.imm (.int b) w) (.int b) y) (ha : isInt a)
    (h : balancedImm (.int a) (.int b) w = some w') : a.common b = a ∧ w' = BitVec.ofInt 64 (conv a y) := by
  obtain ⟨_, rfl⟩ := imm_int hr
  simp only [balancedImm, Fold.usual_eq] at h
  split_ifs at h with he
  have e : a.common b = a := Expr.tyOf_inj (Except.ok.inj he)
  have hc := Fold.castOperand_eq {} (i := ⟨tyOf b {}, BitVec.ofInt 64 y⟩) (t := a) ⟨hr.fit, ⟨{}, rfl⟩, rfl⟩ ha
  simp only [convert, hc, Option.map_some, Option.some.injEq] at h
  exact ⟨e, h.symm⟩

theorem adr_int {q : Sym} {o : BitVec 64} {b : Basic} (h : PVal W n σ (.adr q o t) (.int b) x) :
    t = .int b ∧ (b = .long ∨ b = .ulong) ∧ ∃ i, q = .var i ∧ x = conv b (wrap (W.addr i + o.toNat)) := by
  have ht : t = .int b := h.ty
  subst ht
  obtain ⟨⟨i, rfl⟩, hs⟩ := h.shape
  refine ⟨rfl, ?_, i, rfl, ?_⟩
  · rcases eight_of h.ok rfl hs with e | e | ⟨u, e⟩ <;> cases e
    · exact .inl rfl
    · exact .inr rfl
  · have hr := h.read
    simp only [PVar.read, view, Option.some.injEq] at hr
    exact hr.symm

theorem conv_conv_add {b : Basic} (hb : b = .long ∨ b = .ulong) (x y z : Int) (h : Fold.Spec.result b (conv b (wrap x) + conv b y) = some z) :
    conv b (wrap (x + y)) = z := by
  rcases hb with rfl | rfl
  · unfold Fold.Spec.result at h
    simp only [Basic.range] at h
    rw [if_pos (by decide)] at h
    split_ifs at h with hr
    cases h
    simp only [conv_long, bmod64, wrap] at *
    split_ifs at * <;> omega
  · have e : Fold.Spec.result .ulong (conv .ulong (wrap x) + conv .ulong y) = some ((conv .ulong (wrap x) + conv .ulong y) % 2 ^ 64) := rfl
    rw [e] at h
    cases h
    simp only [conv_ulong, wrap]
    omega

theorem conv_conv_sub {b : Basic} (hb : b = .long ∨ b = .ulong) (x y z : Int) (h : Fold.Spec.result b (conv b (wrap x) - conv b y) = some z) :
    conv b (wrap (x - y)) = z := by
  rcases hb with rfl | rfl
  · unfold Fold.Spec.result at h
    simp only [Basic.range] at h
    rw [if_pos (by decide)] at h
    split_ifs at h with hr
    cases h
    simp only [conv_long, bmod64, wrap] at *
    split_ifs at * <;> omega
  · have e : Fold.Spec.result .ulong (conv .ulong (wrap x) - conv .ulong y) = some ((conv .ulong (wrap x) - conv .ulong y) % 2 ^ 64) := rfl
    rw [e] at h
    cases h
    simp only [conv_ulong, wrap]
    omega

theorem adr_add {q : Sym} {o w : BitVec 64} {a b c : Basic} (hl : PVal W n σ (.adr q o t) (.int a) x) (hr : PVal W n σ (.imm s w) (.int b) y)
    {w' : BitVec 64} (hb : balancedImm t s w = some w') (h : Fold.Spec.binary .add a b x y = some (c, z)) :
    EVal W n σ (asExpr (.adr q (o + w') t)) (.int c) z := by
  obtain ⟨rfl, h8, i, rfl, rfl⟩ := adr_int hl
  obtain ⟨rfl, _⟩ := imm_int hr
  obtain ⟨hc, rfl⟩ := balancedImm_eq hr hl.ok hb
  simp only [Fold.Spec.binary, hc, Option.map_eq_some_iff, Prod.mk.injEq] at h
  obtain ⟨z', h, rfl, rfl⟩ := h
  rw [Fold.conv_self (Fold.conv_fits hl.ok _)] at h
  refine asExpr_val ⟨rfl, hl.ok, hl.shape, ?_⟩
  simp only [PVar.read, view, wrap_bv]
  congr 1
  have h' : Fold.Spec.result a (conv a (wrap (W.addr i + o.toNat)) + conv a (conv a y)) = some z' := by
    rw [Fold.conv_self (Fold.conv_fits hl.ok y)]; exact h
  exact conv_conv_add h8 _ _ _ h'

theorem adr_sub {q : Sym} {o w : BitVec 64} {a b c : Basic} (hl : PVal W n σ (.adr q o t) (.int a) x) (hr : PVal W n σ (.imm s w) (.int b) y)
    {w' : BitVec 64} (hb : balancedImm t s w = some w') (h : Fold.Spec.binary .sub a b x y = some (c, z)) :
    EVal W n σ (asExpr (.adr q (o - w') t)) (.int c) z := by
  obtain ⟨rfl, h8, i, rfl, rfl⟩ := adr_int hl
  obtain ⟨rfl, _⟩ := imm_int hr
  obtain ⟨hc, rfl⟩ := balancedImm_eq hr hl.ok hb
  simp only [Fold.Spec.binary, hc, Option.map_eq_some_iff, Prod.mk.injEq] at h
  obtain ⟨z', h, rfl, rfl⟩ := h
  rw [Fold.conv_self (Fold.conv_fits hl.ok _)] at h
  refine asExpr_val ⟨rfl, hl.ok, hl.shape, ?_⟩
  simp only [PVar.read, view, wrap_bv_sub]
  congr 1
  have h' : Fold.Spec.result a (conv a (wrap (W.addr i + o.toNat)) - conv a (conv a y)) = some z' := by
    rw [Fold.conv_self (Fold.conv_fits hl.ok y)]; exact h
  exact conv_conv_sub h8 _ _ _ h'

theorem add_comm_spec (a b : Basic) (x y : Int) : Fold.Spec.binary .add a b x y = Fold.Spec.binary .add b a y x := by
  simp only [Fold.Spec.binary, Expr.common_comm b a, Int.add_comm (conv (a.common b) y)]

theorem addInt_sound {a b c : Basic} (hl : PVal W n σ l (.int a) x) (hr : PVal W n σ r (.int b) y)
    (h : Fold.Spec.binary .add a b x y = some (c, z)) :
    Sound W σ n (addInt l r) fun σ' n' e => Keep n σ σ' ∧ EVal W n' σ' e (.int c) z := by
  have gen := evalInt_sound (op := .add) hl hr h
  unfold addInt
  split
  · split
    · rename_i hb
      exact .pure ⟨Keep.refl _ _, adr_add hl hr hb h⟩
    · exact gen
  · split
    · rename_i hb
      rw [add_comm_spec] at h
      exact .pure ⟨Keep.refl _ _, adr_add hr hl hb h⟩
    · exact gen
  · exact gen

theorem subInt_sound {a b c : Basic} (hl : PVal W n σ l (.int a) x) (hr : PVal W n σ r (.int b) y)
    (h : Fold.Spec.binary .sub a b x y = some (c, z)) :
    Sound W σ n (subInt l r) fun σ' n' e => Keep n σ σ' ∧ EVal W n' σ' e (.int c) z := by
  have gen := evalInt_sound (op := .sub) hl hr h
  unfold subInt
  split
  · split
    · rename_i hb
      exact .pure ⟨Keep.refl _ _, adr_sub hl hr hb h⟩
    · exact gen
  · exact gen

end

end Verif.Ptr
