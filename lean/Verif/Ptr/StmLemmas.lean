import Verif.Ptr.LowerLemmas

/-!
# Expressions and statements
-/

namespace Verif.Ptr

open Verif.Abi (rd wr le val sval)
open Verif.Types (Ty)
open Verif.Types.Spec (Basic)
open Verif.Fold (tyOf isInt isOpTy)
open Verif.Fold.Spec (conv fits)

variable {W : World}

set_option linter.unusedSectionVars false

section
variable {n n' : Nat} {σ σ' : Env} {v l r x : PVar} {e : PExp} {t s u : CTy} {y z p q a : Int} {res rl rr : Res}

theorem value_keep_res (k : Keep n σ σ') {X : CTy × Int} (h : res.value W σ.mem = some X) : res.value W σ'.mem = some X := by
  rw [k.mem]; exact h

/-- Every expression. -/
theorem lower_sound (hW : W.Good) : ∀ (e : E), e.Ok → ∀ {σ : Env} {n : Nat} {res : Res}, e.meaning W σ.mem = some res →
    Sound W σ n (lower W.toDecls e) fun σ' n' e' => Keep n σ σ' ∧ ERes W n' σ' e' res := by
  have one : ∀ {e : E} {σ n r α} {f : PVar → R α} {Q},
      Sound W σ n (lower W.toDecls e) (fun σ' n' e' => Keep n σ σ' ∧ ERes W n' σ' e' r) →
      (∀ σ' n' v, n ≤ n' → Keep n σ σ' → VRes W n' σ' v r → Sound W σ' n' (f v) Q) → Sound W σ n (do
        let e ← lower W.toDecls e
        let v ← eval e
        f v) Q := by
    intro e σ n r α f Q h g
    refine .bind h ?_
    rintro σ1 n1 e1 l1 ⟨k1, h1⟩
    refine .bind (evalRes h1) ?_
    rintro σ2 n2 v l2 ⟨k2, hv⟩
    exact g σ2 n2 v (by omega) (k1.trans k2 l1) hv
  have both : ∀ {a b : E} {σ n ra rb α} {f : PVar → PVar → R α} {Q},
      (∀ {σ n res}, a.meaning W σ.mem = some res → Sound W σ n (lower W.toDecls a) (fun σ' n' e' => Keep n σ σ' ∧ ERes W n' σ' e' res)) →
      (∀ {σ n res}, b.meaning W σ.mem = some res → Sound W σ n (lower W.toDecls b) (fun σ' n' e' => Keep n σ σ' ∧ ERes W n' σ' e' res)) →
      a.meaning W σ.mem = some ra → b.meaning W σ.mem = some rb →
      (∀ σ' n' l r, n ≤ n' → Keep n σ σ' → VRes W n' σ' l ra → VRes W n' σ' r rb → Sound W σ' n' (f l r) Q) → Sound W σ n (do
        let a ← lower W.toDecls a
        let a ← eval a
        let b ← lower W.toDecls b
        let b ← eval b
        f a b) Q := by
    intro a b σ n ra rb α f Q h1 h2 m1 m2 g
    refine one (h1 m1) fun σ1 n1 l l1 k1 hl => ?_
    refine one (h2 (by rw [k1.mem]; exact m2)) fun σ2 n2 r l2 k2 hr => ?_
    exact g σ2 n2 l r (by omega) (k1.trans k2 l1) (hl.keep k2 l2) hr
  intro e
  induction e with
  | num b m =>
    intro ok σ n res h
    cases h
    exact .pure ⟨Keep.refl _ _, asExpr_val (int_imm ok)⟩
  | var i =>
    intro ok σ n res h
    cases h
    have := hW.addr i
    unfold top at this
    refine .pure ⟨Keep.refl _ _, _, rfl, ⟨rfl, hW.var i, ⟨trivial, fun _ _ e => (by cases e)⟩, ?_⟩, fun _ _ _ e => (by cases e)⟩
    simp only [PVar.place, zero_off]
    rw [wrap_self (by omega)]
  | deref e ih =>
    intro ok σ n res h
    simp only [E.meaning, Option.bind_eq_bind, Option.bind_eq_some_iff] at h
    obtain ⟨r, h1, ⟨t, p⟩, h2, h3⟩ := h
    refine one (ih ok h1) fun σ1 n1 v l1 k1 hv => ?_
    cases t <;> cases h3
    refine .bind (evalDeref_sound hW hv (value_keep_res k1 h2)) ?_
    rintro σ2 n2 v' l2 ⟨k2, hv'⟩
    exact .pure ⟨k1.trans k2 l1, _, rfl, hv'⟩
  | addr e ih =>
    intro ok σ n res h
    simp only [E.meaning, Option.bind_eq_bind, Option.bind_eq_some_iff] at h
    obtain ⟨r, h1, h2⟩ := h
    cases r <;> cases h2
    refine one (ih ok h1) fun σ1 n1 v l1 k1 hv => ?_
    refine .bind (evalAddr_sound hW hv.1 fun s o u e => (hv.2 s o u e).imp id fun h => by omega) ?_
    rintro σ2 n2 v' l2 ⟨k2, hv'⟩
    exact .pure ⟨k1.trans k2 l1, asExpr_val hv'⟩
  | index a b iha ihb =>
    intro ok σ n res h
    simp only [E.meaning, Option.bind_eq_bind, Option.bind_eq_some_iff] at h
    obtain ⟨ra, h1, X, h2, rb, h3, Y, h4, rs, h5, ⟨t, p⟩, h6, h7⟩ := h
    refine both (iha ok.1) (ihb ok.2) h1 h3 fun σ1 n1 l r l1 k1 hl hr => ?_
    refine .bind (evalAdd_sound hW hl hr (value_keep_res k1 h2) (value_keep_res k1 h4) h5) ?_
    rintro σ2 n2 e2 l2 ⟨k2, he2⟩
    refine .bind (evalRes he2) ?_
    rintro σ3 n3 v l3 ⟨k3, hv⟩
    have k13 := (k1.trans k2 l1).trans k3 (by omega)
    cases t <;> cases h7
    refine .bind (evalDeref_sound hW hv (value_keep_res k13 h6)) ?_
    rintro σ4 n4 v' l4 ⟨k4, hv'⟩
    exact .pure ⟨k13.trans k4 (by omega), _, rfl, hv'⟩
  | dot e m ih =>
    intro ok σ n res h
    simp only [E.meaning, Option.bind_eq_bind, Option.bind_eq_some_iff] at h
    obtain ⟨r, h1, h2⟩ := h
    unfold World.access at h2
    split at h2
    · rename_i k a
      simp only [Option.bind_eq_bind, Option.bind_eq_some_iff, Option.ite_none_right_eq_some] at h2
      obtain ⟨⟨t, off⟩, h2, h3, h4⟩ := h2
      cases h4
      refine .bind (ih ok h1) ?_
      rintro σ1 n1 e1 l1 ⟨k1, v, rfl, hv⟩
      have : findMember W.toDecls (asExpr v).ty m = some (t, off) := by
        rw [show (asExpr v).ty = .record k from hv.1.ty]; exact h2
      rw [this, lift_pure, pure_bind]
      simp only
      refine .bind (evalRes (res := .lv (.record k) a) ⟨v, rfl, hv⟩) ?_
      rintro σ2 n2 v' l2 ⟨k2, hv'⟩
      exact .pure ⟨k1.trans k2 l1, _, rfl, member_sound hW hv' h2 h3⟩
    · cases h2
  | arrow e m ih =>
    intro ok σ n res h
    simp only [E.meaning, Option.bind_eq_bind, Option.bind_eq_some_iff] at h
    obtain ⟨r, h1, ⟨t, p⟩, h2, r', h3, h4⟩ := h
    cases t <;> cases h3
    unfold World.access at h4
    split at h4
    · rename_i k a he
      cases he
      simp only [Option.bind_eq_bind, Option.bind_eq_some_iff, Option.ite_none_right_eq_some] at h4
      obtain ⟨⟨t, off⟩, h4, h5, h6⟩ := h4
      cases h6
      refine one (ih ok h1) fun σ1 n1 v l1 k1 hv => ?_
      refine .bind (evalDeref_sound hW hv (value_keep_res k1 h2)) ?_
      rintro σ2 n2 v' l2 ⟨k2, hv'⟩
      have : findMember W.toDecls v'.ty m = some (t, off) := by
        rw [hv'.1.ty]; exact h4
      rw [this, lift_pure, pure_bind]
      exact .pure ⟨k1.trans k2 l1, _, rfl, member_sound hW hv' h4 h5⟩
    · cases h4
  | cast t e ih =>
    intro ok σ n res h
    simp only [E.meaning, Option.bind_eq_bind, Option.bind_eq_some_iff] at h
    obtain ⟨r, h1, X, h2, h3⟩ := h
    refine one (ih ok.2.2 h1) fun σ1 n1 v l1 k1 hv => ?_
    exact (evalCast_sound hW hv (value_keep_res k1 h2) ok.1 ok.2.1 h3).weaken fun _ _ _ _ ⟨k2, h⟩ => ⟨k1.trans k2 l1, h⟩
  | lnot e ih =>
    intro ok σ n res h
    simp only [E.meaning, Option.bind_eq_bind, Option.bind_eq_some_iff] at h
    obtain ⟨r, h1, X, h2, h3⟩ := h
    cases h3
    refine .bind (ih ok h1) ?_
    rintro σ1 n1 e1 l1 ⟨k1, he⟩
    exact (evalNegation_sound hW he (value_keep_res k1 h2)).weaken fun _ _ _ _ ⟨k2, h⟩ => ⟨k1.trans k2 l1, h⟩
  | bin op a b iha ihb =>
    intro ok σ n res h
    simp only [E.meaning, Option.bind_eq_bind, Option.bind_eq_some_iff] at h
    obtain ⟨ra, h1, X, h2, rb, h3, Y, h4, h5⟩ := h
    refine both (iha ok.1) (ihb ok.2) h1 h3 fun σ1 n1 l r l1 k1 hl hr => ?_
    exact (evalBin_sound hW hl hr (value_keep_res k1 h2) (value_keep_res k1 h4) h5).weaken fun _ _ _ _ ⟨k2, h⟩ => ⟨k1.trans k2 l1, h⟩
  | rel op a b iha ihb =>
    intro ok σ n res h
    simp only [E.meaning, Option.bind_eq_bind, Option.bind_eq_some_iff] at h
    obtain ⟨ra, h1, X, h2, rb, h3, Y, h4, h5⟩ := h
    refine both (iha ok.1) (ihb ok.2) h1 h3 fun σ1 n1 l r l1 k1 hl hr => ?_
    exact (evalRel_sound hW hl hr (value_keep_res k1 h2) (value_keep_res k1 h4) h5).weaken fun _ _ _ _ ⟨k2, h⟩ => ⟨k1.trans k2 l1, h⟩

/-! ### Assignments -/

theorem Sound.also {α : Type} {f : R α} {P : Env → Nat → α → Prop} {S : α → Prop} (h : Sound W σ n f P)
    (g : ∀ a n' st, f n = some (a, n', st) → S a) : Sound W σ n f fun σ' n' a => P σ' n' a ∧ S a := by
  obtain ⟨a, n1, st, σ1, e, l1, d, hp⟩ := h
  exact ⟨a, n1, st, σ1, e, l1, d, hp, g _ _ _ e⟩

theorem bind_inv {α β : Type} {f : R α} {g : α → R β} {n n' : Nat} {b : β} {st : List PStmt} (h : (f >>= g) n = some (b, n', st)) :
    ∃ a n1 st1, g a n1 = some (b, n', st1) := by
  change R.bind f g n = _ at h
  unfold R.bind at h
  split at h
  · cases h
  · rename_i a n1 st1 e
    split at h
    · cases h
    · rename_i b' n2 st2 e2
      cases h
      exact ⟨a, n1, st2, e2⟩

/-- A comparison is a constant, or is a comparison. -/
def Compared (e : PExp) : Prop := (∃ t w, e = asExpr (.imm t w)) ∨ ∃ t l r, e = .bin .ne t l r

theorem evalInt_compared {l r : PVar} {n n' : Nat} {e : PExp} {st : List PStmt} (h : evalInt .ne l r n = some (e, n', st)) : Compared e := by
  unfold evalInt under at h
  split at h
  · cases h
  · rename_i e' n1 st1 h'
    cases h
    rcases Expr.compared h' with ⟨i, rfl⟩ | ⟨l', r', rfl⟩
    · exact .inl ⟨_, _, rfl⟩
    · exact .inr ⟨_, _, _, rfl⟩

theorem evalEq_compared {l r : PVar} {n n' : Nat} {e : PExp} {st : List PStmt} (h : evalEq W.toDecls .ne l r n = some (e, n', st)) : Compared e := by
  unfold evalEq at h
  obtain ⟨l1, n1, _, h⟩ := bind_inv h
  obtain ⟨r1, n2, _, h⟩ := bind_inv h
  generalize l1.ty = a at h
  generalize r1.ty = b at h
  cases a <;> cases b <;> first
    | exact evalInt_compared h
    | (obtain ⟨_, _, _, h⟩ := bind_inv h
       obtain ⟨_, _, _, h⟩ := bind_inv h
       exact evalInt_compared h)
    | cases h

/-- The value that is stored. -/
def stored (t : CTy) (null : Bool) : CTy × Int → Option Int
  | (s, x) =>
    match t, s with
    | .int b, .int _ => some (conv b x)
    | .int .bool, .ptr _ => some (if x = 0 then 0 else 1)
    | .ptr _, .ptr _ => some x
    | .ptr _, .int _ => if null then some 0 else none
    | _, _ => none

theorem store_eq {mem : Mem} {null : Bool} {X : CTy × Int} : store W mem t a null X = (stored t null X).bind (write W mem t a) := by
  obtain ⟨s, x⟩ := X
  cases t with
  | int b => cases s <;> first | rfl | (cases b <;> rfl)
  | ptr t =>
    cases s with
    | int c => simp only [store, stored]; cases null <;> rfl
    | _ => rfl
  | _ => cases s <;> rfl

theorem rvalueExp_sound (hW : W.Good) (h : ERes W n σ e res) {X : CTy × Int} (hv : res.value W σ.mem = some X) :
    Sound W σ n (rvalueExp W.toDecls e) fun σ' n' e' => Keep n σ σ' ∧ EVal W n' σ' e' X.1 X.2 := by
  unfold rvalueExp
  cases hi : identity e with
  | some v =>
    simp only
    have hv' : VRes W n σ v res := by
      cases res with
      | lv t a =>
        obtain ⟨w, rfl, hw⟩ := h
        rw [identity_asExpr] at hi
        cases hi
        exact hw
      | rv t a => exact identity_val h hi
    refine .bind (rvalue_sound hW hv' hv) ?_
    rintro σ1 n1 v' l1 ⟨k1, hv1⟩
    exact .pure ⟨k1, asExpr_val hv1⟩
  | none =>
    cases res with
    | lv t a =>
      obtain ⟨w, rfl, hw⟩ := h
      rw [identity_asExpr] at hi
      cases hi
    | rv t a =>
      cases hv
      exact .pure ⟨Keep.refl _ _, h⟩

theorem zero_ne {X : CTy × Int} (hf : Fit X.1 X.2) :
    World.compare .ne (.int .int, 0) X = some (.rv (.int .int) (if X.2 = 0 then 0 else 1)) := by
  obtain ⟨tx, x⟩ := X
  have e : ∀ y : Int, (Compare.Rel.ne.holds (some (Ord.compare 0 y)) = true) ↔ ¬ y = 0 := by
    intro y
    rw [compare_eq]
    simp only [Compare.Rel.holds]
    grind
  have i : ∀ y : Int, (if ¬ y = 0 then (1 : Int) else 0) = if y = 0 then 0 else 1 := by intro y; split_ifs <;> rfl
  cases tx with
  | int b =>
    have z : conv (Basic.int.common b) 0 = 0 ∧ (conv (Basic.int.common b) x = 0 ↔ x = 0) := by
      have hf : fits b x := hf
      rcases Fold.isInt_cases (Fold.fits_isInt hf) with h | h | h | h | h | h | h | h | h <;> subst h <;>
        obtain ⟨lo, hi, hr, h1, h2⟩ := hf <;> cases hr <;>
          exact ⟨Fold.conv_self ⟨_, _, rfl, by omega, by omega⟩, by rw [Fold.conv_self ⟨_, _, rfl, by omega, by omega⟩]⟩
    simp only [World.compare, e, z.1, z.2, i]
  | ptr t => simp only [World.compare, e, i, or_true, and_self, if_true]
  | _ => exact hf.elim

/-- An expression that can be assigned to an object of the type, and its value. -/
structure Put (W : World) (n : Nat) (σ : Env) (e : PExp) (t : CTy) (y : Int) : Prop where
  value : e.value W σ = some y
  shape : e.Shape W n
  ty : t = e.ty ∨ t = .int .bool ∧ ∃ op t l r, e = .bin op t l r ∧ (Expr.compareOp op).isSome
  cmp : ∀ op t l r, e = .bin op t l r → (Expr.compareOp op).isSome → t = .int .int ∨ t = .int .bool

theorem EVal.put (h : EVal W n σ e t y) : Put W n σ e t y := by
  refine ⟨h.value, h.shape, .inl h.ty.symm, ?_⟩
  intro op t l r e hc
  obtain ⟨o, ho⟩ := Option.isSome_iff_exists.mp hc
  exact .inl (h.cmp op t l r o e ho)

theorem prepareBool_sound (hW : W.Good) {X : CTy × Int} (h : EVal W n σ e X.1 X.2) :
    Sound W σ n (prepareBool W.toDecls e) fun σ' n' e' => Keep n σ σ' ∧ Put W n' σ' e' (.int .bool) (if X.2 = 0 then 0 else 1) := by
  unfold prepareBool
  rw [h.ty]
  by_cases hb : X.1 = .int .bool
  · rw [if_pos hb]
    have hf := h.fit
    rw [hb] at hf
    obtain ⟨lo, hi, hr, h1, h2⟩ := hf
    cases hr
    have : X.2 = if X.2 = 0 then 0 else 1 := by split_ifs <;> omega
    refine .pure ⟨Keep.refl _ _, ?_⟩
    rw [← this, ← hb]
    exact h.put
  · rw [if_neg hb]
    refine .bind (eval_sound h) ?_
    rintro σ1 n1 v l1 ⟨k1, hv⟩
    have h0 : VRes W n1 σ1 (varInt 0) (.rv (.int .int) 0) := int_imm (b := .int) ⟨_, _, rfl, by omega, by omega⟩
    have hx : VRes W n1 σ1 v (.rv X.1 X.2) := hv
    refine .bind ((evalEq_sound hW (o := .ne) (.inr ⟨rfl, rfl⟩) h0 hx rfl rfl (zero_ne h.fit)).also fun _ _ _ => evalEq_compared) ?_
    rintro σ2 n2 c l2 ⟨⟨k2, hc⟩, ⟨t, w, rfl⟩ | ⟨t, l, r, rfl⟩⟩
    · rw [identity_asExpr]
      simp only
      have hc' : PVal W n2 σ2 (.imm t w) (.int .int) (if X.2 = 0 then 0 else 1) := identity_val hc identity_asExpr
      unfold evalCast
      rw [hc'.rvalue, pure_bind]
      refine (scalarCast_sound hc' (t := .int .bool) rfl (.inr rfl) (y := if X.2 = 0 then 0 else 1) ?_).weaken ?_
      · simp only [view, Option.some.injEq]
        split_ifs <;> decide
      · rintro σ3 n3 e l3 ⟨k3, he⟩
        exact ⟨(k1.trans k2 l1).trans k3 (by omega), he.put⟩
    · refine .pure ⟨k1.trans k2 l1, ?_⟩
      have hc : EVal W n2 σ2 _ (.int .int) (if X.2 = 0 then 0 else 1) := hc
      refine ⟨?_, ⟨hc.shape.1, hc.shape.2.1, (fun _ ho => by cases ho), hc.shape.2.2.2⟩, .inl rfl, ?_⟩
      · have := hc.value
        rw [cmp_value rfl rfl] at this ⊢
        exact this
      · intro op t' l' r' e _
        cases e
        exact .inr rfl

theorem preparePtr_ptr (h : EVal W n σ e (.ptr s) y) (ht : (CTy.ptr t).Ok) :
    Sound W σ n (preparePtr e (.ptr t)) fun σ' n' e' => Keep n σ σ' ∧ Put W n' σ' e' (.ptr t) y := by
  unfold preparePtr
  rw [h.ty, if_pos (show isScalar _ = true from rfl)]
  cases hi : identity e with
  | some v =>
    have hv := retype_ptr (s := t) (identity_val h hi) ht
    refine .pure ⟨Keep.refl _ _, ?_⟩
    have := asExpr_val hv
    rw [asExpr, hv.ty] at this
    exact this.put
  | none =>
    have hv := h.value
    cases e with
    | cast t' v =>
      cases h.ty
      refine .pure ⟨Keep.refl _ _, ?_, ⟨h.shape.1, h.shape.2.1, ?_⟩, .inl rfl, fun _ _ _ _ e => by cases e⟩
      · simp only [PExp.value, reduceCtorEq, false_and, if_false, view] at hv ⊢
        exact hv
      · intro e
        have := h.shape.2.2 e
        simp only [identity, this, if_true, reduceCtorEq] at hi
    | not t' v =>
      cases h.ty
      obtain ⟨-, -, b, e, -⟩ := h.shape
      cases e
    | bin op t' l r =>
      cases h.ty
      have nc : ∀ o, Expr.compareOp op ≠ some o := by
        intro o ho
        cases h.cmp _ _ _ _ o rfl ho
      refine .pure ⟨Keep.refl _ _, ?_, ⟨h.shape.1, h.shape.2.1, ?_, fun o ho => (nc o ho).elim⟩, .inl rfl, ?_⟩
      · cases op <;> exact hv
      · intro o ho
        rcases h.shape.2.2.1 o ho with ⟨b, e, -⟩ | ⟨u, -, g⟩
        · cases e
        · exact .inr ⟨t, rfl, g⟩
      · intro op' t l r e hc
        cases e
        obtain ⟨o, ho⟩ := Option.isSome_iff_exists.mp hc
        exact (nc o ho).elim

theorem preparePtr_null {b : Basic} (ht : (CTy.ptr t).Ok) : Sound W σ n (preparePtr (asExpr (.imm (.int b) 0)) (.ptr t)) fun σ' n' e' => Keep n σ σ' ∧ Put W n' σ' e' (.ptr t) 0 := by
  unfold preparePtr
  rw [if_pos (show isScalar _ = true from rfl), identity_asExpr]
  show Sound W σ n (pure (PExp.cast (.ptr t) (.imm (.ptr t) 0))) _
  refine .pure ⟨Keep.refl _ _, ?_, ⟨fun _ e => (by cases e), ht, fun _ => rfl⟩, .inl rfl, fun _ _ _ _ e => by cases e⟩
  simp only [PExp.value, PVar.read, view, Option.bind_eq_bind, Option.bind_some, reduceCtorEq, false_and, if_false]
  rfl

theorem prepareAssign_sound (hW : W.Good) (ht : t.Ok) (h : ERes W n σ e res) {null : Bool} (hn : null = true → ∃ b, e = asExpr (.imm (.int b) 0))
    {X : CTy × Int} (hv : res.value W σ.mem = some X) (hs : stored t null X = some y) :
    Sound W σ n (prepareAssign W.toDecls e t) fun σ' n' e' => Keep n σ σ' ∧ Put W n' σ' e' t y := by
  unfold prepareAssign
  have hn1 : null = true → rvalueExp W.toDecls e = pure e := by
    intro h
    obtain ⟨b, rfl⟩ := hn h
    unfold rvalueExp
    rw [identity_asExpr]
    simp only
    rw [rvalue_scalar (by intro _ _ e; cases e), pure_bind]
  have hr := (rvalueExp_sound hW h hv).also (S := fun e' => null = true → ∃ b, e' = asExpr (.imm (.int b) 0)) (fun e' n' st he hnull => by
    rw [hn1 hnull] at he
    cases he
    exact hn hnull)
  refine .bind hr ?_
  rintro σ1 n1 e1 l1 ⟨⟨k1, he⟩, hnull⟩
  have fin : Sound W σ1 n1 (match t with
      | .int .bool => prepareBool W.toDecls e1
      | .ptr _ => preparePtr e1 t
      | .int _ =>
        if e1.ty.isInt then
          match identity e1 with
          | some (.imm s x) => do
            let v ← castOperand W.toDecls (.imm s x) t
            pure (asExpr v)
          | _ =>
            if e1.ty = t then pure e1
            else do
              let v ← eval e1
              evalCast W.toDecls v t
        else R.fail
      | .record _ => if e1.ty = t then pure e1 else R.fail
      | _ => R.fail) fun σ' n' e' => Keep n1 σ1 σ' ∧ Put W n' σ' e' t y := by
    obtain ⟨s, x⟩ := X
    cases t with
    | int b =>
      by_cases hb : b = .bool
      · subst hb
        have : y = if x = 0 then 0 else 1 := by
          cases s <;> simp only [stored, Option.some.injEq, reduceCtorEq] at hs
          · rw [← hs]; rfl
          · rw [← hs]
        rw [this]
        exact prepareBool_sound hW he
      · have hs' : ∃ c, s = .int c ∧ y = conv b x := by
          cases s with
          | int c => cases hs; exact ⟨c, rfl, rfl⟩
          | ptr c => cases b <;> first | exact (hb rfl).elim | cases hs
          | _ => cases b <;> first | exact (hb rfl).elim | cases hs
        obtain ⟨c, rfl, rfl⟩ := hs'
        have main : Sound W σ1 n1 (if e1.ty.isInt then
          match identity e1 with
          | some (.imm s x) => do
            let v ← castOperand W.toDecls (.imm s x) (.int b)
            pure (asExpr v)
          | _ =>
            if e1.ty = .int b then pure e1
            else do
              let v ← eval e1
              evalCast W.toDecls v (.int b)
        else R.fail) fun σ' n' e' => Keep n1 σ1 σ' ∧ Put W n' σ' e' (.int b) (conv b x) := by
          rw [he.ty, if_pos (show CTy.isInt _ = true from rfl)]
          split
          · rename_i s' w hi
            refine .bind (castOperand_int (identity_val he hi) (b := b) ht hb) ?_
            rintro σ2 n2 v l2 ⟨k2, hv⟩
            exact .pure ⟨k2, (asExpr_val hv).put⟩
          · split_ifs with hc
            · cases hc
              refine .pure ⟨Keep.refl _ _, ?_⟩
              rw [Fold.conv_self he.fit]
              exact he.put
            · refine .bind (eval_sound he) ?_
              rintro σ2 n2 v l2 ⟨k2, hv⟩
              have hv' : VRes W n2 σ2 v (.rv (.int c) x) := hv
              refine (evalCast_sound (res := .rv (.int b) (conv b x)) hW hv' rfl (t := .int b) ht (fun e => hb (by cases e; rfl)) rfl).weaken ?_
              rintro σ3 n3 e3 l3 ⟨k3, he3⟩
              have he3 : EVal W n3 σ3 e3 (.int b) (conv b x) := he3
              exact ⟨k2.trans k3 l2, he3.put⟩
        cases b <;> first | exact (hb rfl).elim | exact main
    | ptr t =>
      cases s with
      | ptr s =>
        cases hs
        exact preparePtr_ptr he ht
      | int c =>
        simp only [stored, Option.ite_none_right_eq_some] at hs
        obtain ⟨h1, h2⟩ := hs
        cases h2
        obtain ⟨b, rfl⟩ := hnull h1
        exact preparePtr_null ht
      | _ => cases hs
    | _ => cases hs
  exact fin.weaken fun _ _ _ _ ⟨k2, h⟩ => ⟨k1.trans k2 l1, h⟩

theorem irAssign_sound (hx : LVal W n σ x t a) (he : Put W n σ e t y) {mem : Mem} (hw : write W σ.mem t a y = some mem) :
    Sound W σ n (irAssign x e) fun σ' _ _ => σ'.mem = mem := by
  refine ⟨(), n, [⟨x, e⟩], { σ with mem := mem }, rfl, Nat.le_refl _, ?_, rfl⟩
  have hp := hx.place
  have : PStmt.exec W σ ⟨x, e⟩ = some { σ with mem := mem } := by
    unfold PStmt.exec
    split
    · exfalso; simp_all [PVar.place]
    · exfalso; have := he.value; simp_all [PExp.value, view]
    · simp only [hp, he.value, Option.bind_eq_bind, Option.bind_some, hx.ty, hw, Option.map_some]
  refine ⟨by simp only [execs, this, Option.bind_some], ?_⟩
  intro s hs
  rw [List.mem_singleton] at hs
  subst hs
  refine ⟨⟨hx.shape, by rw [hx.ty]; exact hx.ok⟩, he.shape, by rw [hx.ty]; exact he.ty, he.cmp, ?_⟩
  intro k u o t' e'
  simp only at e'
  subst e'
  cases hp

theorem evalAssign_eq (hx : LVal W n σ x t a) : evalAssign W.toDecls x e = (prepareAssign W.toDecls e x.ty >>= fun e => irAssign x e) := by
  have hp := hx.place
  unfold evalAssign
  split
  · rfl
  · rfl
  · rfl
  · rename_i h1 h2 h3
    cases x with
    | imm t v => cases hp
    | dir q o t =>
      cases q with
      | var i => exact (h1 _ _ _ rfl).elim
      | tmp k w => cases hp
    | adr q o t => cases hp
    | der q o t => exact (h2 _ _ _ rfl).elim
    | derImm v o t => exact (h3 _ _ _ rfl).elim

theorem evalAssign_sound (hW : W.Good) (hx : LVal W n σ x t a) (h : ERes W n σ e res) {null : Bool}
    (hn : null = true → ∃ b, e = asExpr (.imm (.int b) 0))
    {X : CTy × Int} (hv : res.value W σ.mem = some X) {mem : Mem} (hs : store W σ.mem t a null X = some mem) :
    Sound W σ n (evalAssign W.toDecls x e) fun σ' _ _ => σ'.mem = mem := by
  rw [store_eq, Option.bind_eq_some_iff] at hs
  obtain ⟨y, hs, hw⟩ := hs
  rw [evalAssign_eq hx, hx.ty]
  refine .bind (prepareAssign_sound hW hx.ok h hn hv hs) ?_
  rintro σ1 n1 e1 l1 ⟨k1, he⟩
  exact irAssign_sound (hx.keep k1 l1) he (by rw [k1.mem]; exact hw)

/-- A structure is copied. -/
theorem evalAssign_record {k : Nat} {b : Int} (hx : LVal W n σ x (.record k) a) (hv : LVal W n σ v (.record k) b)
    (va : W.Valid a (W.recs k).size) (vb : W.Valid b (W.recs k).size) :
    Sound W σ n (evalAssign W.toDecls x (asExpr v)) fun σ' _ _ => σ'.mem = wr σ.mem a (rd σ.mem b (W.recs k).size) := by
  rw [evalAssign_eq hx, hx.ty]
  have e : prepareAssign W.toDecls (asExpr v) (.record k) = pure (asExpr v) := by
    unfold prepareAssign
    have : rvalueExp W.toDecls (asExpr v) = pure (asExpr v) := by
      unfold rvalueExp
      rw [identity_asExpr]
      simp only
      rw [rvalue_scalar (by rw [hv.ty]; intro _ _ e; cases e), pure_bind]
    rw [this, pure_bind]
    simp only [show (asExpr v).ty = .record k from hv.ty, if_true]
  rw [e, pure_bind]
  refine ⟨(), n, [⟨x, asExpr v⟩], { σ with mem := wr σ.mem a (rd σ.mem b (W.recs k).size) }, rfl, Nat.le_refl _, ?_, rfl⟩
  have hp := hx.place
  have : PStmt.exec W σ ⟨x, asExpr v⟩ = some { σ with mem := wr σ.mem a (rd σ.mem b (W.recs k).size) } := by
    rw [asExpr, hv.ty]
    unfold PStmt.exec
    split
    · exfalso; simp_all [PVar.place]
    · rename_i h3 _
      simp only [PExp.cast.injEq, CTy.record.injEq] at h3
      obtain ⟨rfl, rfl⟩ := h3
      simp only [hp, hv.place, Option.bind_eq_bind, Option.bind_some, hx.ty, hv.ty, va, vb, and_self, if_true]
    · rename_i h1 h2
      exact (h2 _ _ rfl).elim
  refine ⟨by simp only [execs, this, Option.bind_some], ?_⟩
  intro s hs
  rw [List.mem_singleton] at hs
  subst hs
  refine ⟨⟨hx.shape, by rw [hx.ty]; exact hx.ok⟩, ⟨hv.shape, by rw [hv.ty]; exact hv.ok, fun _ => rfl⟩, .inl (hx.ty.trans hv.ty.symm),
    fun _ _ _ _ e => (by cases e), ?_⟩
  intro k u o t' e'
  simp only at e'
  subst e'
  cases hp

theorem evalCopy_sound (h : PVal W n σ v t y) : Sound W σ n (evalCopy v) fun σ' _ _ => Keep n σ σ' := by
  obtain ⟨h1, h2, h3⟩ := newTmp (asExpr_val h)
  refine ⟨(), n + 1, [⟨.dir (.tmp n t) 0 t, asExpr v⟩], σ.setTmp n t y, ?_, by omega, h1, h2⟩
  have hv : t ≠ .void := by rintro rfl; exact h.fit.elim
  unfold evalCopy
  rw [h.ty]
  show R.bind (createVar t) _ n = _
  simp only [R.bind, createVar, hv, if_false]
  rfl

/-! ### Statements -/

theorem lower_null (hW : W.Good) {e : E} (ok : e.Ok) (h : e.meaning W σ.mem = some res) :
    Sound W σ n (lower W.toDecls e) fun σ' n' e' => (Keep n σ σ' ∧ ERes W n' σ' e' res) ∧ (e.null = true → ∃ b, e' = asExpr (.imm (.int b) 0)) := by
  refine (lower_sound hW e ok h).also ?_
  intro e' n' st h1 h2
  cases e with
  | num b m =>
    simp only [E.null, decide_eq_true_eq] at h2
    subst h2
    cases h1
    exact ⟨b, rfl⟩
  | _ => cases h2

theorem upDown_sound (hW : W.Good) {up : Bool} {X : CTy × Int} (hv : VRes W n σ v rl) (hx : rl.value W σ.mem = some X)
    (h : W.binary (if up then .add else .sub) X (.int .int, 1) = some res) :
    Sound W σ n (upDown W.toDecls up v) fun σ' n' e => Keep n σ σ' ∧ ERes W n' σ' e res := by
  have h1 : VRes W n σ (varInt 1) (.rv (.int .int) 1) := int_imm (b := .int) ⟨_, _, rfl, by omega, by omega⟩
  unfold upDown
  cases up with
  | true => exact evalAdd_sound hW hv h1 hx rfl h
  | false => exact evalSub_sound hW hv h1 hx rfl h

theorem value_of_scalar {mem : Mem} (h : scalar W mem t a = some y) : (Res.lv t a).value W mem = some (t, y) := by
  cases t <;> first | (simp only [Res.value, h, Option.map_some]; done) | cases (scalar_inv h).2

theorem evalLv {v : PVar} : (asExpr v).ty = v.ty := rfl

theorem lowerLv (hW : W.Good) {l : E} (ok : l.Ok) (h : l.meaning W σ.mem = some (.lv t a)) {α : Type} {f : PVar → R α} {Q : Env → Nat → α → Prop}
    (g : ∀ σ' n' x, n ≤ n' → Keep n σ σ' → VRes W n' σ' x (.lv t a) → Sound W σ' n' (f x) Q) :
    Sound W σ n (do
      let l ← lower W.toDecls l
      let x ← eval l
      f x) Q := by
  refine .bind (lower_sound hW l ok h) ?_
  rintro σ1 n1 e1 l1 ⟨k1, h1⟩
  refine .bind (evalRes h1) ?_
  rintro σ2 n2 x l2 ⟨k2, hx⟩
  exact g σ2 n2 x (by omega) (k1.trans k2 l1) hx

/-- A statement does what it says. -/
theorem lowerStm_sound (hW : W.Good) {s : Stm} (ok : s.Ok) {mem : Mem} (h : s.exec W σ.mem = some mem) :
    Sound W σ n (lowerStm W.toDecls s) fun σ' _ _ => σ'.mem = mem := by
  cases s with
  | assign l e =>
    simp only [Stm.exec, Option.bind_eq_bind, Option.bind_eq_some_iff] at h
    obtain ⟨rl, h1, re, h2, h3⟩ := h
    have assign : ∀ {t a}, rl = .lv t a → (∃ X, re.value W σ.mem = some X ∧ store W σ.mem t a e.null X = some mem) →
        Sound W σ n (lowerStm W.toDecls (.assign l e)) fun σ' _ _ => σ'.mem = mem := by
      rintro t a rfl ⟨X, g1, g2⟩
      refine lowerLv hW ok.1 h1 fun σ1 n1 x l1 k1 hx => ?_
      refine .bind (lower_null hW ok.2 (by rw [k1.mem]; exact h2)) ?_
      rintro σ2 n2 e2 l2 ⟨⟨k2, he⟩, hn⟩
      have k12 := k1.trans k2 l1
      exact evalAssign_sound hW (hx.1.keep k2 l2) he hn (value_keep_res k12 g1) (by rw [k12.mem]; exact g2)
    split at h3
    · rename_i k a k' b
      split_ifs at h3 with hk
      obtain ⟨hk, va, vb⟩ := hk
      subst hk
      cases h3
      refine lowerLv hW ok.1 h1 fun σ1 n1 x l1 k1 hx => ?_
      refine .bind (lower_sound hW e ok.2 (by rw [k1.mem]; exact h2)) ?_
      rintro σ2 n2 e2 l2 ⟨k2, v, rfl, hv⟩
      have := evalAssign_record (hx.1.keep k2 l2) hv.1 va vb
      rw [(k1.trans k2 l1).mem] at this
      exact this
    · rename_i t a r hne
      simp only [Option.bind_eq_some_iff] at h3
      exact assign rfl h3
    · cases h3
  | update op l e =>
    simp only [Stm.exec, Option.bind_eq_bind, Option.bind_eq_some_iff] at h
    obtain ⟨rl, h1, h⟩ := h
    split at h
    · rename_i t a
      simp only [Option.bind_eq_some_iff] at h
      obtain ⟨x, h2, re, h3, Y, h4, r, h5, Z, h6, h7⟩ := h
      refine lowerLv hW ok.1 h1 fun σ1 n1 xv l1 k1 hx => ?_
      refine .bind (lower_sound hW e ok.2 (by rw [k1.mem]; exact h3)) ?_
      rintro σ2 n2 e2 l2 ⟨k2, he⟩
      refine .bind (evalRes he) ?_
      rintro σ3 n3 v l3 ⟨k3, hv⟩
      have k23 := k2.trans k3 l2
      have k13 := k1.trans k23 l1
      refine .bind (evalBin_sound hW (hx.keep k23 (by omega)) hv (value_of_scalar (by rw [k13.mem]; exact h2)) (value_keep_res k13 h4) h5) ?_
      rintro σ4 n4 e4 l4 ⟨k4, he4⟩
      have k14 := k13.trans k4 (by omega)
      exact evalAssign_sound hW (hx.1.keep (k23.trans k4 (by omega)) (by omega)) he4 (null := false) (by simp) (value_keep_res k14 h6)
        (by rw [k14.mem]; exact h7)
    · cases h
  | pre up l =>
    simp only [Stm.exec, Option.bind_eq_bind, Option.bind_eq_some_iff] at h
    obtain ⟨rl, h1, h⟩ := h
    split at h
    · rename_i t a
      simp only [Option.bind_eq_some_iff] at h
      obtain ⟨x, h2, r, h5, Z, h6, h7⟩ := h
      refine lowerLv hW ok h1 fun σ1 n1 xv l1 k1 hx => ?_
      refine .bind (upDown_sound hW hx (value_of_scalar (by rw [k1.mem]; exact h2)) h5) ?_
      rintro σ2 n2 e2 l2 ⟨k2, he2⟩
      have k12 := k1.trans k2 l1
      exact evalAssign_sound hW (hx.1.keep k2 l2) he2 (null := false) (by simp) (value_keep_res k12 h6) (by rw [k12.mem]; exact h7)
    · cases h
  | post up l =>
    simp only [Stm.exec, Option.bind_eq_bind, Option.bind_eq_some_iff] at h
    obtain ⟨rl, h1, h⟩ := h
    split at h
    · rename_i t a
      simp only [Option.bind_eq_some_iff] at h
      obtain ⟨x, h2, r, h5, Z, h6, h7⟩ := h
      refine lowerLv hW ok h1 fun σ0 n0 xv l0 k0 hx => ?_
      refine .bind (evalCopy_sound (hx.1.val (by rw [k0.mem]; exact h2))) ?_
      rintro σ1 n1 _ l1 k1
      have k01 := k0.trans k1 l0
      refine .bind (upDown_sound hW (hx.keep k1 l1) (value_of_scalar (by rw [k01.mem]; exact h2)) h5) ?_
      rintro σ2 n2 e2 l2 ⟨k2, he2⟩
      have k12 := k01.trans k2 (by omega)
      exact evalAssign_sound hW (hx.1.keep (k1.trans k2 l1) (by omega)) he2 (null := false) (by simp) (value_keep_res k12 h6) (by rw [k12.mem]; exact h7)
    · cases h

theorem lowerAll_sound (hW : W.Good) : ∀ {p : List Stm}, (∀ s ∈ p, s.Ok) → ∀ {σ : Env} {n : Nat} {mem : Mem}, exec W σ.mem p = some mem →
    Sound W σ n (lowerAll W.toDecls p) fun σ' _ _ => σ'.mem = mem := by
  intro p
  induction p with
  | nil =>
    intro ok σ n mem h
    cases h
    exact .pure rfl
  | cons s r ih =>
    intro ok σ n mem h
    simp only [exec, Option.bind_eq_some_iff] at h
    obtain ⟨m1, h1, h2⟩ := h
    refine .bind (lowerStm_sound hW (ok s (by simp)) h1) ?_
    rintro σ1 n1 _ l1 hm
    exact ih (fun s hs => ok s (by simp [hs])) (by rw [hm]; exact h2)

end

end Verif.Ptr
