import Verif.Field.Spec
import Verif.Expr.SoundLemmas
import Verif.Call.Unique

/-!
# Bit-fields are promoted where `rvalue` is called
-/

namespace Verif.Field

open Verif.Types (Ty)
open Verif.Types.Spec (Basic)
open Verif.Fold (tyOf isInt)
open Verif.Fold.Spec (conv fits)
open Verif.Expr (IVar IExp Exp Env VHolds EHolds AHolds Keep asExpr Sound R identity bind_inv specOp foldOp)

variable {W : Decls} {N : Nat}

theorem unsigned_tyOf {b : Basic} (h : isInt b) : (tyOf b {}).isUnsigned = !b.isSigned := by
  rcases Fold.isInt_cases h with h | h | h | h | h | h | h | h | h <;> subst h <;> rfl

theorem narrow_obj {i : Nat} (h : isInt (W.ty i)) : narrow W (.obj i (tyOf (W.ty i) {})) = true ↔ W.Narrow i := by
  simp only [narrow, Decls.Narrow, unsigned_tyOf h]
  cases hw : W.width i with
  | none => simp
  | some w => simp

/-- What an operand is: a narrow bit-field, or something with the right type already. -/
inductive Opnd (W : Decls) (N n : Nat) (σ : Env) (v : IVar) : Basic → Int → Prop
  | field {i} (h : W.Narrow i) (hi : i < N) (e : v = .obj i (tyOf (W.ty i) {})) : Opnd W N n σ v .int (σ.vars i)
  | other {b x} (h : VHolds W.ty N n σ v b x) (hn : narrow W v = false) : Opnd W N n σ v b x

inductive Res (W : Decls) (N n : Nat) (σ : Env) (e : IExp) : Basic → Int → Prop
  | field {i} (h : W.Narrow i) (hi : i < N) (h' : e = asExpr (.obj i (tyOf (W.ty i) {}))) : Res W N n σ e .int (σ.vars i)
  | other {b x} (h : EHolds W.ty N n σ e b x) (hn : ∀ v, identity e = some v → narrow W v = false) : Res W N n σ e b x

theorem field_fits {ρ : Nat → Int} {i : Nat} (hf : W.Fits N ρ) (hi : i < N) (h : W.Narrow i) : fits .int (ρ i) := by
  obtain ⟨h1, w, h3, h4⟩ := h
  obtain ⟨hf1, hf2⟩ := hf i hi
  have h5 := hf2 w h4 h1
  by_cases h2 : W.ty i = .bool
  · rw [h2] at hf1
    obtain ⟨_, _, e, h⟩ := hf1
    cases e
    exact ⟨_, _, rfl, by omega, by omega⟩
  have h6 := Fold.fits_bounds hf1 h2
  rw [if_neg (by rw [h1]; decide)] at h6
  have : (2 : Int) ^ w ≤ 2 ^ 31 := by
    have := Nat.pow_le_pow_right (n := 2) (by decide) (show w ≤ 31 by omega)
    exact_mod_cast this
  exact ⟨_, _, rfl, by omega, by omega⟩

theorem Opnd.keep {n n' : Nat} {σ σ' : Env} {v : IVar} {b : Basic} {x : Int} (h : Opnd W N n σ v b x) (k : Keep n σ σ') (hn : n ≤ n') :
    Opnd W N n' σ' v b x := by
  cases h with
  | field h hi e => rw [← k.vars]; exact .field h hi e
  | other h e => exact .other (h.keep k hn) e

theorem tmp_wide {k : Nat} {t : Ty} : narrow W (.tmp k t) = false := rfl

theorem eval_sound {σ : Env} {n : Nat} {e : IExp} {b : Basic} {x : Int} (h : Res W N n σ e b x) :
    Sound W.ty N σ n (Expr.eval e) fun σ' n' v => Keep n σ σ' ∧ Opnd W N n' σ' v b x := by
  cases h with
  | field h hi e =>
    subst e
    refine ⟨_, n, [], σ, ?_, Nat.le_refl _, .nil, Keep.refl _ _, .field h hi rfl⟩
    unfold Expr.eval
    simp only [identity, asExpr, if_true]
    rfl
  | other h hn =>
    have := Expr.eval_sound h
    refine (this.also (P := fun v => narrow W v = false) ?_).weaken fun _ _ _ _ ⟨⟨k, h⟩, hv⟩ => ⟨k, .other h hv⟩
    intro a n' st he
    unfold Expr.eval at he
    cases hi : identity e with
    | some v =>
      rw [hi] at he
      cases he
      exact hn _ hi
    | none =>
      rw [hi] at he
      cases he
      rfl

theorem rvalue_sound {σ : Env} {n : Nat} {v : IVar} {b : Basic} {x : Int} (hf : W.Fits N σ.vars) (h : Opnd W N n σ v b x) :
    Sound W.ty N σ n (rvalue W v) fun σ' n' v' => Keep n σ σ' ∧ VHolds W.ty N n' σ' v' b x ∧ narrow W v' = false := by
  unfold rvalue
  cases h with
  | other h e =>
    rw [if_neg (by rw [e]; decide)]
    exact .pure ⟨Keep.refl _ _, h, e⟩
  | @field i h hi e =>
    subst e
    have hfi := (hf i hi).1
    rw [if_pos ((narrow_obj (Fold.fits_isInt hfi)).mpr h)]
    have hv : VHolds W.ty N n σ (.obj i (tyOf (W.ty i) {})) (W.ty i) (σ.vars i) := ⟨rfl, hfi, hi, rfl, rfl⟩
    have hne : W.ty i ≠ .int := by
      intro e
      have := h.1
      rw [e] at this
      cases this
    have he : EHolds W.ty N n σ (.cast (tyOf .int {}) (.obj i (tyOf (W.ty i) {}))) .int (conv .int (σ.vars i)) :=
      .conv hv (fun _ => nofun) rfl (by decide) hne
    rw [Fold.conv_self (field_fits hf hi h)] at he
    refine ((Expr.eval_sound he).also (P := fun v => narrow W v = false) ?_).weaken fun _ _ _ _ ⟨⟨k, h⟩, hv⟩ => ⟨k, h, hv⟩
    intro a n' st hev
    unfold Expr.eval at hev
    rw [show identity (.cast (tyOf .int {}) (.obj i (tyOf (W.ty i) {}))) = none from by
      simp only [identity, IVar.ty]
      split_ifs with e
      · exact (hne (Expr.tyOf_inj e)).elim
      · exact if_neg e] at hev
    cases hev
    rfl

/-- An expression that is not just a variable. -/
def Made (W : Decls) (e : IExp) : Prop := ∀ v, identity e = some v → narrow W v = false

theorem made_imm {i : Fold.Imm} : Made W (asExpr (.imm i)) := by
  intro v hv
  rw [Expr.identity_imm] at hv
  cases hv
  rfl

theorem made_bin {op : Fold.Op} {t : Ty} {l r : IVar} : Made W (.bin op t l r) := fun _ h => by cases h

theorem binary_form {op : Fold.Op} {l r : IVar} {n n' : Nat} {e : IExp} {st : List Expr.Stmt} (h : Expr.evalBinary op l r n = some (e, n', st)) :
    Made W e := by
  have fin : ∀ {op t l r n n' st}, Expr.create op t l r n = some (e, n', st) → Made W e := by
    intro op t l r n n' st h
    rcases Expr.create_form h with ⟨i, rfl⟩ | ⟨l, r, rfl⟩
    · exact made_imm
    · exact made_bin
  have bal : ∀ {op res l r n n' st}, Expr.balanced op res l r n = some (e, n', st) → Made W e := by
    intro op res l r n n' st h
    unfold Expr.balanced at h
    obtain ⟨_, n1, _, h⟩ := bind_inv h
    obtain ⟨_, n2, _, h⟩ := bind_inv h
    obtain ⟨_, n3, _, h⟩ := bind_inv h
    exact fin h
  unfold Expr.evalBinary at h
  split_ifs at h
  · cases op <;> first
      | exact bal h
      | (obtain ⟨_, n1, _, h⟩ := bind_inv h
         obtain ⟨_, n2, _, h⟩ := bind_inv h
         exact fin h)
  · cases h

theorem not_form {v : IVar} {n n' : Nat} {e : IExp} {st : List Expr.Stmt} (h : Expr.evalNot v n = some (e, n', st)) : Made W e := by
  unfold Expr.evalNot at h
  split_ifs at h
  · obtain ⟨_, n1, _, h⟩ := bind_inv h
    obtain ⟨u, n2, _, h⟩ := bind_inv h
    cases u with
    | imm i =>
      simp only [Expr.complement] at h
      cases hb : Fold.complement i <;> rw [hb] at h
      case const k => cases h; exact made_imm
      all_goals cases h
    | obj => cases h; exact fun _ h => by cases h
    | tmp => cases h; exact fun _ h => by cases h
  · cases h

theorem cast_form {v : IVar} {t : Ty} {n n' : Nat} {e : IExp} {st : List Expr.Stmt} (hv : narrow W v = false)
    (h : Expr.evalCast v t n = some (e, n', st)) : Made W e := by
  have gen : ∀ u : IVar, narrow W u = false → (if u.ty = t then pure (asExpr u) else pure (.cast t u) : R IExp) n = some (e, n', st) → Made W e := by
    intro u hu h
    split_ifs at h with he
    · cases h
      intro v hv
      simp only [identity, asExpr, if_true, Option.some.injEq] at hv
      subst hv
      exact hu
    · cases h
      intro v hv
      simp only [identity, if_neg he, reduceCtorEq] at hv
  unfold Expr.evalCast at h
  cases v with
  | imm i =>
    cases hc : Fold.castOperand i t with
    | none => simp only [hc] at h; cases h
    | some k => simp only [hc] at h; cases h; exact made_imm
  | obj j u => exact gen _ hv h
  | tmp k u => exact gen _ hv h

theorem plus_form {v : IVar} {n n' : Nat} {e : IExp} {st : List Expr.Stmt} (hv : narrow W v = false) (h : Expr.evalPlus v n = some (e, n', st)) :
    Made W e := by
  unfold Expr.evalPlus at h
  split_ifs at h
  · obtain ⟨t, n1, st1, h⟩ := bind_inv h
    have : Expr.evalCast v t n1 = some (e, n', st1) := by
      unfold Expr.evalCast
      exact h
    exact cast_form hv this
  · cases h

/-- The result of an operation, which is never a bit-field. -/
def Solid (W : Decls) (N n : Nat) (σ : Env) (e : IExp) (b : Basic) (x : Int) : Prop := EHolds W.ty N n σ e b x ∧ Made W e

/-- What an operation with two operands gives. -/
theorem binary_sound {σ : Env} {n : Nat} {op : Fold.Spec.Op} {l r : IVar} {a b t : Basic} {x y z : Int} (hl : VHolds W.ty N n σ l a x)
    (hr : VHolds W.ty N n σ r b y) (h : Fold.Spec.binary op a b x y = some (t, z)) :
    Sound W.ty N σ n (Expr.evalBinary (Fold.opOf op) l r) fun σ' n' e => Keep n σ σ' ∧ Solid W N n' σ' e t z :=
  ((Expr.evalBinary_sound hl hr h).also (P := Made W) fun _ _ _ => binary_form).weaken fun _ _ _ _ ⟨⟨k, h⟩, m⟩ => ⟨k, h, m⟩

theorem Fits.keep {n : Nat} {σ σ' : Env} (h : W.Fits N σ.vars) (k : Keep n σ σ') : W.Fits N σ'.vars := by rw [k.vars]; exact h

/-- Both operands are promoted first. -/
theorem promoted_sound {σ : Env} {n : Nat} {l r : IVar} {a b t : Basic} {x y z : Int} {f : IVar → IVar → R IExp} (hf : W.Fits N σ.vars)
    (hl : Opnd W N n σ l a x) (hr : Opnd W N n σ r b y)
    (h : ∀ {σ' n' l r}, VHolds W.ty N n' σ' l a x → VHolds W.ty N n' σ' r b y →
      Sound W.ty N σ' n' (f l r) fun σ'' n'' e => Keep n' σ' σ'' ∧ Solid W N n'' σ'' e t z) :
    Sound W.ty N σ n (do
      let l ← rvalue W l
      let r ← rvalue W r
      f l r) fun σ' n' e => Keep n σ σ' ∧ Solid W N n' σ' e t z := by
  refine .bind (rvalue_sound hf hl) ?_
  rintro σ1 n1 l1 le1 ⟨k1, h1, _⟩
  refine .bind (rvalue_sound (Fits.keep hf k1) (hr.keep k1 le1)) ?_
  rintro σ2 n2 r1 le2 ⟨k2, h2, _⟩
  exact (h (h1.keep k2 le2) h2).weaken fun _ _ _ _ ⟨k3, h⟩ => ⟨(k1.trans k2 le1).trans k3 (by omega), h⟩

theorem sum_sound {σ : Env} {n : Nat} {op : Fold.Spec.Op} {l r : IVar} {a b t : Basic} {x y z : Int} (hp : promotes (Fold.opOf op) = true)
    (hf : W.Fits N σ.vars) (hl : Opnd W N n σ l a x) (hr : Opnd W N n σ r b y) (h : Fold.Spec.binary op a b x y = some (t, z)) :
    Sound W.ty N σ n (evalBinary W (Fold.opOf op) l r) fun σ' n' e => Keep n σ σ' ∧ Solid W N n' σ' e t z := by
  unfold evalBinary
  rw [if_pos hp]
  exact promoted_sound hf hl hr fun h1 h2 => binary_sound h1 h2 h

theorem rel_sound {σ : Env} {n : Nat} {op : Compare.Rel} {l r : IVar} {a b : Basic} {x y : Int}
    (hf : W.Fits N σ.vars) (hl : Opnd W N n σ l a x) (hr : Opnd W N n σ r b y) :
    Sound W.ty N σ n (evalRel W op l r) fun σ' n' e => Keep n σ σ' ∧ Solid W N n' σ' e .int
      (if op.holds (some (compare (conv (a.common b) x) (conv (a.common b) y))) then 1 else 0) := by
  have go : ∀ {σ' n' l r}, VHolds W.ty N n' σ' l a x → VHolds W.ty N n' σ' r b y →
      Sound W.ty N σ' n' (Expr.evalRel op l r) fun σ'' n'' e => Keep n' σ' σ'' ∧ Solid W N n'' σ'' e .int
        (if op.holds (some (compare (conv (a.common b) x) (conv (a.common b) y))) then 1 else 0) := by
    intro σ' n' l r h1 h2
    refine ((Expr.evalRel_sound h1 h2).also (P := Made W) ?_).weaken fun _ _ _ _ ⟨⟨k, h⟩, m⟩ => ⟨k, h, m⟩
    intro _ _ _ h
    cases op <;> (simp only [Expr.evalRel] at h; exact binary_form h)
  cases op
  case lt => exact promoted_sound hf hr hl fun h1 h2 => go h2 h1
  case le => exact promoted_sound hf hr hl fun h1 h2 => go h2 h1
  all_goals exact promoted_sound hf hl hr fun h1 h2 => go h1 h2

theorem negation_sound {σ : Env} {n : Nat} {e : IExp} {a : Basic} {x : Int} (hf : W.Fits N σ.vars) (he : Res W N n σ e a x) :
    Sound W.ty N σ n (evalNegation W e) fun σ' n' e' => Keep n σ σ' ∧ Solid W N n' σ' e' .int (if x = 0 then 1 else 0) := by
  have other : Sound W.ty N σ n (do
      let v ← Expr.eval e
      evalBinary W .eq (Expr.varInt 0) v) fun σ' n' e' => Keep n σ σ' ∧ Solid W N n' σ' e' .int (if x = 0 then 1 else 0) := by
    refine .bind (eval_sound he) ?_
    rintro σ1 n1 v l1 ⟨k1, hv⟩
    have hz : VHolds W.ty N n1 σ1 (Expr.varInt 0) .int 0 := Expr.varInt_holds ⟨_, _, rfl, by decide⟩
    refine (show Sound W.ty N σ1 n1 (evalBinary W .eq (Expr.varInt 0) v) _ from ?_)
    unfold evalBinary
    rw [if_pos (show promotes .eq = true from rfl)]
    refine (promoted_sound (t := .int) (z := if x = 0 then 1 else 0) (Fits.keep hf k1) (.other hz rfl) hv ?_).weaken fun _ _ _ _ ⟨k2, h⟩ => ⟨k1.trans k2 l1, h⟩
    intro σ' n' l r h1 h2
    have hia := Fold.fits_isInt h2.fits
    have hc : Basic.int.common a = a.promote := by
      rcases Fold.isInt_cases hia with h | h | h | h | h | h | h | h | h <;> subst h <;> rfl
    have h0 : Fold.Spec.conv a.promote 0 = 0 := by
      rcases Fold.isInt_cases hia with h | h | h | h | h | h | h | h | h <;> subst h <;> decide
    refine binary_sound (op := .eq) h1 h2 ?_
    simp only [Fold.Spec.binary, hc, h0, Fold.conv_self (Fold.promote_fits hia h2.fits), @eq_comm _ (0 : Int) x]
  cases he with
  | field h hi e => subst e; exact other
  | other h hn =>
    have base : ∀ op t l r, e = .bin op t l r → (op = .eq ∨ op = .ne ∨ op = .ge ∨ op = .gt) →
        Sound W.ty N σ n (evalNegation W e) fun σ' n' e' => Keep n σ σ' ∧ Solid W N n' σ' e' .int (if x = 0 then 1 else 0) := by
      intro op t l r e1 ho
      have h1 := Expr.evalNegation_sound h
      subst e1
      rcases ho with rfl | rfl | rfl | rfl
      all_goals
        exact (h1.also (P := Made W) (fun _ _ _ h => by cases h; exact made_bin)).weaken fun _ _ _ _ ⟨⟨k, h⟩, m⟩ => ⟨k, h, m⟩
    cases e with
    | cast => exact other
    | not => exact other
    | bin op t l r =>
      cases op
      case eq => exact base _ _ _ _ rfl (by decide)
      case ne => exact base _ _ _ _ rfl (by decide)
      case ge => exact base _ _ _ _ rfl (by decide)
      case gt => exact base _ _ _ _ rfl (by decide)
      all_goals exact other

theorem shift_type {op : Fold.Spec.Op} {a b b' : Basic} {x y : Int} (h : op = .shl ∨ op = .shr) :
    Fold.Spec.binary op a b x y = Fold.Spec.binary op a b' x y := by
  rcases h with rfl | rfl <;> rfl

/-- Operands other than bit-fields. -/
def Plain (W : Decls) (N n : Nat) (σ : Env) (v : IVar) (b : Basic) (x : Int) : Prop := VHolds W.ty N n σ v b x ∧ narrow W v = false

theorem Solid.res {n : Nat} {σ : Env} {e : IExp} {b : Basic} {x : Int} (h : Solid W N n σ e b x) : Res W N n σ e b x := .other h.1 h.2

theorem Plain.keep {n n' : Nat} {σ σ' : Env} {v : IVar} {b : Basic} {x : Int} (h : Plain W N n σ v b x) (k : Keep n σ σ') (hn : n ≤ n') :
    Plain W N n' σ' v b x := ⟨h.1.keep k hn, h.2⟩

theorem evalPlain {σ : Env} {n : Nat} {e : IExp} {b : Basic} {x : Int} (h : Res W N n σ e b x) (P : Prop) (hs : P → Solid W N n σ e b x) :
    Sound W.ty N σ n (Expr.eval e) fun σ' n' v => Keep n σ σ' ∧ Opnd W N n' σ' v b x ∧ (P → Plain W N n' σ' v b x) := by
  have h0 := eval_sound h
  by_cases hp : P
  · obtain ⟨h1, h2⟩ := hs hp
    refine ((Expr.eval_sound h1).also (P := fun v => narrow W v = false) ?_).weaken fun _ _ _ _ ⟨⟨k, h⟩, hv⟩ => ⟨k, .other h hv, fun _ => ⟨h, hv⟩⟩
    intro a n' st he
    unfold Expr.eval at he
    cases hi : identity e with
    | some v => rw [hi] at he; cases he; exact h2 _ hi
    | none => rw [hi] at he; cases he; rfl
  · exact h0.weaken fun _ _ _ _ ⟨k, h⟩ => ⟨k, h, fun h => (hp h).elim⟩

/-- A bit-field on the right of a shift is not promoted, which makes no difference. -/
theorem Opnd.raw {n : Nat} {σ : Env} {v : IVar} {b : Basic} {x : Int} (hf : W.Fits N σ.vars) (h : Opnd W N n σ v b x) :
    ∃ b', VHolds W.ty N n σ v b' x := by
  cases h with
  | other h _ => exact ⟨_, h⟩
  | @field i h hi e => exact ⟨W.ty i, by rw [e]; rfl, (hf i hi).1, by rw [e]; exact ⟨hi, rfl, rfl⟩⟩

theorem neg_sound {σ : Env} {n : Nat} {v : IVar} {a t : Basic} {x z : Int} (hf : W.Fits N σ.vars) (hv : Opnd W N n σ v a x)
    (h : Fold.Spec.negate a x = some (t, z)) :
    Sound W.ty N σ n (evalNeg W v) fun σ' n' e => Keep n σ σ' ∧ Solid W N n' σ' e t z := by
  have hi : v.ty.isInteger = true := by
    obtain ⟨b', h'⟩ := hv.raw hf
    rw [h'.ty]
    rcases Fold.isInt_cases (Fold.fits_isInt h'.fits) with h | h | h | h | h | h | h | h | h <;> subst h <;> rfl
  unfold evalNeg
  rw [if_pos hi]
  unfold evalBinary
  rw [if_pos (show promotes .sub = true from rfl)]
  refine promoted_sound hf (.other (Expr.varInt_holds (x := 0) ⟨_, _, rfl, by decide⟩) rfl) hv fun {σ' n' l r} h1 h2 => ?_
  exact binary_sound (op := .sub) h1 h2 ((Expr.negate_spec h2.fits).trans h)

theorem cast_sound {σ : Env} {n : Nat} {v : IVar} {a b : Basic} {x : Int} (hf : W.Fits N σ.vars) (hv : Opnd W N n σ v a x)
    (hb : isInt b) (hb' : b ≠ .bool) :
    Sound W.ty N σ n (evalCast W v (tyOf b {})) fun σ' n' e => Keep n σ σ' ∧ Solid W N n' σ' e b (conv b x) := by
  unfold evalCast
  refine .bind (rvalue_sound hf hv) ?_
  rintro σ1 n1 v1 l1 ⟨k1, h1, w1⟩
  exact ((Expr.evalCast_sound h1 hb (fun e => (hb' e).elim)).also (P := Made W) fun _ _ _ => cast_form w1).weaken
    fun _ _ _ _ ⟨⟨k2, h⟩, m⟩ => ⟨k1.trans k2 l1, h, m⟩

theorem operand_narrow {i : Nat} (h : W.Narrow i) : W.operand i = .int := if_pos h

theorem operand_other {i : Nat} (h : ¬ W.Narrow i) : W.operand i = W.ty i := if_neg h

theorem lower_sound (e : Exp) : ∀ {σ : Env} {n : Nat} {b : Basic} {x : Int}, W.Fits N σ.vars → Ok W N e → e.value W.operand σ.vars = some (b, x) →
    Sound W.ty N σ n (lower W e) fun σ' n' e' => Keep n σ σ' ∧ Res W N n' σ' e' b x ∧ (¬ Bare W e → Solid W N n' σ' e' b x) := by
  have ev : ∀ {σ : Env} {n : Nat} {e : Exp} {a : Basic} {y : Int} {α : Type} {g : IVar → R α} {Q : Env → Nat → α → Prop},
      Sound W.ty N σ n (lower W e) (fun σ' n' e' => Keep n σ σ' ∧ Res W N n' σ' e' a y ∧ (¬ Bare W e → Solid W N n' σ' e' a y)) →
      (∀ σ' n' v, n ≤ n' → Keep n σ σ' → Opnd W N n' σ' v a y → (¬ Bare W e → Plain W N n' σ' v a y) → Sound W.ty N σ' n' (g v) Q) →
      Sound W.ty N σ n (do
        let e ← lower W e
        let v ← Expr.eval e
        g v) Q := by
    intro σ n e a y α g Q h hg
    refine .bind h ?_
    rintro σ1 n1 e1 l1 ⟨k1, h1, s1⟩
    refine .bind (evalPlain h1 _ s1) ?_
    rintro σ2 n2 v l2 ⟨k2, h2, p2⟩
    exact hg σ2 n2 v (by omega) (k1.trans k2 l1) h2 p2
  have fin : ∀ {σ σ0 : Env} {n n0 : Nat} {e : Exp} {b : Basic} {x : Int} {f : R IExp},
      Keep n0 σ0 σ → n0 ≤ n → Sound W.ty N σ n f (fun σ' n' e' => Keep n σ σ' ∧ Solid W N n' σ' e' b x) →
      Sound W.ty N σ n f (fun σ' n' e' => Keep n0 σ0 σ' ∧ Res W N n' σ' e' b x ∧ (¬ Bare W e → Solid W N n' σ' e' b x)) := by
    intro σ σ0 n n0 e b x f k l h
    exact h.weaken fun _ _ _ _ ⟨k2, h⟩ => ⟨k.trans k2 l, h.res, fun _ => h⟩
  induction e with
  | const b n =>
    intro σ k b' x hf hok hv
    simp only [Exp.value, Option.some.injEq, Prod.mk.injEq] at hv
    obtain ⟨rfl, rfl⟩ := hv
    have : Solid W N k σ (asExpr (.imm ⟨tyOf b {}, BitVec.ofInt 64 n⟩)) b n := ⟨Expr.asExpr_holds ⟨rfl, hok, rfl⟩, made_imm⟩
    exact .pure ⟨Keep.refl _ _, this.res, fun _ => this⟩
  | var i =>
    intro σ k b' x hf hok hv
    simp only [Exp.value, Option.some.injEq, Prod.mk.injEq] at hv
    obtain ⟨rfl, rfl⟩ := hv
    have hfi := (hf i hok).1
    by_cases hn : W.Narrow i
    · rw [operand_narrow hn]
      exact .pure ⟨Keep.refl _ _, .field hn hok rfl, fun h => (h hn).elim⟩
    · rw [operand_other hn]
      have : Solid W N k σ (asExpr (.obj i (tyOf (W.ty i) {}))) (W.ty i) (σ.vars i) := by
        refine ⟨Expr.asExpr_holds ⟨rfl, hfi, hok, rfl, rfl⟩, ?_⟩
        intro v hv
        simp only [identity, asExpr, if_true, Option.some.injEq] at hv
        subst hv
        cases hb : narrow W (.obj i (tyOf (W.ty i) {}))
        · rfl
        · exact (hn ((narrow_obj (Fold.fits_isInt hfi)).mp hb)).elim
      exact .pure ⟨Keep.refl _ _, this.res, fun _ => this⟩
  | neg e ih =>
    intro σ k b' x hf hok hv
    simp only [Exp.value, Option.bind_eq_bind, Option.bind_eq_some_iff, Prod.exists] at hv
    obtain ⟨a, y, h1, h2⟩ := hv
    exact ev (ih hf hok h1) fun σ' n' v l k hv _ => fin k l (neg_sound (Fits.keep hf k) hv h2)
  | compl e ih =>
    intro σ k b' x hf hok hv
    simp only [Exp.value, Option.bind_eq_bind, Option.bind_eq_some_iff, Prod.exists, Option.some.injEq] at hv
    obtain ⟨a, y, h1, h2⟩ := hv
    refine ev (ih hf hok.1 h1) fun σ' n' v l k _ hp => fin k l ?_
    have h := (Expr.evalNot_sound (hp hok.2).1).also (P := Made W) fun _ _ _ => not_form
    rw [h2] at h
    exact h.weaken fun _ _ _ _ ⟨⟨k, h⟩, m⟩ => ⟨k, h, m⟩
  | plus e ih =>
    intro σ k b' x hf hok hv
    simp only [Exp.value, Option.bind_eq_bind, Option.bind_eq_some_iff, Prod.exists, Option.some.injEq, Prod.mk.injEq] at hv
    obtain ⟨a, y, h1, rfl, rfl⟩ := hv
    refine ev (ih hf hok.1 h1) fun σ' n' v l k _ hp => fin k l ?_
    exact ((Expr.evalPlus_sound (hp hok.2).1).also (P := Made W) fun _ _ _ => plus_form (hp hok.2).2).weaken fun _ _ _ _ ⟨⟨k, h⟩, m⟩ => ⟨k, h, m⟩
  | lnot e ih =>
    intro σ k b' x hf hok hv
    simp only [Exp.value, Option.bind_eq_bind, Option.bind_eq_some_iff, Prod.exists, Option.some.injEq, Prod.mk.injEq] at hv
    obtain ⟨a, y, h1, rfl, rfl⟩ := hv
    refine .bind (ih hf hok h1) ?_
    rintro σ' n' e' l ⟨k, he, _⟩
    exact fin k l (negation_sound (Fits.keep hf k) he)
  | cast t e ih =>
    intro σ k b' x hf hok hv
    simp only [Exp.value, Option.bind_eq_bind, Option.bind_eq_some_iff, Prod.exists, Option.some.injEq, Prod.mk.injEq] at hv
    obtain ⟨a, y, h1, rfl, rfl⟩ := hv
    obtain ⟨o1, o2, o3⟩ := hok
    exact ev (ih hf o3 h1) fun σ' n' v l k hv _ => fin k l (cast_sound (Fits.keep hf k) hv o1 o2)
  | bin op el er ihl ihr =>
    intro σ k b' x hf hok hv
    simp only [Exp.value, Option.bind_eq_bind, Option.bind_eq_some_iff, Prod.exists] at hv
    obtain ⟨a, y, h1, b, z, h2, h3⟩ := hv
    obtain ⟨o1, o2, o3⟩ := hok
    refine ev (ihl hf o1 h1) fun σ1 n1 v l1 k1 hv pv => ?_
    refine ev (ihr (Fits.keep hf k1) o2 (by rw [k1.vars]; exact h2)) fun σ2 n2 w l2 k2 hw pw => ?_
    refine fin (k1.trans k2 l1) (by omega) ?_
    rw [Expr.foldOp_spec]
    have hf2 := Fits.keep (Fits.keep hf k1) k2
    by_cases hp : promotes (Fold.opOf (specOp op)) = true
    · exact sum_sound hp hf2 (hv.keep k2 l2) hw h3
    · unfold evalBinary
      rw [if_neg hp]
      rcases o3 with rfl | rfl | ⟨o3, o4⟩
      · exact (hp rfl).elim
      · exact (hp rfl).elim
      · have hv2 := (pv o3).keep k2 l2
        by_cases hs : op = .shl ∨ op = .shr
        · obtain ⟨b2, hw2⟩ := hw.raw hf2
          refine binary_sound hv2.1 hw2 ?_
          rw [← h3]
          exact shift_type (by rcases hs with rfl | rfl <;> simp [specOp])
        · have := pw (by rcases o4 with h | h | h <;> first | exact h | exact (hs (.inl h)).elim | exact (hs (.inr h)).elim)
          exact binary_sound hv2.1 this.1 h3
  | rel op el er ihl ihr =>
    intro σ k b' x hf hok hv
    simp only [Exp.value, Option.bind_eq_bind, Option.bind_eq_some_iff, Prod.exists, Option.some.injEq, Prod.mk.injEq] at hv
    obtain ⟨a, y, h1, b, z, h2, rfl, rfl⟩ := hv
    refine ev (ihl hf hok.1 h1) fun σ1 n1 v l1 k1 hv _ => ?_
    refine ev (ihr (Fits.keep hf k1) hok.2 (by rw [k1.vars]; exact h2)) fun σ2 n2 w l2 k2 hw _ => ?_
    exact fin (k1.trans k2 l1) (by omega) (rel_sound (Fits.keep (Fits.keep hf k1) k2) (hv.keep k2 l2) hw)

theorem prepare_sound {σ : Env} {n : Nat} {e : IExp} {b t : Basic} {x : Int} (hf : W.Fits N σ.vars) (h : Res W N n σ e b x) (ht : isInt t) :
    Sound W.ty N σ n (prepareAssign W e (tyOf t {})) fun σ' n' e' => Keep n σ σ' ∧ AHolds W.ty N n' σ' e' t (conv t x) := by
  have go : ∀ {v : IVar}, Opnd W N n σ v b x → Sound W.ty N σ n (do
      let v ← rvalue W v
      Expr.prepareAssign (asExpr v) (tyOf t {})) fun σ' n' e' => Keep n σ σ' ∧ AHolds W.ty N n' σ' e' t (conv t x) := by
    intro v hv
    refine .bind (rvalue_sound hf hv) ?_
    rintro σ1 n1 v1 l1 ⟨k1, h1, _⟩
    exact (Expr.prepareAssign_sound (Expr.asExpr_holds h1) ht).weaken fun _ _ _ _ ⟨k2, h⟩ => ⟨k1.trans k2 l1, h⟩
  unfold prepareAssign
  cases h with
  | @field i h hi e =>
    subst e
    rw [show identity (asExpr (.obj i (tyOf (W.ty i) {}))) = some (.obj i (tyOf (W.ty i) {})) from if_pos rfl]
    exact go (.field h hi rfl)
  | other h hn =>
    cases hi : identity e with
    | some v => exact go (.other (Expr.identity_holds h hi) (hn v hi))
    | none => exact Expr.prepareAssign_sound h ht

theorem assign_sound {σ : Env} {n i : Nat} {e : Exp} {b : Basic} {x : Int} (hf : W.Fits N σ.vars) (hok : Ok W N e)
    (hv : e.value W.operand σ.vars = some (b, x)) (hi : i < N) :
    Sound W.ty N σ n (lowerAssign W i e) fun σ' _ _ => σ'.vars = Expr.put σ.vars i (conv (W.ty i) x) := by
  refine .bind (lower_sound e hf hok hv) ?_
  rintro σ1 n1 e1 l1 ⟨k1, h1, _⟩
  refine .bind (prepare_sound (Fits.keep hf k1) h1 (Fold.fits_isInt (hf i hi).1)) ?_
  rintro σ2 n2 e2 l2 ⟨k2, h2⟩
  exact ⟨(), n2, _, σ2.setVar i (conv (W.ty i) x), rfl, Nat.le_refl _, .var hi h2 .nil, by simp only [Env.setVar, k2.vars, k1.vars]⟩

theorem put_fits {ρ : Nat → Int} {i : Nat} {x : Int} (hf : W.Fits N ρ) (hi : i < N) (hw : W.width i = none) :
    W.Fits N (Expr.put ρ i (conv (W.ty i) x)) := by
  intro j hj
  unfold Expr.put
  by_cases h : j = i
  · subst h
    rw [if_pos rfl]
    exact ⟨Fold.conv_fits (Fold.fits_isInt (hf j hj).1) x, fun w h => by rw [hw] at h; cases h⟩
  · rw [if_neg h]
    exact hf j hj

theorem does_unique {Γ : Nat → Basic} {N M : Nat} {σ σ1 : Env} {st : List Expr.Stmt} (h : Expr.Does Γ N M σ st σ1) :
    ∀ {σ2 : Env}, Expr.Does Γ N M σ st σ2 → σ1 = σ2 := by
  let W : Call.Decls := ⟨Γ, fun _ => ⟨.void, [], false⟩, id⟩
  have split : ∀ {σ σ2 : Env} {x : Expr.Stmt} {r : List Expr.Stmt}, Expr.Does Γ N M σ (x :: r) σ2 →
      ∃ σ', Expr.Does Γ N M σ [x] σ' ∧ Expr.Does Γ N M σ' r σ2 := by
    intro σ σ2 x r h
    cases h with
    | var hi h hr => exact ⟨_, .var hi h .nil, hr⟩
    | tmp hk h hr => exact ⟨_, .tmp hk h .nil, hr⟩
  induction h with
  | nil => intro σ2 g; cases g; rfl
  | var hi h hr ih =>
    intro σ2 g
    obtain ⟨σ', g1, g2⟩ := split g
    have := Call.Does.unique (W := W) g1 (.var hi h .nil)
    subst this
    exact ih g2
  | tmp hk h hr ih =>
    intro σ2 g
    obtain ⟨σ', g1, g2⟩ := split g
    have := Call.Does.unique (W := W) g1 (.tmp hk h .nil)
    subst this
    exact ih g2

end Verif.Field
