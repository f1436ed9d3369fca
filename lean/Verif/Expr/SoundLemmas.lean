import Verif.Expr.LowerLemmas

/-!
# What the parser makes does what the source says
-/

namespace Verif.Expr

open Verif.Types (Ty promoteInteger usualConversion scalarSize)
open Verif.Types.Spec (Basic)
open Verif.Fold (tyOf isInt isOpTy Holds isSigned Imm)
open Verif.Fold.Spec (conv fits)

variable {Γ : Nat → Basic} {N : Nat}

/-- Only new temporaries are different. -/
structure Keep (n : Nat) (σ σ' : Env) : Prop where
  vars : σ'.vars = σ.vars
  tmps : ∀ k < n, σ'.tmps k = σ.tmps k

theorem Keep.refl (n : Nat) (σ : Env) : Keep n σ σ := ⟨rfl, fun _ _ => rfl⟩

theorem Keep.trans {n n' : Nat} {σ σ' σ'' : Env} (h : Keep n σ σ') (g : Keep n' σ' σ'') (hn : n ≤ n') : Keep n σ σ'' :=
  ⟨g.vars.trans h.vars, fun k hk => (g.tmps k (by omega)).trans (h.tmps k hk)⟩

theorem VHolds.keep {n n' : Nat} {σ σ' : Env} {v : IVar} {b : Basic} {x : Int} (h : VHolds Γ N n σ v b x) (hk : Keep n σ σ') (hn : n ≤ n') :
    VHolds Γ N n' σ' v b x := by
  refine ⟨h.ty, h.fits, ?_⟩
  have := h.at_
  cases v with
  | imm i => exact this
  | obj i t => exact ⟨this.1, this.2.1, by rw [hk.vars]; exact this.2.2⟩
  | tmp k t => exact ⟨by have := this.1; omega, by rw [hk.tmps k this.1]; exact this.2⟩

theorem EHolds.keep {n n' : Nat} {σ σ' : Env} {e : IExp} {b : Basic} {x : Int} (h : EHolds Γ N n σ e b x) (hk : Keep n σ σ') (hn : n ≤ n') :
    EHolds Γ N n' σ' e b x := by
  cases h with
  | same h => exact .same (h.keep hk hn)
  | conv h hi hb hb' ha => exact .conv (h.keep hk hn) hi hb hb' ha
  | not h hb => exact .not (h.keep hk hn) hb
  | arith ho hb hl hr ha hm => exact .arith ho hb (hl.keep hk hn) (hr.keep hk hn) ha hm
  | rel ho ha hl hr => exact .rel ho ha (hl.keep hk hn) (hr.keep hk hn)

theorem AHolds.keep {n n' : Nat} {σ σ' : Env} {e : IExp} {b : Basic} {x : Int} (h : AHolds Γ N n σ e b x) (hk : Keep n σ σ') (hn : n ≤ n') :
    AHolds Γ N n' σ' e b x := by
  rcases h with h | ⟨hb, op, o, l, r, e1, e2, h⟩
  · exact .inl (h.keep hk hn)
  · exact .inr ⟨hb, op, o, l, r, e1, e2, h.keep hk hn⟩

theorem Does.mono {M M' : Nat} {σ σ' : Env} {st : List Stmt} (h : Does Γ N M σ st σ') (hM : M ≤ M') : Does Γ N M' σ st σ' := by
  induction h with
  | nil => exact .nil
  | var hi h _ ih => exact .var hi (h.keep (Keep.refl _ _) hM) ih
  | tmp hk h _ ih => exact .tmp (by omega) h ih

theorem Does.append {M : Nat} {σ σ' σ'' : Env} {st st' : List Stmt} (h : Does Γ N M σ st σ') (g : Does Γ N M σ' st' σ'') :
    Does Γ N M σ (st ++ st') σ'' := by
  induction h with
  | nil => exact g
  | var hi h _ ih => exact .var hi h (ih g)
  | tmp hk h _ ih => exact .tmp hk h (ih g)

theorem EHolds.ty {n : Nat} {σ : Env} {e : IExp} {b : Basic} {x : Int} (h : EHolds Γ N n σ e b x) : e.ty = tyOf b {} := by
  cases h <;> rfl

theorem EHolds.fits {n : Nat} {σ : Env} {e : IExp} {b : Basic} {x : Int} (h : EHolds Γ N n σ e b x) : fits b x := by
  cases h with
  | same h => exact h.fits
  | conv h hi hb hb' ha => exact Fold.conv_fits hb _
  | not h hb => exact Fold.conv_fits hb.isInt.1 _
  | arith ho hb hl hr ha hm =>
    refine fits_has hb.isInt.1 hb.isInt.2 (Arith.meaning_has (by rcases opTy_size hb with h | h <;> omega) (has_fits hl.fits) ?_ hm)
    rcases ha with ha | ha | ha
    · exact .inl ha
    · exact .inr (.inl ha)
    · subst ha; exact .inr (.inr (has_fits hr.fits))
  | rel ho ha hl hr => split_ifs <;> exact ⟨_, _, rfl, by decide⟩

/-- From these numbers, and `n` temporaries, this succeeds with statements that can be executed, and then. -/
def Sound (Γ : Nat → Basic) (N : Nat) (σ : Env) (n : Nat) {α : Type} (f : R α) (Q : Env → Nat → α → Prop) : Prop :=
  ∃ a n' st σ', f n = some (a, n', st) ∧ n ≤ n' ∧ Does Γ N n' σ st σ' ∧ Q σ' n' a

theorem Sound.pure {σ : Env} {n : Nat} {α : Type} {a : α} {Q : Env → Nat → α → Prop} (h : Q σ n a) : Sound Γ N σ n (Pure.pure a : R α) Q :=
  ⟨a, n, [], σ, rfl, Nat.le_refl _, .nil, h⟩

theorem Sound.bind {σ : Env} {n : Nat} {α β : Type} {f : R α} {g : α → R β} {P : Env → Nat → α → Prop} {Q : Env → Nat → β → Prop}
    (h : Sound Γ N σ n f P) (hg : ∀ σ' n' a, n ≤ n' → P σ' n' a → Sound Γ N σ' n' (g a) Q) : Sound Γ N σ n (f >>= g) Q := by
  obtain ⟨a, n1, st1, σ1, e1, l1, d1, p1⟩ := h
  obtain ⟨b, n2, st2, σ2, e2, l2, d2, p2⟩ := hg σ1 n1 a l1 p1
  refine ⟨b, n2, st1 ++ st2, σ2, ?_, by omega, (d1.mono l2).append d2, p2⟩
  show R.bind f g n = _
  simp only [R.bind, e1, e2]

theorem Sound.weaken {σ : Env} {n : Nat} {α : Type} {f : R α} {P Q : Env → Nat → α → Prop} (h : Sound Γ N σ n f P)
    (g : ∀ σ' n' a, n ≤ n' → P σ' n' a → Q σ' n' a) : Sound Γ N σ n f Q := by
  obtain ⟨a, n1, st1, σ1, e1, l1, d1, p1⟩ := h
  exact ⟨a, n1, st1, σ1, e1, l1, d1, g _ _ _ l1 p1⟩

theorem pure_bind {α β : Type} (a : α) (g : α → R β) : (Pure.pure a >>= g : R β) = g a := by
  funext n
  show R.bind (R.pure a) g n = g a n
  simp only [R.bind, R.pure]
  cases g a n with
  | none => rfl
  | some p => rfl

theorem ok_pure {α : Type} (a : α) : ok (.ok a) = (Pure.pure a : R α) := rfl
theorem lift_pure {α : Type} (a : α) : R.lift (some a) = (Pure.pure a : R α) := rfl

theorem asExpr_holds {n : Nat} {σ : Env} {v : IVar} {b : Basic} {x : Int} (h : VHolds Γ N n σ v b x) : EHolds Γ N n σ (asExpr v) b x := by
  unfold asExpr
  rw [h.ty]
  exact .same h

theorem identity_holds {n : Nat} {σ : Env} {e : IExp} {v : IVar} {b : Basic} {x : Int} (h : EHolds Γ N n σ e b x) (hi : identity e = some v) :
    VHolds Γ N n σ v b x := by
  cases h with
  | same h =>
    simp only [identity] at hi
    split_ifs at hi
    cases hi
    exact h
  | conv h _ _ _ ha =>
    simp only [identity] at hi
    split_ifs at hi with hv
    rw [h.ty] at hv
    exact (ha (tyOf_inj hv)).elim
  | not h hb => cases hi
  | arith => cases hi
  | rel => cases hi

theorem newTmp {σ : Env} {n : Nat} {e : IExp} {b : Basic} {x : Int} (h : AHolds Γ N n σ e b x) :
    Does Γ N (n + 1) σ [⟨.tmp n (tyOf b {}), e⟩] (σ.setTmp n b x) ∧ Keep n σ (σ.setTmp n b x) := by
  refine ⟨.tmp (Nat.lt_succ_self n) h .nil, rfl, ?_⟩
  intro k hk
  simp only [Env.setTmp, if_neg (show k ≠ n by omega)]

theorem eval_sound {σ : Env} {n : Nat} {e : IExp} {b : Basic} {x : Int} (h : EHolds Γ N n σ e b x) :
    Sound Γ N σ n (eval e) fun σ' n' v => Keep n σ σ' ∧ VHolds Γ N n' σ' v b x := by
  unfold eval
  cases hi : identity e with
  | some v => exact .pure ⟨Keep.refl _ _, identity_holds h hi⟩
  | none =>
    obtain ⟨d, k⟩ := newTmp (.inl h)
    refine ⟨.tmp n (tyOf b {}), n + 1, [⟨.tmp n (tyOf b {}), e⟩], σ.setTmp n b x, ?_, by omega, d, k, rfl, h.fits, by omega, ?_⟩
    · rw [h.ty]; rfl
    · simp only [Env.setTmp, if_true]

/-! ### Constants -/

theorem holds_imm {n : Nat} {σ : Env} {i : Imm} {b : Basic} {x : Int} (h : VHolds Γ N n σ (.imm i) b x) : Holds b x i :=
  ⟨h.fits, ⟨{}, h.ty⟩, h.at_⟩

theorem imm_holds {n : Nat} {σ : Env} {i : Imm} {b : Basic} {x : Int} (h : Holds b x i) (hq : i.ty.q = {}) : VHolds Γ N n σ (.imm i) b x := by
  obtain ⟨h1, ⟨q, h2⟩, h3⟩ := h
  refine ⟨?_, h1, h3⟩
  show i.ty = _
  rw [h2] at hq ⊢
  rw [show q = {} from hq]

theorem immSigned_ty {t : Ty} {n : BitVec 64} {k : Imm} (h : Fold.immSigned t n = .const k) : k.ty = t := by
  unfold Fold.immSigned at h
  split_ifs at h
  split at h <;> first | (cases h; rfl) | cases h

theorem immUnsigned_ty {t : Ty} {n : BitVec 64} {k : Imm} (h : Fold.immUnsigned t n = .const k) : k.ty = t := by
  unfold Fold.immUnsigned at h
  split_ifs at h <;> (cases h; rfl)

theorem finish_ty {op : Fold.Op} {t : Ty} {l r : BitVec 64} {k : Imm} (h : Fold.finish op t l r = .const k) : k.ty = t := by
  unfold Fold.finish at h
  split_ifs at h
  · split at h
    · exact immSigned_ty h
    · cases h
  · split at h
    · exact immUnsigned_ty h
    · cases h

theorem binary_q {op : Fold.Op} {i j k : Imm} {a b : Basic} (hi : i.ty = tyOf a {}) (ha : isInt a) (hj : j.ty = tyOf b {})
    (h : Fold.binary op i j = .const k) : k.ty.q = {} := by
  unfold Fold.binary at h
  rw [hi, hj, Fold.usual_eq, promote_tyOf ha] at h
  split_ifs at h
  split at h
  · simp only at h
    split at h
    · cases h
    · rw [finish_ty h]; rfl
  · simp only at h
    split at h
    · cases h
    · rw [finish_ty h]; rfl
  all_goals
    simp only at h
    split at h
    · first
      | (simp only [Fold.Out.const.injEq] at h; subst h; rfl)
      | (split_ifs at h; rw [finish_ty h]; rfl)
    · cases h

theorem fold_const {n : Nat} {σ : Env} {op : Fold.Spec.Op} {i j : Imm} {a b t : Basic} {x y z : Int} (hi : VHolds Γ N n σ (.imm i) a x)
    (hj : VHolds Γ N n σ (.imm j) b y) (h : Fold.Spec.binary op a b x y = some (t, z)) :
    ∃ k, Fold.binary (Fold.opOf op) i j = .const k ∧ VHolds Γ N n σ (.imm k) t z := by
  obtain ⟨k, e, hk⟩ := Fold.C22_folding op a b x y i j t z (holds_imm hi) (holds_imm hj) h
  exact ⟨k, e, imm_holds hk (binary_q hi.ty (Fold.fits_isInt hi.fits) hj.ty e)⟩

theorem cast_const {n : Nat} {σ : Env} {i : Imm} {a t : Basic} {x : Int} (hi : VHolds Γ N n σ (.imm i) a x) (ht : isInt t) :
    ∃ k, Fold.castOperand i (tyOf t {}) = some k ∧ VHolds Γ N n σ (.imm k) t (conv t x) :=
  ⟨_, Fold.castOperand_eq {} (holds_imm hi) ht, rfl, Fold.conv_fits ht x, rfl⟩

theorem complement_const {n : Nat} {σ : Env} {i : Imm} {a : Basic} {x : Int} (hi : VHolds Γ N n σ (.imm i) a x) :
    ∃ k, Fold.complement i = .const k ∧ VHolds Γ N n σ (.imm k) (Fold.Spec.complement a x).1 (Fold.Spec.complement a x).2 := by
  obtain ⟨k, e, hk⟩ := Fold.C22_complement a x i (holds_imm hi)
  refine ⟨k, e, imm_holds hk ?_⟩
  unfold Fold.complement at e
  rw [show i.ty = tyOf a {} from hi.ty, promote_tyOf (Fold.fits_isInt hi.fits)] at e
  split_ifs at e
  simp only at e
  split at e
  · cases e
  · split_ifs at e
    · rw [immSigned_ty e]; rfl
    · rw [immUnsigned_ty e]; rfl

/-! ### Operators -/

theorem castOperand_sound {σ : Env} {n : Nat} {v : IVar} {a b : Basic} {y : Int} (h : VHolds Γ N n σ v a y) (hb : isInt b) (hb' : b ≠ .bool) :
    Sound Γ N σ n (castOperand v (tyOf b {})) fun σ' n' v' => Keep n σ σ' ∧ VHolds Γ N n' σ' v' b (conv b y) := by
  have gen : (∀ i, v ≠ .imm i) → Sound Γ N σ n (if v.ty = tyOf b {} then pure v else eval (.cast (tyOf b {}) v))
      fun σ' n' v' => Keep n σ σ' ∧ VHolds Γ N n' σ' v' b (conv b y) := by
    intro hi
    split_ifs with he
    · rw [h.ty] at he
      have := tyOf_inj he
      subst this
      exact .pure ⟨Keep.refl _ _, by rw [Fold.conv_self h.fits]; exact h⟩
    · exact eval_sound (.conv h hi hb hb' (fun e => he (by rw [h.ty, e])))
  unfold castOperand
  cases v with
  | imm i =>
    obtain ⟨k, e, hk⟩ := cast_const h hb
    simp only [e, Option.map_some, lift_pure]
    exact .pure ⟨Keep.refl _ _, hk⟩
  | obj i t => exact gen (by simp)
  | tmp k t => exact gen (by simp)

theorem evalCast_sound {σ : Env} {n : Nat} {v : IVar} {a b : Basic} {y : Int} (h : VHolds Γ N n σ v a y) (hb : isInt b)
    (hb' : b = .bool → (∃ i, v = .imm i) ∨ a = .bool) :
    Sound Γ N σ n (evalCast v (tyOf b {})) fun σ' n' e => Keep n σ σ' ∧ EHolds Γ N n' σ' e b (conv b y) := by
  have gen : (∀ i, v ≠ .imm i) → Sound Γ N σ n (if v.ty = tyOf b {} then pure (asExpr v) else pure (.cast (tyOf b {}) v))
      fun σ' n' e => Keep n σ σ' ∧ EHolds Γ N n' σ' e b (conv b y) := by
    intro hi
    split_ifs with he
    · rw [h.ty] at he
      have := tyOf_inj he
      subst this
      exact .pure ⟨Keep.refl _ _, by rw [Fold.conv_self h.fits]; exact asExpr_holds h⟩
    · refine .pure ⟨Keep.refl _ _, .conv h hi hb (fun e => ?_) (fun e => he (by rw [h.ty, e]))⟩
      rcases hb' e with ⟨i, hv⟩ | ha
      · exact hi i hv
      · exact he (by rw [h.ty, ha, e])
  unfold evalCast
  cases v with
  | imm i =>
    obtain ⟨k, e, hk⟩ := cast_const h hb
    simp only [e, Option.map_some, lift_pure]
    exact .pure ⟨Keep.refl _ _, asExpr_holds hk⟩
  | obj i t => exact gen (by simp)
  | tmp k t => exact gen (by simp)

theorem create_sound {σ : Env} {n : Nat} {op : Fold.Op} {t : Ty} {l r : IVar} {b : Basic} {x : Int} (h : EHolds Γ N n σ (.bin op t l r) b x)
    (hc : ∀ i j, l = .imm i → r = .imm j → ∃ k, Fold.binary op i j = .const k ∧ VHolds Γ N n σ (.imm k) b x) :
    Sound Γ N σ n (create op t l r) fun σ' n' e => Keep n σ σ' ∧ EHolds Γ N n' σ' e b x := by
  unfold create
  split
  · rename_i i j
    obtain ⟨k, e, hk⟩ := hc i j rfl rfl
    rw [e]
    exact .pure ⟨Keep.refl _ _, asExpr_holds hk⟩
  · exact .pure ⟨Keep.refl _ _, h⟩

theorem balanced_sound {σ : Env} {n : Nat} {op : Fold.Op} {res : Option Ty} {l r : IVar} {a b : Basic} {x y : Int} {Q : Env → Nat → IExp → Prop}
    (hl : VHolds Γ N n σ l a x) (hr : VHolds Γ N n σ r b y)
    (hQ : ∀ σ' n' l' r', n ≤ n' → Keep n σ σ' → VHolds Γ N n' σ' l' (a.common b) (conv (a.common b) x) →
      VHolds Γ N n' σ' r' (a.common b) (conv (a.common b) y) → Sound Γ N σ' n' (create op (res.getD (tyOf (a.common b) {})) l' r') Q) :
    Sound Γ N σ n (balanced op res l r) Q := by
  have ht : isOpTy (a.common b) := Fold.common_cases (Fold.fits_isInt hl.fits) (Fold.fits_isInt hr.fits)
  unfold balanced
  rw [hl.ty, hr.ty, Fold.usual_eq, ok_pure, pure_bind]
  refine .bind (castOperand_sound hl ht.isInt.1 ht.isInt.2) ?_
  rintro σ1 n1 l' h1 ⟨k1, hl'⟩
  refine .bind (castOperand_sound (hr.keep k1 h1) ht.isInt.1 ht.isInt.2) ?_
  rintro σ2 n2 r' h2 ⟨k2, hr'⟩
  exact hQ σ2 n2 l' r' (by omega) (k1.trans k2 h1) (hl'.keep k2 h2) hr'

theorem common_spec {op : Fold.Spec.Op} {a b : Basic} {x y : Int} (hs : op ≠ .shl ∧ op ≠ .shr) (hx : fits a x) (hy : fits b y) :
    Fold.Spec.binary op (a.common b) (a.common b) (conv (a.common b) x) (conv (a.common b) y) = Fold.Spec.binary op a b x y := by
  have ht : isOpTy (a.common b) := Fold.common_cases (Fold.fits_isInt hx) (Fold.fits_isInt hy)
  have h1 := Fold.conv_self (Fold.conv_fits ht.isInt.1 x)
  have h2 := Fold.conv_self (Fold.conv_fits ht.isInt.1 y)
  have h3 := common_self ht
  unfold Fold.Spec.binary
  generalize (a.common b).common (a.common b) = c at h3 ⊢
  subst h3
  simp only [h1, h2]
  cases op <;> first | rfl | exact (hs.1 rfl).elim | exact (hs.2 rfl).elim

theorem shift_spec {op : Fold.Spec.Op} {a b : Basic} {x y : Int} (hs : op = .shl ∨ op = .shr) (hx : fits a x) :
    Fold.Spec.binary op a.promote b x y = Fold.Spec.binary op a b x y := by
  have hp : isOpTy a.promote := Fold.promote_cases (Fold.fits_isInt hx)
  rcases hs with rfl | rfl <;> simp only [Fold.Spec.binary, promote_self hp]

theorem isInteger_of {n : Nat} {σ : Env} {v : IVar} {b : Basic} {x : Int} (h : VHolds Γ N n σ v b x) : v.ty.isInteger = true := by
  rw [h.ty]; exact Fold.isInteger_tyOf (Fold.fits_isInt h.fits) {}

def relOf : Fold.Spec.Op → Option Compare.Op
  | .eq => some .eq
  | .ne => some .ne
  | .ge => some .ge
  | .gt => some .gt
  | _ => none

theorem rel_of {op : Fold.Spec.Op} {o : Compare.Op} {a b t : Basic} {x y z : Int} (ho : relOf op = some o)
    (h : Fold.Spec.binary op a b x y = some (t, z)) :
    t = .int ∧ z = if o.holds (some (compare (conv (a.common b) x) (conv (a.common b) y))) then 1 else 0 := by
  unfold Fold.Spec.binary at h
  simp only at h
  generalize conv (a.common b) x = X at *
  generalize conv (a.common b) y = Y at *
  have hc : compare X Y = if X < Y then .lt else if X = Y then .eq else .gt := by
    simp only [compare, compareOfLessAndEq]
  rw [hc]
  cases op <;> simp only [relOf, Option.some.injEq, reduceCtorEq] at ho <;> subst ho <;>
    simp only [Option.some.injEq, Prod.mk.injEq] at h <;> obtain ⟨rfl, rfl⟩ := h <;> refine ⟨rfl, ?_⟩ <;>
    simp only [Compare.Op.holds] <;>
    (rcases lt_trichotomy X Y with hlt | heq | hgt
     · rw [if_pos hlt]; first | rw [if_neg (by omega)] | rw [if_pos (by omega)]
       all_goals rfl
     · subst heq; simp
     · rw [if_neg (by omega : ¬ X < Y), if_neg (by omega : ¬ X = Y)]; first | rw [if_pos hgt]; rfl | rw [if_pos (by omega : Y ≤ X)]; rfl | rfl | (rw [if_neg (by omega : ¬ X = Y)]; rfl))

theorem evalBinary_sound {σ : Env} {n : Nat} {op : Fold.Spec.Op} {l r : IVar} {a b t : Basic} {x y z : Int} (hl : VHolds Γ N n σ l a x)
    (hr : VHolds Γ N n σ r b y) (h : Fold.Spec.binary op a b x y = some (t, z)) :
    Sound Γ N σ n (evalBinary (Fold.opOf op) l r) fun σ' n' e => Keep n σ σ' ∧ EHolds Γ N n' σ' e t z := by
  have ht : isOpTy (a.common b) := Fold.common_cases (Fold.fits_isInt hl.fits) (Fold.fits_isInt hr.fits)
  have arith : ∀ o, arithOf op = some o → op ≠ .shl → op ≠ .shr → arithOp (Fold.opOf op) = some o →
      Sound Γ N σ n (balanced (Fold.opOf op) none l r) fun σ' n' e => Keep n σ σ' ∧ EHolds Γ N n' σ' e t z := by
    intro o ho h1 h2 ha
    refine balanced_sound hl hr ?_
    intro σ' n' l' r' hn k hl' hr'
    have e := common_spec ⟨h1, h2⟩ hl.fits hr.fits
    rw [h] at e
    obtain ⟨rfl, hm⟩ := meaning_of ho ht hl'.fits hr'.fits (.inr (.inr rfl)) e
    refine (create_sound (.arith ha ht hl' hr' (.inr (.inr rfl)) hm) ?_).weaken fun _ _ _ hn2 ⟨k2, he⟩ => ⟨k.trans k2 hn, he⟩
    rintro i j rfl rfl
    exact fold_const hl' hr' e
  have rel : ∀ o, relOf op = some o → op ≠ .shl → op ≠ .shr → compareOp (Fold.opOf op) = some o →
      Sound Γ N σ n (balanced (Fold.opOf op) (some intTy) l r) fun σ' n' e => Keep n σ σ' ∧ EHolds Γ N n' σ' e t z := by
    intro o ho h1 h2 ha
    refine balanced_sound hl hr ?_
    intro σ' n' l' r' hn k hl' hr'
    have e := common_spec ⟨h1, h2⟩ hl.fits hr.fits
    rw [h] at e
    obtain ⟨rfl, rfl⟩ := rel_of ho h
    refine (create_sound (.rel ha ht hl' hr') ?_).weaken fun _ _ _ hn2 ⟨k2, he⟩ => ⟨k.trans k2 hn, he⟩
    rintro i j rfl rfl
    exact fold_const hl' hr' e
  have shift : ∀ o, arithOf op = some o → (op = .shl ∨ op = .shr) → (o = .shl ∨ o = .shr) → arithOp (Fold.opOf op) = some o →
      Sound Γ N σ n (do
        let t ← ok (promoteInteger l.ty)
        let l ← castOperand l t
        create (Fold.opOf op) t l r) fun σ' n' e => Keep n σ σ' ∧ EHolds Γ N n' σ' e t z := by
    intro o ho h1 h2 ha
    have hp : isOpTy a.promote := Fold.promote_cases (Fold.fits_isInt hl.fits)
    have e := shift_spec (b := b) (y := y) h1 hl.fits
    rw [h] at e
    rw [hl.ty, promote_tyOf (Fold.fits_isInt hl.fits), ok_pure, pure_bind]
    refine .bind (castOperand_sound hl hp.isInt.1 hp.isInt.2) ?_
    rintro σ' n' l' hn ⟨k, hl'⟩
    rw [Fold.conv_self (Fold.promote_fits (Fold.fits_isInt hl.fits) hl.fits)] at hl'
    have hr' := hr.keep k hn
    obtain ⟨rfl, hm⟩ := meaning_of ho hp hl'.fits hr.fits (by tauto) e
    refine (create_sound (.arith ha hp hl' hr' (by tauto) hm) ?_).weaken fun _ _ _ hn2 ⟨k2, he⟩ => ⟨k.trans k2 hn, he⟩
    rintro i j rfl rfl
    exact fold_const hl' hr' e
  unfold evalBinary
  rw [isInteger_of hl, isInteger_of hr]
  simp only [Bool.and_self, if_true]
  cases op
  case shl => exact shift _ rfl (.inl rfl) (.inl rfl) rfl
  case shr => exact shift _ rfl (.inr rfl) (.inr rfl) rfl
  case eq => exact rel _ rfl (by simp) (by simp) rfl
  case ne => exact rel _ rfl (by simp) (by simp) rfl
  case ge => exact rel _ rfl (by simp) (by simp) rfl
  case gt => exact rel _ rfl (by simp) (by simp) rfl
  all_goals exact arith _ rfl (by simp) (by simp) rfl

theorem varInt_holds {σ : Env} {n : Nat} {x : Int} (h : fits .int x) : VHolds Γ N n σ (varInt x) .int x := ⟨rfl, h, rfl⟩

theorem negate_spec {a : Basic} {x : Int} (hx : fits a x) : Fold.Spec.binary .sub .int a 0 x = Fold.Spec.negate a x := by
  have hia := Fold.fits_isInt hx
  have hf := Fold.promote_fits hia hx
  have hc : Basic.int.common a = a.promote := by
    rcases Fold.isInt_cases hia with h | h | h | h | h | h | h | h | h <;> subst h <;> rfl
  have h0 : Fold.Spec.conv a.promote 0 = 0 := by
    rcases Fold.isInt_cases hia with h | h | h | h | h | h | h | h | h <;> subst h <;> decide
  simp only [Fold.Spec.binary, Fold.Spec.negate, hc, h0, Fold.conv_self hf, Int.zero_sub]

theorem evalNeg_sound {σ : Env} {n : Nat} {v : IVar} {a t : Basic} {x z : Int} (hv : VHolds Γ N n σ v a x)
    (h : Fold.Spec.negate a x = some (t, z)) :
    Sound Γ N σ n (evalNeg v) fun σ' n' e => Keep n σ σ' ∧ EHolds Γ N n' σ' e t z := by
  unfold evalNeg
  rw [isInteger_of hv, if_pos rfl]
  exact evalBinary_sound (op := .sub) (varInt_holds ⟨_, _, rfl, by decide⟩) hv ((negate_spec hv.fits).trans h)

theorem complement_spec {a : Basic} {x : Int} (h : isOpTy a) (hx : fits a x) : (Fold.Spec.complement a x).1 = a ∧
    (Fold.Spec.complement a x).2 = conv a (-1 - x) := by
  have hp := promote_self h
  unfold Fold.Spec.complement
  simp only
  generalize a.promote = p at hp ⊢
  subst hp
  refine ⟨rfl, ?_⟩
  rw [Fold.conv_eq h.isInt.2]
  congr 1
  have h1 : ∀ v : BitVec (Fold.Spec.width p), ~~~v = -v - 1#_ := fun v => by rw [BitVec.neg_eq_not_add, BitVec.add_sub_cancel]
  rw [h1, show (-1 - x : Int) = -x + -1 by omega, BitVec.ofInt_add, BitVec.ofInt_neg, BitVec.ofInt_neg, BitVec.sub_eq_add_neg]
  rfl

theorem evalNot_sound {σ : Env} {n : Nat} {v : IVar} {a : Basic} {x : Int} (hv : VHolds Γ N n σ v a x) :
    Sound Γ N σ n (evalNot v) fun σ' n' e => Keep n σ σ' ∧ EHolds Γ N n' σ' e (Fold.Spec.complement a x).1 (Fold.Spec.complement a x).2 := by
  have hia := Fold.fits_isInt hv.fits
  have hp : isOpTy a.promote := Fold.promote_cases hia
  have hpp := promote_self hp
  have hf := Fold.promote_fits hia hv.fits
  have same : Fold.Spec.complement a.promote x = Fold.Spec.complement a x := by
    unfold Fold.Spec.complement
    generalize a.promote.promote = p at hpp ⊢
    subst hpp
    rfl
  unfold evalNot
  rw [isInteger_of hv, if_pos rfl, hv.ty, promote_tyOf hia, ok_pure, pure_bind]
  refine .bind (castOperand_sound hv hp.isInt.1 hp.isInt.2) ?_
  rintro σ' n' v' hn ⟨k, hv'⟩
  rw [Fold.conv_self hf] at hv'
  have gen : Sound Γ N σ' n' (pure (.not (tyOf a.promote {}) v')) fun σ'' n'' e => Keep n σ σ'' ∧
      EHolds Γ N n'' σ'' e (Fold.Spec.complement a x).1 (Fold.Spec.complement a x).2 := by
    refine .pure ⟨k, ?_⟩
    obtain ⟨h1, h2⟩ := complement_spec hp hf
    rw [← same, h1, h2]
    exact .not hv' hp
  unfold complement
  cases v' with
  | imm i =>
    obtain ⟨j, e, hj⟩ := complement_const hv'
    simp only [e]
    rw [same] at hj
    exact .pure ⟨k, asExpr_holds hj⟩
  | obj i t => exact gen
  | tmp j t => exact gen

theorem evalPlus_sound {σ : Env} {n : Nat} {v : IVar} {a : Basic} {x : Int} (hv : VHolds Γ N n σ v a x) :
    Sound Γ N σ n (evalPlus v) fun σ' n' e => Keep n σ σ' ∧ EHolds Γ N n' σ' e a.promote x := by
  have hia := Fold.fits_isInt hv.fits
  have hp : isOpTy a.promote := Fold.promote_cases hia
  have hf := Fold.promote_fits hia hv.fits
  have h := evalCast_sound hv hp.isInt.1 (fun e => (hp.isInt.2 e).elim)
  rw [Fold.conv_self hf] at h
  unfold evalPlus
  rw [isInteger_of hv, if_pos rfl, hv.ty, promote_tyOf hia, ok_pure, pure_bind]
  unfold evalCast at h
  cases v with
  | imm i => exact h
  | obj i t => rw [hv.ty] at h; exact h
  | tmp j t => rw [hv.ty] at h; exact h

theorem evalRel_sound {σ : Env} {n : Nat} {op : Compare.Rel} {l r : IVar} {a b : Basic} {x y : Int} (hl : VHolds Γ N n σ l a x)
    (hr : VHolds Γ N n σ r b y) :
    Sound Γ N σ n (evalRel op l r) fun σ' n' e => Keep n σ σ' ∧ EHolds Γ N n' σ' e .int
      (if op.holds (some (compare (conv (a.common b) x) (conv (a.common b) y))) then 1 else 0) := by
  have hc : compare (conv (a.common b) x) (conv (a.common b) y) = if conv (a.common b) x < conv (a.common b) y then .lt
      else if conv (a.common b) x = conv (a.common b) y then .eq else .gt := by
    simp only [compare, compareOfLessAndEq]
  rw [hc]
  have go : ∀ (o : Fold.Spec.Op) (l r : IVar) (a b : Basic) (x y z w : Int), VHolds Γ N n σ l a x → VHolds Γ N n σ r b y →
      Fold.Spec.binary o a b x y = some (.int, z) → z = w →
      Sound Γ N σ n (evalBinary (Fold.opOf o) l r) fun σ' n' e => Keep n σ σ' ∧ EHolds Γ N n' σ' e .int w := by
    intro o l r a b x y z w hl hr h e
    subst e
    exact evalBinary_sound hl hr h
  cases op <;> simp only [evalRel, Compare.Rel.holds]
  case lt => refine go .gt r l b a y x _ _ hr hl rfl ?_; rw [common_comm b a]; grind
  case le => refine go .ge r l b a y x _ _ hr hl rfl ?_; rw [common_comm b a]; grind
  case gt => refine go .gt l r a b x y _ _ hl hr rfl ?_; grind
  case ge => refine go .ge l r a b x y _ _ hl hr rfl ?_; grind
  case eq => refine go .eq l r a b x y _ _ hl hr rfl ?_; grind
  case ne => refine go .ne l r a b x y _ _ hl hr rfl ?_; grind

theorem evalNegation_sound {σ : Env} {n : Nat} {e : IExp} {a : Basic} {x : Int} (he : EHolds Γ N n σ e a x) :
    Sound Γ N σ n (evalNegation e) fun σ' n' e' => Keep n σ σ' ∧ EHolds Γ N n' σ' e' .int (if x = 0 then 1 else 0) := by
  have other : Sound Γ N σ n (do
      let v ← eval e
      evalBinary .eq (varInt 0) v) fun σ' n' e' => Keep n σ σ' ∧ EHolds Γ N n' σ' e' .int (if x = 0 then 1 else 0) := by
    refine .bind (eval_sound he) ?_
    rintro σ' n' v hn ⟨k, hv⟩
    have hia := Fold.fits_isInt hv.fits
    have hc : Basic.int.common a = a.promote := by
      rcases Fold.isInt_cases hia with h | h | h | h | h | h | h | h | h <;> subst h <;> rfl
    have h0 : Fold.Spec.conv a.promote 0 = 0 := by
      rcases Fold.isInt_cases hia with h | h | h | h | h | h | h | h | h <;> subst h <;> decide
    refine (evalBinary_sound (op := .eq) (varInt_holds (x := 0) ⟨_, _, rfl, by decide⟩) hv (z := if x = 0 then 1 else 0) (t := .int) ?_).weaken
      fun _ _ _ _ ⟨k2, h⟩ => ⟨k.trans k2 hn, h⟩
    simp only [Fold.Spec.binary, hc, h0, Fold.conv_self (Fold.promote_fits hia hv.fits), @eq_comm _ (0 : Int) x]
  have hcmp : ∀ y z : Int, compare y z = if y < z then .lt else if y = z then .eq else .gt := fun y z => by
    simp only [compare, compareOfLessAndEq]
  cases he with
  | same h => exact other
  | conv h _ _ _ _ => exact other
  | not h _ => exact other
  | @arith op o l r b _ y z _ ho _ _ _ _ _ =>
    cases op <;> first | exact other | cases ho
  | @rel op o l r b y z ho ha hl hr =>
    cases op <;> simp only [compareOp, Option.some.injEq, reduceCtorEq] at ho <;> subst ho
    · have : (if (if Compare.Op.eq.holds (some (compare y z)) then (1 : Int) else 0) = 0 then (1 : Int) else 0) =
          if Compare.Op.ne.holds (some (compare y z)) then 1 else 0 := by
        simp only [Compare.Op.holds, hcmp]; grind
      rw [this]; exact .pure ⟨Keep.refl _ _, .rel rfl ha hl hr⟩
    · have : (if (if Compare.Op.ne.holds (some (compare y z)) then (1 : Int) else 0) = 0 then (1 : Int) else 0) =
          if Compare.Op.eq.holds (some (compare y z)) then 1 else 0 := by
        simp only [Compare.Op.holds, hcmp]; grind
      rw [this]; exact .pure ⟨Keep.refl _ _, .rel rfl ha hl hr⟩
    · have : (if (if Compare.Op.ge.holds (some (compare y z)) then (1 : Int) else 0) = 0 then (1 : Int) else 0) =
          if Compare.Op.gt.holds (some (compare z y)) then 1 else 0 := by
        simp only [Compare.Op.holds, hcmp]; grind
      rw [this]; exact .pure ⟨Keep.refl _ _, .rel rfl ha hr hl⟩
    · have : (if (if Compare.Op.gt.holds (some (compare y z)) then (1 : Int) else 0) = 0 then (1 : Int) else 0) =
          if Compare.Op.ge.holds (some (compare z y)) then 1 else 0 := by
        simp only [Compare.Op.holds, hcmp]; grind
      rw [this]; exact .pure ⟨Keep.refl _ _, .rel rfl ha hr hl⟩

/-! ### Expressions -/

/-- All variables have numbers of their types. -/
def Fit (Γ : Nat → Basic) (N : Nat) (ρ : Nat → Int) : Prop := ∀ i < N, fits (Γ i) (ρ i)

theorem obj_holds {σ : Env} {n i : Nat} (hf : Fit Γ N σ.vars) (hi : i < N) : VHolds Γ N n σ (.obj i (tyOf (Γ i) {})) (Γ i) (σ.vars i) :=
  ⟨rfl, hf i hi, hi, rfl, rfl⟩

theorem foldOp_spec (op : Arith.Op) : foldOp op = Fold.opOf (specOp op) := by cases op <;> rfl

theorem lower_sound (e : Exp) : ∀ {σ : Env} {n : Nat} {b : Basic} {x : Int}, Fit Γ N σ.vars → e.Ok N → e.value Γ σ.vars = some (b, x) →
    Sound Γ N σ n (lower Γ e) fun σ' n' e' => Keep n σ σ' ∧ EHolds Γ N n' σ' e' b x := by
  have ev : ∀ {σ : Env} {n : Nat} {e : Exp} {a : Basic} {y : Int} {α : Type} {g : IVar → R α} {Q : Env → Nat → α → Prop},
      Sound Γ N σ n (lower Γ e) (fun σ' n' e' => Keep n σ σ' ∧ EHolds Γ N n' σ' e' a y) →
      (∀ σ' n' v, n ≤ n' → Keep n σ σ' → VHolds Γ N n' σ' v a y → Sound Γ N σ' n' (g v) Q) →
      Sound Γ N σ n (do
        let e ← lower Γ e
        let v ← eval e
        g v) Q := by
    intro σ n e a y α g Q h hg
    refine .bind h ?_
    rintro σ1 n1 e1 l1 ⟨k1, h1⟩
    refine .bind (eval_sound h1) ?_
    rintro σ2 n2 v l2 ⟨k2, h2⟩
    exact hg σ2 n2 v (by omega) (k1.trans k2 l1) h2
  induction e with
  | const b n =>
    intro σ k b' x hf hok hv
    simp only [Exp.value, Option.some.injEq, Prod.mk.injEq] at hv
    obtain ⟨rfl, rfl⟩ := hv
    exact .pure ⟨Keep.refl _ _, asExpr_holds ⟨rfl, hok, rfl⟩⟩
  | var i =>
    intro σ k b' x hf hok hv
    simp only [Exp.value, Option.some.injEq, Prod.mk.injEq] at hv
    obtain ⟨rfl, rfl⟩ := hv
    exact .pure ⟨Keep.refl _ _, asExpr_holds (obj_holds hf hok)⟩
  | neg e ih =>
    intro σ k b' x hf hok hv
    simp only [Exp.value, Option.bind_eq_bind, Option.bind_eq_some_iff, Prod.exists] at hv
    obtain ⟨a, y, h1, h2⟩ := hv
    refine ev (ih hf hok h1) fun σ' n' v l k hv => ?_
    exact (evalNeg_sound hv h2).weaken fun _ _ _ _ ⟨k2, h⟩ => ⟨k.trans k2 l, h⟩
  | compl e ih =>
    intro σ k b' x hf hok hv
    simp only [Exp.value, Option.bind_eq_bind, Option.bind_eq_some_iff, Prod.exists, Option.some.injEq] at hv
    obtain ⟨a, y, h1, h2⟩ := hv
    refine ev (ih hf hok h1) fun σ' n' v l k hv => ?_
    have h := evalNot_sound hv
    rw [h2] at h
    exact h.weaken fun _ _ _ _ ⟨k2, h⟩ => ⟨k.trans k2 l, h⟩
  | plus e ih =>
    intro σ k b' x hf hok hv
    simp only [Exp.value, Option.bind_eq_bind, Option.bind_eq_some_iff, Prod.exists, Option.some.injEq, Prod.mk.injEq] at hv
    obtain ⟨a, y, h1, rfl, rfl⟩ := hv
    refine ev (ih hf hok h1) fun σ' n' v l k hv => ?_
    exact (evalPlus_sound hv).weaken fun _ _ _ _ ⟨k2, h⟩ => ⟨k.trans k2 l, h⟩
  | lnot e ih =>
    intro σ k b' x hf hok hv
    simp only [Exp.value, Option.bind_eq_bind, Option.bind_eq_some_iff, Prod.exists, Option.some.injEq, Prod.mk.injEq] at hv
    obtain ⟨a, y, h1, rfl, rfl⟩ := hv
    refine .bind (ih hf hok h1) ?_
    rintro σ' n' e' l ⟨k, he⟩
    exact (evalNegation_sound he).weaken fun _ _ _ _ ⟨k2, h⟩ => ⟨k.trans k2 l, h⟩
  | cast t e ih =>
    intro σ k b' x hf hok hv
    simp only [Exp.value, Option.bind_eq_bind, Option.bind_eq_some_iff, Prod.exists, Option.some.injEq, Prod.mk.injEq] at hv
    obtain ⟨a, y, h1, rfl, rfl⟩ := hv
    obtain ⟨o1, o2, o3⟩ := hok
    refine ev (ih hf o3 h1) fun σ' n' v l k hv => ?_
    exact (evalCast_sound hv o1 (fun e => (o2 e).elim)).weaken fun _ _ _ _ ⟨k2, h⟩ => ⟨k.trans k2 l, h⟩
  | bin op el er ihl ihr =>
    intro σ k b' x hf hok hv
    simp only [Exp.value, Option.bind_eq_bind, Option.bind_eq_some_iff, Prod.exists] at hv
    obtain ⟨a, y, h1, b, z, h2, h3⟩ := hv
    refine ev (ihl hf hok.1 h1) fun σ1 n1 v l1 k1 hv => ?_
    refine ev (ihr (by rw [k1.vars]; exact hf) hok.2 (by rw [k1.vars]; exact h2)) fun σ2 n2 w l2 k2 hw => ?_
    rw [foldOp_spec]
    exact (evalBinary_sound (hv.keep k2 l2) hw h3).weaken fun _ _ _ _ ⟨k3, h⟩ => ⟨(k1.trans k2 l1).trans k3 (by omega), h⟩
  | rel op el er ihl ihr =>
    intro σ k b' x hf hok hv
    simp only [Exp.value, Option.bind_eq_bind, Option.bind_eq_some_iff, Prod.exists, Option.some.injEq, Prod.mk.injEq] at hv
    obtain ⟨a, y, h1, b, z, h2, rfl, rfl⟩ := hv
    refine ev (ihl hf hok.1 h1) fun σ1 n1 v l1 k1 hv => ?_
    refine ev (ihr (by rw [k1.vars]; exact hf) hok.2 (by rw [k1.vars]; exact h2)) fun σ2 n2 w l2 k2 hw => ?_
    exact (evalRel_sound (hv.keep k2 l2) hw).weaken fun _ _ _ _ ⟨k3, h⟩ => ⟨(k1.trans k2 l1).trans k3 (by omega), h⟩

/-! ### Assignments -/

theorem Sound.also {σ : Env} {n : Nat} {α : Type} {f : R α} {Q : Env → Nat → α → Prop} {P : α → Prop} (h : Sound Γ N σ n f Q)
    (hp : ∀ a n' st, f n = some (a, n', st) → P a) : Sound Γ N σ n f fun σ' n' a => Q σ' n' a ∧ P a := by
  obtain ⟨a, n1, st1, σ1, e1, l1, d1, p1⟩ := h
  exact ⟨a, n1, st1, σ1, e1, l1, d1, p1, hp _ _ _ e1⟩

theorem bind_inv {α β : Type} {f : R α} {g : α → R β} {n n' : Nat} {b : β} {st : List Stmt} (h : (f >>= g) n = some (b, n', st)) :
    ∃ a n1 st2, g a n1 = some (b, n', st2) := by
  change R.bind f g n = _ at h
  unfold R.bind at h
  split at h
  · cases h
  · rename_i a n1 st1 _
    split at h
    · cases h
    · rename_i b' n2 st2 hg
      cases h
      exact ⟨a, n1, st2, hg⟩

theorem create_form {op : Fold.Op} {t : Ty} {l r : IVar} {n n' : Nat} {e : IExp} {st : List Stmt} (h : create op t l r n = some (e, n', st)) :
    (∃ i, e = asExpr (.imm i)) ∨ ∃ l r, e = .bin op t l r := by
  have gen : (pure (.bin op t l r) : R IExp) n = some (e, n', st) → (∃ i, e = asExpr (.imm i)) ∨ ∃ l r, e = .bin op t l r := by
    intro h
    cases h
    exact .inr ⟨_, _, rfl⟩
  cases l with
  | imm i =>
    cases r with
    | imm j =>
      simp only [create] at h
      cases hb : Fold.binary op i j <;> rw [hb] at h
      case const k => cases h; exact .inl ⟨_, rfl⟩
      case runtime => exact gen h
      all_goals cases h
    | obj _ _ => exact gen h
    | tmp _ _ => exact gen h
  | obj _ _ => exact gen h
  | tmp _ _ => exact gen h

theorem compared {l r : IVar} {n n' : Nat} {e : IExp} {st : List Stmt} (h : evalBinary .ne l r n = some (e, n', st)) :
    (∃ i, e = asExpr (.imm i)) ∨ ∃ l r, e = .bin .ne intTy l r := by
  unfold evalBinary at h
  split_ifs at h
  · simp only [balanced] at h
    obtain ⟨_, n1, _, h⟩ := bind_inv h
    obtain ⟨_, n2, _, h⟩ := bind_inv h
    obtain ⟨_, n3, _, h⟩ := bind_inv h
    exact create_form h
  · cases h

theorem of_tyOf {b : Basic} : (tyOf b {}).of = .bool ↔ b = .bool := by
  cases b <;> decide

theorem identity_imm (i : Imm) : identity (asExpr (.imm i)) = some (.imm i) := by
  simp only [identity, asExpr, if_true]

theorem prepareBool_sound {σ : Env} {n : Nat} {e : IExp} {b : Basic} {x : Int} (h : EHolds Γ N n σ e b x) :
    Sound Γ N σ n (prepareBool e) fun σ' n' e' => Keep n σ σ' ∧ AHolds Γ N n' σ' e' .bool (conv .bool x) := by
  unfold prepareBool
  rw [h.ty]
  by_cases hb : b = .bool
  · rw [if_pos (of_tyOf.mpr hb)]
    subst hb
    rw [Fold.conv_self h.fits]
    exact .pure ⟨Keep.refl _ _, .inl h⟩
  · rw [if_neg (fun e => hb (of_tyOf.mp e))]
    refine .bind (eval_sound h) ?_
    rintro σ1 n1 v l1 ⟨k1, hv⟩
    have hia := Fold.fits_isInt hv.fits
    have hc : Basic.int.common b = b.promote := by
      rcases Fold.isInt_cases hia with h | h | h | h | h | h | h | h | h <;> subst h <;> rfl
    have h0 : Fold.Spec.conv b.promote 0 = 0 := by
      rcases Fold.isInt_cases hia with h | h | h | h | h | h | h | h | h <;> subst h <;> decide
    have hz : conv .bool x = if x = 0 then 0 else 1 := rfl
    have h2 := (evalBinary_sound (op := .ne) (varInt_holds (x := 0) ⟨_, _, rfl, by decide⟩) hv (z := conv .bool x) (t := .int) (by
      simp only [Fold.Spec.binary, hc, h0, Fold.conv_self (Fold.promote_fits hia hv.fits), @eq_comm _ (0 : Int) x, hz])).also
        (fun _ _ _ => compared)
    refine .bind h2 ?_
    rintro σ2 n2 c l2 ⟨⟨k2, hc⟩, ⟨i, rfl⟩ | ⟨l, r, rfl⟩⟩
    · rw [identity_imm]
      have hi := identity_holds hc (identity_imm i)
      have := evalCast_sound (b := .bool) hi rfl (fun _ => .inl ⟨i, rfl⟩)
      rw [Fold.conv_self (t := .bool) (n := conv .bool x) (Fold.conv_fits (t := .bool) (show isInt .bool from rfl) x)] at this
      exact this.weaken fun _ _ _ _ ⟨k3, h⟩ => ⟨(k1.trans k2 l1).trans k3 (by omega), .inl h⟩
    · exact .pure ⟨k1.trans k2 l1, .inr ⟨rfl, .ne, .ne, l, r, rfl, rfl, hc⟩⟩

theorem prepareAssign_sound {σ : Env} {n : Nat} {e : IExp} {b t : Basic} {x : Int} (h : EHolds Γ N n σ e b x) (ht : isInt t) :
    Sound Γ N σ n (prepareAssign e (tyOf t {})) fun σ' n' e' => Keep n σ σ' ∧ AHolds Γ N n' σ' e' t (conv t x) := by
  unfold prepareAssign
  by_cases hb : t = .bool
  · rw [if_pos (of_tyOf.mpr hb)]
    subst hb
    exact prepareBool_sound h
  rw [if_neg (fun e => hb (of_tyOf.mp e))]
  split
  · rename_i i hi
    obtain ⟨k, e, hk⟩ := cast_const (identity_holds h hi) ht
    rw [e]
    exact .pure ⟨Keep.refl _ _, .inl (asExpr_holds hk)⟩
  · split_ifs with he
    · rw [h.ty] at he
      have := tyOf_inj he
      subst this
      rw [Fold.conv_self h.fits]
      exact .pure ⟨Keep.refl _ _, .inl h⟩
    · refine .bind (eval_sound h) ?_
      rintro σ1 n1 v l1 ⟨k1, hv⟩
      exact (evalCast_sound hv ht (fun e => (hb e).elim)).weaken fun _ _ _ _ ⟨k2, h⟩ => ⟨k1.trans k2 l1, .inl h⟩

theorem evalAssign_sound {σ : Env} {n i : Nat} {e : IExp} {b : Basic} {x : Int} (h : EHolds Γ N n σ e b x) (hi : i < N) (ht : isInt (Γ i)) :
    Sound Γ N σ n (evalAssign (.obj i (tyOf (Γ i) {})) e) fun σ' _ _ => σ'.vars = put σ.vars i (conv (Γ i) x) := by
  refine .bind (prepareAssign_sound h ht) ?_
  rintro σ1 n1 e1 l1 ⟨k1, h1⟩
  exact ⟨(), n1, _, σ1.setVar i (conv (Γ i) x), rfl, Nat.le_refl _, .var hi h1 .nil, by simp only [Env.setVar, k1.vars]⟩

theorem evalCopy_sound {σ : Env} {n i : Nat} (hf : Fit Γ N σ.vars) (hi : i < N) :
    Sound Γ N σ n (evalCopy (.obj i (tyOf (Γ i) {}))) fun σ' _ _ => σ'.vars = σ.vars := by
  have hp : prepareAssign (asExpr (.obj i (tyOf (Γ i) {}))) (tyOf (Γ i) {}) = pure (asExpr (.obj i (tyOf (Γ i) {}))) := by
    unfold prepareAssign prepareBool
    by_cases hb : (tyOf (Γ i) {}).of = .bool
    · rw [if_pos hb, if_pos (show (asExpr (.obj i (tyOf (Γ i) {}))).ty.of = .bool from hb)]
    · rw [if_neg hb]
      split
      · rename_i hid
        simp only [identity, asExpr, if_true, Option.some.injEq, reduceCtorEq] at hid
      · rw [if_pos (show (asExpr (.obj i (tyOf (Γ i) {}))).ty = tyOf (Γ i) {} from rfl)]
  obtain ⟨d, k⟩ := newTmp (n := n) (.inl (asExpr_holds (obj_holds (σ := σ) hf hi)))
  refine ⟨(), n + 1, _, _, ?_, by omega, d, k.vars⟩
  show R.bind (createVar (tyOf (Γ i) {})) (fun c => R.bind (prepareAssign (asExpr (.obj i (tyOf (Γ i) {}))) c.ty) fun e => irAssign c e) n = _
  simp only [R.bind, createVar, IVar.ty]
  rw [hp]
  rfl

theorem put_fit {ρ : Nat → Int} {i : Nat} {x : Int} (hf : Fit Γ N ρ) (ht : isInt (Γ i)) : Fit Γ N (put ρ i (conv (Γ i) x)) := by
  intro j hj
  unfold put
  split_ifs with h
  · subst h; exact Fold.conv_fits ht x
  · exact hf j hj

theorem opOf_up (up : Bool) : (if up = true then Fold.Op.add else Fold.Op.sub) = Fold.opOf (if up = true then .add else .sub) := by cases up <;> rfl

theorem lowerStm_sound {σ : Env} {n : Nat} {s : Stm} {ρ' : Nat → Int} (hf : Fit Γ N σ.vars) (ho : s.Ok N) (h : s.exec Γ σ.vars = some ρ') :
    Sound Γ N σ n (lowerStm Γ s) fun σ' _ _ => σ'.vars = ρ' ∧ Fit Γ N ρ' := by
  have int : ∀ i < N, isInt (Γ i) := fun i hi => Fold.fits_isInt (hf i hi)
  have one : ∀ (up : Bool) (i : Nat) (σ : Env) (n : Nat) (b : Basic) (z : Int), Fit Γ N σ.vars → i < N →
      Fold.Spec.binary (if up = true then .add else .sub) (Γ i) .int (σ.vars i) 1 = some (b, z) →
      Sound Γ N σ n (do
        let e ← evalBinary (if up then .add else .sub) (.obj i (tyOf (Γ i) {})) (varInt 1)
        evalAssign (.obj i (tyOf (Γ i) {})) e) fun σ' _ _ => σ'.vars = put σ.vars i (conv (Γ i) z) := by
    intro up i σ n b z hf hi h
    rw [opOf_up]
    refine .bind (evalBinary_sound (obj_holds hf hi) (varInt_holds ⟨_, _, rfl, by decide⟩) h) ?_
    rintro σ1 n1 e l1 ⟨k1, he⟩
    exact (evalAssign_sound he hi (int i hi)).weaken fun _ _ _ _ h => by rw [h, k1.vars]
  cases s with
  | assign i e =>
    obtain ⟨hi, ho⟩ := ho
    simp only [Stm.exec, Option.bind_eq_bind, Option.bind_eq_some_iff, Prod.exists, Option.some.injEq] at h
    obtain ⟨b, x, h1, rfl⟩ := h
    refine .bind (lower_sound e hf ho h1) ?_
    rintro σ1 n1 e1 l1 ⟨k1, he⟩
    exact (evalAssign_sound he hi (int i hi)).weaken fun _ _ _ _ h => ⟨by rw [h, k1.vars], put_fit hf (int i hi)⟩
  | update op i e =>
    obtain ⟨hi, ho⟩ := ho
    simp only [Stm.exec, Option.bind_eq_bind, Option.bind_eq_some_iff, Prod.exists, Option.some.injEq] at h
    obtain ⟨b, y, h1, t, z, h2, rfl⟩ := h
    refine .bind (lower_sound e hf ho h1) ?_
    rintro σ1 n1 e1 l1 ⟨k1, he⟩
    refine .bind (eval_sound he) ?_
    rintro σ2 n2 v l2 ⟨k2, hv⟩
    have k := k1.trans k2 l1
    rw [foldOp_spec]
    refine .bind (evalBinary_sound (obj_holds (by rw [k.vars]; exact hf) hi) hv (by rw [k.vars]; exact h2)) ?_
    rintro σ3 n3 e3 l3 ⟨k3, he3⟩
    exact (evalAssign_sound he3 hi (int i hi)).weaken fun _ _ _ _ h => ⟨by rw [h, k3.vars, k.vars], put_fit hf (int i hi)⟩
  | pre up i =>
    simp only [Stm.exec, Option.bind_eq_bind, Option.bind_eq_some_iff, Prod.exists, Option.some.injEq] at h
    obtain ⟨b, z, h1, rfl⟩ := h
    exact (one up i σ n b z hf ho h1).weaken fun _ _ _ _ h => ⟨h, put_fit hf (int i ho)⟩
  | post up i =>
    simp only [Stm.exec, Option.bind_eq_bind, Option.bind_eq_some_iff, Prod.exists, Option.some.injEq] at h
    obtain ⟨b, z, h1, rfl⟩ := h
    refine .bind (evalCopy_sound hf ho) ?_
    intro σ1 n1 _ l1 k1
    rw [← k1] at hf h1 ⊢
    exact (one up i σ1 n1 b z hf ho h1).weaken fun _ _ _ _ h => ⟨h, put_fit hf (int i ho)⟩

theorem lowerAll_sound : ∀ {prog : List Stm} {σ : Env} {n : Nat} {ρ' : Nat → Int}, Fit Γ N σ.vars → (∀ s ∈ prog, s.Ok N) →
    exec Γ σ.vars prog = some ρ' → Sound Γ N σ n (lowerAll Γ prog) fun σ' _ _ => σ'.vars = ρ' ∧ Fit Γ N ρ' := by
  intro prog
  induction prog with
  | nil =>
    intro σ n ρ' hf _ h
    simp only [exec, Option.some.injEq] at h
    subst h
    exact .pure ⟨rfl, hf⟩
  | cons s r ih =>
    intro σ n ρ' hf ho h
    simp only [exec, Option.bind_eq_some_iff] at h
    obtain ⟨ρ1, h1, h2⟩ := h
    refine .bind (lowerStm_sound hf (ho s List.mem_cons_self) h1) ?_
    rintro σ1 n1 _ l1 ⟨rfl, hf1⟩
    exact ih hf1 (fun s hs => ho s (List.mem_cons_of_mem _ hs)) h2

end Verif.Expr
