import Verif.Call.Spec
import Verif.Expr.SoundLemmas

/-!
# Calls are made as the source says
-/

namespace Verif.Call

open Verif.Types (Ty defaultPromotion)
open Verif.Types.Spec (Basic)
open Verif.Fold (tyOf isInt)
open Verif.Fold.Spec (conv fits)
open Verif.Expr (IVar IExp Env VHolds EHolds AHolds Keep asExpr Fit)

variable {S : Type} {W : Decls} {F : Functions S} {N : Nat}

theorem Callee.At.type {n : Nat} {s : State S} {f : Nat} {c : Callee} (h : c.At W n s f) : c.type W = W.type f := by
  cases c with
  | name g => exact congrArg _ h
  | tmp k t => exact h.2.2.symm

theorem Callee.At.mono {n n' : Nat} {s s' : State S} {f : Nat} {c : Callee} (h : c.At W n s f) (hn : n ≤ n')
    (hs : ∀ k < n, s'.fns k = s.fns k) : c.At W n' s' f := by
  cases c with
  | name g => exact h
  | tmp k t => exact ⟨Nat.lt_of_lt_of_le h.1 hn, (hs k h.1).trans h.2.1, h.2.2⟩

theorem Holding.keep {n n' : Nat} {σ σ' : Env} {vs : List IVar} {xs : List (Basic × Int)} (h : Holding W N n σ vs xs) (k : Keep n σ σ')
    (hn : n ≤ n') : Holding W N n' σ' vs xs := by
  unfold Holding at h ⊢
  induction h with
  | nil => exact .nil
  | cons h _ ih => exact .cons (h.keep k hn) ih

theorem Lands.mono {M M' : Nat} {s s' : State S} {t : Target} {v : Val} (h : Lands W N M s t v s') (hM : M ≤ M') : Lands W N M' s t v s' := by
  cases h with
  | none => exact .none
  | obj hi => exact .obj hi
  | tmp hk => exact .tmp (by omega)
  | fn hk => exact .fn (by omega)

theorem Runs.mono {M M' : Nat} {s s' : State S} {st : List CStmt} (h : Runs W F N M s st s') (hM : M ≤ M') : Runs W F N M' s st s' := by
  induction h with
  | nil => exact .nil
  | plain h _ ih => exact .plain (h.mono hM) ih
  | param _ ih => exact .param ih
  | call hc ha hf hv ht _ ih =>
    exact .call (hc.mono hM fun _ _ => rfl) (ha.keep (Keep.refl _ _) hM) hf hv (ht.mono hM) ih

theorem Runs.append {M : Nat} {s s' s'' : State S} {st st' : List CStmt} (h : Runs W F N M s st s') (g : Runs W F N M s' st' s'') :
    Runs W F N M s (st ++ st') s'' := by
  induction h with
  | nil => exact g
  | plain h _ ih => exact .plain h (ih g)
  | param _ ih => exact .param (ih g)
  | call hc ha hf hv ht _ ih => exact .call hc ha hf hv ht (ih g)

theorem Runs.plains {M : Nat} {σ σ' : Env} {st : List Expr.Stmt} (h : Expr.Does W.vars N M σ st σ') : ∀ s : State S, s.σ = σ →
    Runs W F N M s (st.map .plain) { s with σ := σ' } := by
  induction h with
  | nil => rintro s rfl; exact .nil
  | var hi h _ ih => rintro s rfl; exact .plain (.var hi h .nil) (ih { s with σ := _ } rfl)
  | tmp hk h _ ih => rintro s rfl; exact .plain (.tmp hk h .nil) (ih { s with σ := _ } rfl)

/-- From this state, this succeeds with statements that can be executed, and then. -/
def Sound (W : Decls) (F : Functions S) (N : Nat) (s : State S) (p : PS) {α : Type} (f : P α) (Q : State S → PS → α → Prop) : Prop :=
  ∃ a p' st s', f p = some (a, p', st) ∧ p.n ≤ p'.n ∧ Runs W F N p'.n s st s' ∧ Q s' p' a

theorem Sound.pure {s : State S} {p : PS} {α : Type} {a : α} {Q : State S → PS → α → Prop} (h : Q s p a) :
    Sound W F N s p (Pure.pure a : P α) Q :=
  ⟨a, p, [], s, rfl, Nat.le_refl _, .nil, h⟩

theorem Sound.bind {s : State S} {p : PS} {α β : Type} {f : P α} {g : α → P β} {A : State S → PS → α → Prop} {Q : State S → PS → β → Prop}
    (h : Sound W F N s p f A) (hg : ∀ s' p' a, p.n ≤ p'.n → A s' p' a → Sound W F N s' p' (g a) Q) : Sound W F N s p (f >>= g) Q := by
  obtain ⟨a, p1, st1, s1, e1, l1, d1, q1⟩ := h
  obtain ⟨b, p2, st2, s2, e2, l2, d2, q2⟩ := hg s1 p1 a l1 q1
  refine ⟨b, p2, st1 ++ st2, s2, ?_, by omega, (d1.mono l2).append d2, q2⟩
  show P.bind f g p = _
  simp only [P.bind, e1, e2]

theorem Sound.weaken {s : State S} {p : PS} {α : Type} {f : P α} {A Q : State S → PS → α → Prop} (h : Sound W F N s p f A)
    (g : ∀ s' p' a, p.n ≤ p'.n → A s' p' a → Q s' p' a) : Sound W F N s p f Q := by
  obtain ⟨a, p1, st1, s1, e1, l1, d1, q1⟩ := h
  exact ⟨a, p1, st1, s1, e1, l1, d1, g _ _ _ l1 q1⟩

/-- Lists that are not in use are empty. -/
structure Clean (p : PS) : Prop where
  depth : p.depth ≤ p.lists.length
  rest : ∀ i, p.depth ≤ i → p.lists.getD i [] = []

/-- Only new temporaries are different, and lists that are not in use. -/
structure Step (s : State S) (p : PS) (s' : State S) (p' : PS) : Prop where
  le : p.n ≤ p'.n
  keep : Keep p.n s.σ s'.σ
  fns : ∀ k < p.n, s'.fns k = s.fns k
  depth : p'.depth = p.depth
  lists : ∀ i < p.depth, p'.lists.getD i [] = p.lists.getD i []
  clean : Clean p → Clean p'

theorem Step.refl (s : State S) (p : PS) : Step s p s p :=
  ⟨Nat.le_refl _, Keep.refl _ _, fun _ _ => rfl, rfl, fun _ _ => rfl, id⟩

theorem Step.trans {s s' s'' : State S} {p p' p'' : PS} (h : Step s p s' p') (g : Step s' p' s'' p'') : Step s p s'' p'' :=
  ⟨Nat.le_trans h.le g.le, h.keep.trans g.keep h.le, fun k hk => (g.fns k (Nat.lt_of_lt_of_le hk h.le)).trans (h.fns k hk),
    g.depth.trans h.depth, fun i hi => (g.lists i (by rw [h.depth]; exact hi)).trans (h.lists i hi), fun c => g.clean (h.clean c)⟩

/-- No parameter has been pushed, and the world is this. -/
structure Idle (s : State S) (w : S) : Prop where
  pending : s.pending = []
  w : s.w = w

theorem lift_sound {s : State S} {p : PS} {α : Type} {f : Expr.R α} {Q : Env → Nat → α → Prop} {w : S} (hi : Idle s w)
    (h : Expr.Sound W.vars N s.σ p.n f fun σ' n' a => Keep p.n s.σ σ' ∧ Q σ' n' a) :
    Sound W F N s p (lift f) fun s' p' a => Step s p s' p' ∧ Idle s' w ∧ Q s'.σ p'.n a := by
  obtain ⟨a, n', st, σ', e, l, d, k, q⟩ := h
  refine ⟨a, { p with n := n' }, st.map .plain, { s with σ := σ' }, ?_, l, Runs.plains d s rfl, ?_, ⟨hi.pending, hi.w⟩, q⟩
  · simp only [lift, e]
  · exact ⟨l, k, fun _ _ => rfl, rfl, fun _ _ => rfl, fun c => ⟨c.depth, c.rest⟩⟩

/-- What an expression will have, once it has been evaluated; the world is then `w`. -/
def Out (W : Decls) (F : Functions S) (N : Nat) (s : State S) (n : Nat) (e : CExp) (v : Val) (w : S) : Prop :=
  match e with
  | .plain e => Idle s w ∧ ∃ b x, v = .int b x ∧ EHolds W.vars N n s.σ e b x
  | .fn c => Idle s w ∧ ∃ f, v = .fn f ∧ c.At W n s f
  | .void => Idle s w ∧ v = .void
  | .call c => ∃ f xs y, c.At W n s f ∧ Holding W N n s.σ s.pending xs ∧ F f xs s.w = some (y, w) ∧ y.val W (W.sig (W.type f)).ret = some v

def VarHolds (W : Decls) (N : Nat) (s : State S) (n : Nat) : CVar → Val → Prop
  | .int v, x => ∃ b y, x = .int b y ∧ VHolds W.vars N n s.σ v b y
  | .fn c, x => ∃ f, x = .fn f ∧ c.At W n s f
  | .void, x => x = .void

theorem val_int {b : Basic} {y : Ans} {v : Val} (h : y.val W (.int b) = some v) : ∃ x, y = .int x ∧ v = .int b (conv b x) := by
  cases y <;> simp only [Ans.val, reduceCtorEq, Option.some.injEq] at h
  exact ⟨_, rfl, h.symm⟩

theorem val_void {y : Ans} {v : Val} (h : y.val W .void = some v) : v = .void := by
  cases y <;> simp only [Ans.val, reduceCtorEq, Option.some.injEq] at h
  exact h.symm

theorem val_fn {k : Nat} {y : Ans} {v : Val} (h : y.val W (.fn k) = some v) : ∃ f, v = .fn f ∧ W.type f = k := by
  cases y <;> simp only [Ans.val, reduceCtorEq, Option.ite_none_right_eq_some, Option.some.injEq] at h
  exact ⟨_, h.2.symm, h.1⟩

theorem newVar {s : State S} {p : PS} {b : Basic} {x : Int} {w : S} : Step s p { s with σ := s.σ.setTmp p.n b x, pending := [], w := w }
    { p with n := p.n + 1 } := by
  refine ⟨Nat.le_succ _, ⟨rfl, ?_⟩, fun _ _ => rfl, rfl, fun _ _ => rfl, fun c => ⟨c.depth, c.rest⟩⟩
  intro k hk
  simp only [Env.setTmp, if_neg (show k ≠ p.n by omega)]

theorem isInt_of {b : Basic} (h : b.isFloating = false) : isInt b := h

theorem evalC_sound (hW : W.Good) {s : State S} {p : PS} {e : CExp} {v : Val} {w : S} (h : Out W F N s p.n e v w) :
    Sound W F N s p (evalC W e) fun s' p' a => Step s p s' p' ∧ Idle s' w ∧ VarHolds W N s' p'.n a v := by
  cases e with
  | plain e =>
    obtain ⟨hi, b, x, rfl, he⟩ := h
    refine .bind (lift_sound hi (Expr.eval_sound he)) ?_
    rintro s1 p1 v l ⟨h1, h2, h3⟩
    exact .pure ⟨h1, h2, b, x, rfl, h3⟩
  | fn c =>
    obtain ⟨hi, f, rfl, hc⟩ := h
    exact .pure ⟨Step.refl _ _, hi, f, rfl, hc⟩
  | void =>
    obtain ⟨hi, rfl⟩ := h
    exact .pure ⟨Step.refl _ _, hi, rfl⟩
  | call c =>
    obtain ⟨f, xs, y, hc, ha, hf, hv⟩ := h
    have ht := hc.type
    unfold evalC
    simp only [ht]
    cases hr : (W.sig (W.type f)).ret with
    | int b =>
      have hv' := hv
      rw [hr] at hv'
      obtain ⟨x, rfl, rfl⟩ := val_int hv'
      refine ⟨.int (.tmp p.n (tyOf b {})), { p with n := p.n + 1 }, [.call (.var (.tmp p.n (tyOf b {}))) c], _, rfl, Nat.le_succ _,
        .call (hc.mono (Nat.le_succ _) fun _ _ => rfl) (ha.keep (Keep.refl _ _) (Nat.le_succ _)) hf hv (.tmp (Nat.lt_succ_self _)) .nil,
        newVar, ⟨rfl, rfl⟩, b, _, rfl, rfl, ?_, Nat.lt_succ_self _, ?_⟩
      · exact Fold.conv_fits (isInt_of (hW.ret _ _ hr)) x
      · simp only [Env.setTmp, if_true]
    | void =>
      have hv' := hv
      rw [hr] at hv'
      have := val_void hv'
      subst this
      exact ⟨.void, p, [.call .none c], _, rfl, Nat.le_refl _, .call hc ha hf hv .none .nil,
        ⟨Nat.le_refl _, Keep.refl _ _, fun _ _ => rfl, rfl, fun _ _ => rfl, id⟩, ⟨rfl, rfl⟩, rfl⟩
    | fn k =>
      have hv' := hv
      rw [hr] at hv'
      obtain ⟨g, rfl, hg⟩ := val_fn hv'
      refine ⟨.fn (.tmp p.n k), { p with n := p.n + 1 }, [.call (.fn p.n) c], _, rfl, Nat.le_succ _,
        .call (hc.mono (Nat.le_succ _) fun _ _ => rfl) (ha.keep (Keep.refl _ _) (Nat.le_succ _)) hf hv (.fn (Nat.lt_succ_self _)) .nil,
        ⟨Nat.le_succ _, Keep.refl _ _, ?_, rfl, fun _ _ => rfl, fun c => ⟨c.depth, c.rest⟩⟩, ⟨rfl, rfl⟩, g, rfl, Nat.lt_succ_self _, ?_, hg⟩
      · intro j hj
        exact if_neg (show j ≠ p.n by omega)
      · simp only [if_true]

theorem evalInt_sound (hW : W.Good) {s : State S} {p : PS} {e : CExp} {b : Basic} {x : Int} {w : S} (h : Out W F N s p.n e (.int b x) w) :
    Sound W F N s p (evalInt W e) fun s' p' a => Step s p s' p' ∧ Idle s' w ∧ VHolds W.vars N p'.n s'.σ a b x := by
  refine .bind (evalC_sound hW h) ?_
  rintro s1 p1 a l ⟨h1, h2, h3⟩
  cases a with
  | int v =>
    obtain ⟨b, x, e, h3⟩ := h3
    cases e
    exact .pure ⟨h1, h2, h3⟩
  | fn c => obtain ⟨_, e, _⟩ := h3; cases e
  | void => cases h3

/-- The same for what is assigned. -/
def OutA (W : Decls) (F : Functions S) (N : Nat) (s : State S) (n : Nat) (e : CExp) (b : Basic) (x : Int) (w : S) : Prop :=
  Out W F N s n e (.int b x) w ∨ ∃ i, e = .plain i ∧ Idle s w ∧ AHolds W.vars N n s.σ i b x

theorem AHolds.ty {n : Nat} {σ : Env} {e : IExp} {b : Basic} {x : Int} (h : AHolds W.vars N n σ e b x) : e.ty = tyOf b {} := by
  rcases h with h | ⟨rfl, op, o, l, r, rfl, _, h⟩
  · exact h.ty
  · rfl

theorem AHolds.fits {n : Nat} {σ : Env} {e : IExp} {b : Basic} {x : Int} (h : AHolds W.vars N n σ e b x) : fits b x := by
  rcases h with h | ⟨rfl, op, o, l, r, rfl, ho, h⟩
  · exact h.fits
  · generalize he : IExp.bin op Expr.intTy l r = e at h
    cases h with
    | same => cases he
    | conv => cases he
    | not => cases he
    | arith ho' hb hl hr ha hm =>
      cases he
      exfalso
      revert ho ho'
      cases op <;> simp [Expr.arithOp, Expr.compareOp]
    | rel ho ha hl hr => split_ifs <;> exact ⟨_, _, rfl, by decide⟩

theorem evalA_sound {σ : Env} {n : Nat} {e : IExp} {b : Basic} {x : Int} (h : AHolds W.vars N n σ e b x) :
    Expr.Sound W.vars N σ n (Expr.eval e) fun σ' n' v => Keep n σ σ' ∧ VHolds W.vars N n' σ' v b x := by
  rcases id h with h' | ⟨rfl, op, o, l, r, rfl, ho, h'⟩
  · exact Expr.eval_sound h'
  · obtain ⟨d, k⟩ := Expr.newTmp h
    refine ⟨.tmp n (tyOf .bool {}), n + 1, _, _, rfl, by omega, d, k, rfl, AHolds.fits h, by omega, ?_⟩
    simp only [Env.setTmp, if_true]

theorem prepareAssign_sound (hW : W.Good) {s : State S} {p : PS} {e : CExp} {b t : Basic} {x : Int} {w : S} (ht : isInt t)
    (h : Out W F N s p.n e (.int b x) w) :
    Sound W F N s p (prepareAssign W e (tyOf t {})) fun s' p' a => Step s p s' p' ∧ OutA W F N s' p'.n a t (conv t x) w := by
  cases e with
  | plain e =>
    obtain ⟨hi, b, x, e, he⟩ := h
    cases e
    refine .bind (lift_sound hi (Expr.prepareAssign_sound he ht)) ?_
    rintro s1 p1 v l ⟨h1, h2, h3⟩
    exact .pure ⟨h1, .inr ⟨v, rfl, h2, h3⟩⟩
  | fn c => obtain ⟨_, f, e, _⟩ := h; cases e
  | void => obtain ⟨_, e⟩ := h; cases e
  | call c =>
    have h0 := h
    obtain ⟨f, xs, y, hc, ha, hf, hv⟩ := h
    unfold prepareAssign
    simp only [hc.type]
    cases hr : (W.sig (W.type f)).ret with
    | void => rw [hr] at hv; have := val_void hv; cases this
    | fn k => rw [hr] at hv; obtain ⟨_, e, _⟩ := val_fn hv; cases e
    | int a =>
      rw [hr] at hv
      obtain ⟨z, rfl, e⟩ := val_int hv
      cases e
      have hfit := Fold.conv_fits (isInt_of (hW.ret _ _ hr)) z
      dsimp only
      by_cases hb : tyOf b {} = tyOf t {}
      · rw [if_pos hb]
        have := Expr.tyOf_inj hb
        subst this
        rw [Fold.conv_self hfit]
        exact .pure ⟨Step.refl _ _, .inl h0⟩
      · rw [if_neg hb]
        refine .bind (evalInt_sound hW h0) ?_
        rintro s1 p1 v l1 ⟨h1, h2, h3⟩
        have : Expr.Sound W.vars N s1.σ p1.n (if (tyOf t {}).of = .bool then Expr.prepareBool (asExpr v) else Expr.evalCast v (tyOf t {}))
            fun σ' n' e' => Keep p1.n s1.σ σ' ∧ AHolds W.vars N n' σ' e' t (conv t (conv b z)) := by
          split_ifs with hq
          · have := Expr.of_tyOf.mp hq
            subst this
            exact Expr.prepareBool_sound (Expr.asExpr_holds h3)
          · exact (Expr.evalCast_sound h3 ht (fun e => (hq (Expr.of_tyOf.mpr e)).elim)).weaken fun _ _ _ _ ⟨k, h⟩ => ⟨k, .inl h⟩
        refine .bind (lift_sound h2 this) ?_
        rintro s2 p2 e2 l2 ⟨h4, h5, h6⟩
        exact .pure ⟨h1.trans h4, .inr ⟨e2, rfl, h5, h6⟩⟩

theorem evalIntA_sound (hW : W.Good) {s : State S} {p : PS} {e : CExp} {b : Basic} {x : Int} {w : S} (h : OutA W F N s p.n e b x w) :
    Sound W F N s p (evalInt W e) fun s' p' a => Step s p s' p' ∧ Idle s' w ∧ VHolds W.vars N p'.n s'.σ a b x := by
  rcases h with h | ⟨i, rfl, hi, h⟩
  · exact evalInt_sound hW h
  · refine .bind (A := fun s' p' a => Step s p s' p' ∧ Idle s' w ∧ VarHolds W N s' p'.n a (.int b x)) ?_ ?_
    · refine .bind (lift_sound hi (evalA_sound h)) ?_
      rintro s1 p1 v l ⟨h1, h2, h3⟩
      exact .pure ⟨h1, h2, b, x, rfl, h3⟩
    · rintro s1 p1 a l ⟨h1, h2, h3⟩
      cases a with
      | int v =>
        obtain ⟨b, x, e, h3⟩ := h3
        cases e
        exact .pure ⟨h1, h2, h3⟩
      | fn c => obtain ⟨_, e, _⟩ := h3; cases e
      | void => cases h3

theorem prepareArg_sound (hW : W.Good) {s : State S} {p : PS} {e : CExp} {b t : Basic} {x : Int} {w : S} (ht : isInt t)
    (h : Out W F N s p.n e (.int b x) w) :
    Sound W F N s p (prepareArg W e (tyOf t {})) fun s' p' a => Step s p s' p' ∧ Idle s' w ∧ VHolds W.vars N p'.n s'.σ a t (conv t x) := by
  refine .bind (prepareAssign_sound hW ht h) ?_
  rintro s1 p1 v l ⟨h1, h2⟩
  exact (evalIntA_sound hW h2).weaken fun _ _ _ _ ⟨h3, h4, h5⟩ => ⟨h1.trans h3, h4, h5⟩

theorem promotion {b : Basic} (h : isInt b) : defaultPromotion (tyOf b {}) = .ok (tyOf b.promote {}) := by
  rcases Fold.isInt_cases h with h | h | h | h | h | h | h | h | h <;> subst h <;> decide

theorem out_int (hW : W.Good) {s : State S} {n : Nat} {e : CExp} {b : Basic} {x : Int} {w : S} (h : Out W F N s n e (.int b x) w) :
    e.intTy W = some (tyOf b {}) ∧ fits b x := by
  cases e with
  | plain e =>
    obtain ⟨hi, b, x, e, he⟩ := h
    cases e
    exact ⟨congrArg some he.ty, he.fits⟩
  | fn c => obtain ⟨_, f, e, _⟩ := h; cases e
  | void => obtain ⟨_, e⟩ := h; cases e
  | call c =>
    obtain ⟨f, xs, y, hc, ha, hf, hv⟩ := h
    unfold CExp.intTy
    simp only [hc.type]
    cases hr : (W.sig (W.type f)).ret with
    | void => rw [hr] at hv; have := val_void hv; cases this
    | fn k => rw [hr] at hv; obtain ⟨_, e, _⟩ := val_fn hv; cases e
    | int a =>
      rw [hr] at hv
      obtain ⟨z, rfl, e⟩ := val_int hv
      cases e
      exact ⟨rfl, Fold.conv_fits (isInt_of (hW.ret _ _ hr)) z⟩

theorem prepareVararg_sound (hW : W.Good) {s : State S} {p : PS} {e : CExp} {b : Basic} {x : Int} {w : S}
    (h : Out W F N s p.n e (.int b x) w) :
    Sound W F N s p (prepareVararg W e) fun s' p' a => Step s p s' p' ∧ Idle s' w ∧ VHolds W.vars N p'.n s'.σ a b.promote x := by
  obtain ⟨h1, h2⟩ := out_int hW h
  have hb := Fold.fits_isInt h2
  have hp := Fold.promote_fits hb h2
  have h3 := prepareArg_sound hW (Fold.fits_isInt hp) h
  rw [Fold.conv_self hp] at h3
  unfold prepareVararg
  rw [h1]
  dsimp only
  rw [promotion hb]
  refine .bind (A := fun s' p' a => s' = s ∧ p' = p ∧ a = tyOf b.promote {}) ?_ ?_
  · exact ⟨_, p, [], s, rfl, Nat.le_refl _, .nil, rfl, rfl, rfl⟩
  · rintro _ _ _ _ ⟨rfl, rfl, rfl⟩
    exact h3

theorem negation_sound (hW : W.Good) {s : State S} {p : PS} {e : CExp} {b : Basic} {x : Int} {w : S} (h : Out W F N s p.n e (.int b x) w) :
    Sound W F N s p (negation W e) fun s' p' a => Step s p s' p' ∧ (Out W F N s' p'.n a (.int .int (if x = 0 then 1 else 0)) w ∧ ∀ c, a ≠ .call c) := by
  have other : Sound W F N s p (do
      let v ← evalInt W e
      let e ← lift (Expr.evalBinary .eq (Expr.varInt 0) v)
      pure (.plain e) : P CExp) fun s' p' a => Step s p s' p' ∧ (Out W F N s' p'.n a (.int .int (if x = 0 then 1 else 0)) w ∧ ∀ c, a ≠ .call c) := by
    refine .bind (evalInt_sound hW h) ?_
    rintro s1 p1 v l1 ⟨h1, h2, h3⟩
    have h4 := Expr.evalNegation_sound (Expr.asExpr_holds h3)
    have he : Expr.evalNegation (asExpr v) = Expr.evalBinary .eq (Expr.varInt 0) v := by
      show (Expr.eval (asExpr v) >>= fun v => Expr.evalBinary .eq (Expr.varInt 0) v) = _
      have : Expr.eval (asExpr v) = pure v := by
        unfold Expr.eval
        simp only [Expr.identity, asExpr, if_true]
      rw [this, Expr.pure_bind]
    rw [he] at h4
    refine .bind (lift_sound h2 h4) ?_
    rintro s2 p2 e2 l2 ⟨h5, h6, h7⟩
    exact .pure ⟨h1.trans h5, ⟨h6, _, _, rfl, h7⟩, fun _ => nofun⟩
  cases e with
  | plain e =>
    obtain ⟨hi, b, x, e, he⟩ := h
    cases e
    refine .bind (lift_sound hi (Expr.evalNegation_sound he)) ?_
    rintro s2 p2 e2 l2 ⟨h5, h6, h7⟩
    exact .pure ⟨h5, ⟨h6, _, _, rfl, h7⟩, fun _ => nofun⟩
  | fn c => exact other
  | void => exact other
  | call c => exact other

theorem discard_sound (hW : W.Good) {s : State S} {p : PS} {e : CExp} {v : Val} {w : S} (h : Out W F N s p.n e v w) :
    Sound W F N s p (discard W e) fun s' p' _ => Step s p s' p' ∧ Idle s' w := by
  cases e with
  | plain e => exact .pure ⟨Step.refl _ _, h.1⟩
  | fn c => exact .pure ⟨Step.refl _ _, h.1⟩
  | void => exact .pure ⟨Step.refl _ _, h.1⟩
  | call c =>
    refine .bind (evalC_sound hW h) ?_
    rintro s1 p1 a l ⟨h1, h2, _⟩
    exact .pure ⟨h1, h2⟩

end Verif.Call
