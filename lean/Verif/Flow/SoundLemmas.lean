import Verif.Flow.CodeLemmas

/-!
# Values and statements that do not branch
-/

namespace Verif.Flow

open Verif.Types.Spec (Basic)
open Verif.Fold (tyOf isInt isOpTy)
open Verif.Fold.Spec (conv fits)
open Verif.Cfg (V Act Prim truth)
open Verif.Expr

variable {Γ : Nat → Basic} {N : Nat}

/-! ### The state of the source, with the value of the last expression -/

/-- Expressions that do not branch, where variables have types `Γ`. -/
def LeafOf (_ : Nat → Basic) : Type := Leaf

/-- Values of variables, and the last value with its expression. -/
structure U where
  vars : Nat → Int
  last : Option (Leaf × Int)

def U.after (p : Leaf) (r : Option ((Nat → Int) × Int)) : Option U := r.map fun r => ⟨r.1, some (p, r.2)⟩

instance (Γ : Nat → Basic) : Prim (LeafOf Γ) where
  St := Option U
  act p u := u.bind fun w => U.after p (Src.run Γ w.vars (Leaf.src p))
  put p x u := u.bind fun w => U.after p (Src.put Γ x w.vars (Leaf.src p))
  val _ u := ((u.bind U.last).map Prod.snd).getD 0
  ok p u := ∀ w, u = some w → ∃ x, w.last = some (p, x)
  ok_act p u := by
    intro w h
    cases u with
    | none => cases h
    | some v =>
      simp only [Option.bind_some, U.after, Option.map_eq_some_iff] at h
      obtain ⟨r, _, rfl⟩ := h
      exact ⟨r.2, rfl⟩
  ok_put p n u := by
    intro w h
    cases u with
    | none => cases h
    | some v =>
      simp only [Option.bind_some, U.after, Option.map_eq_some_iff] at h
      obtain ⟨r, _, rfl⟩ := h
      exact ⟨r.2, rfl⟩

/-! ### Lowering -/

theorem does_above {n : Nat} {σ σ' : Env} {st : List Expr.Stmt} (h : Does Γ N n σ st σ') : ∀ k, n ≤ k → σ'.tmps k = σ.tmps k := by
  induction h with
  | nil => exact fun _ _ => rfl
  | var _ _ _ ih => exact ih
  | tmp hk _ _ ih =>
    intro j hj
    rw [ih j hj]
    simp only [Env.setTmp]
    rw [if_neg (by omega)]

theorem assign_sound {σ : Env} {n i : Nat} {e : IExp} {b : Basic} {x : Int} (h : EHolds Γ N n σ e b x) (hi : i < N) (ht : isInt (Γ i)) :
    Sound Γ N σ n (evalAssign (.obj i (tyOf (Γ i) {})) e) fun σ' _ _ => σ'.vars = put σ.vars i (conv (Γ i) x) ∧ ∀ k < n, σ'.tmps k = σ.tmps k := by
  refine .bind (prepareAssign_sound h ht) ?_
  rintro σ1 n1 e1 l1 ⟨k1, h1⟩
  exact ⟨(), n1, _, σ1.setVar i (conv (Γ i) x), rfl, Nat.le_refl _, .var hi h1 .nil, by simp only [Env.setVar, k1.vars], k1.tmps⟩

theorem copy_sound {σ : Env} {n i : Nat} (hf : Fit Γ N σ.vars) (hi : i < N) :
    Sound Γ N σ n (evalCopy (.obj i (tyOf (Γ i) {}))) fun σ' n' _ => n' = n + 1 ∧ σ'.vars = σ.vars ∧ σ'.tmps n = some (Γ i, σ.vars i) := by
  have hp : prepareAssign (asExpr (.obj i (tyOf (Γ i) {}))) (tyOf (Γ i) {}) = pure (asExpr (.obj i (tyOf (Γ i) {}))) := by
    unfold prepareAssign prepareBool
    by_cases hb : (tyOf (Γ i) {}).of = .bool
    · rw [if_pos hb, if_pos (show (asExpr (.obj i (tyOf (Γ i) {}))).ty.of = .bool from hb)]
    · rw [if_neg hb]
      split
      · rename_i hid
        simp only [identity, asExpr, if_true, Option.some.injEq, reduceCtorEq] at hid
      · rw [if_pos (show (asExpr (.obj i (tyOf (Γ i) {}))).ty = tyOf (Γ i) {} from rfl)]
  obtain ⟨d, k⟩ := newTmp (n := n) (.inl (asExpr_holds (obj_holds (σ := σ) hf hi)))
  refine ⟨(), n + 1, _, _, ?_, by omega, d, rfl, k.vars, by simp only [Env.setTmp, if_true]⟩
  show R.bind (createVar (tyOf (Γ i) {})) (fun c => R.bind (prepareAssign (asExpr (.obj i (tyOf (Γ i) {}))) c.ty) fun e => irAssign c e) n = _
  simp only [R.bind, createVar, IVar.ty]
  rw [hp]
  rfl

theorem post_sound {σ : Env} {n i : Nat} {up : Bool} {ρ' : Nat → Int} (hf : Fit Γ N σ.vars) (hi : i < N) (h : (Stm.post up i).exec Γ σ.vars = some ρ') :
    Sound Γ N σ n (lowerStm Γ (.post up i)) fun σ' n' _ => (σ'.vars = ρ' ∧ Fit Γ N ρ') ∧ n + 1 ≤ n' ∧ σ'.tmps n = some (Γ i, σ.vars i) := by
  have ht := Fold.fits_isInt (hf i hi)
  simp only [Stm.exec, Option.bind_eq_bind, Option.bind_eq_some_iff, Prod.exists, Option.some.injEq] at h
  obtain ⟨b, z, h1, rfl⟩ := h
  refine .bind (copy_sound hf hi) ?_
  rintro σ1 n1 _ l1 ⟨rfl, k1, hn⟩
  rw [opOf_up]
  refine .bind (evalBinary_sound (obj_holds (by rw [k1]; exact hf) hi) (varInt_holds ⟨_, _, rfl, by decide⟩) (by rw [k1]; exact h1)) ?_
  rintro σ2 n2 e l2 ⟨k2, he⟩
  refine (assign_sound he hi ht).weaken fun σ' n' _ l3 h => ⟨⟨by rw [h.1, k2.vars, k1], put_fit hf ht⟩, by omega, ?_⟩
  rw [h.2 n (by omega), k2.tmps n (by omega), hn]

theorem expOk_iff {e : Exp} : expOk N e = true ↔ e.Ok N := by
  induction e with
  | const b n =>
    simp only [expOk, Exp.Ok, fits]
    cases b.range with
    | none => simp
    | some r => obtain ⟨lo, hi⟩ := r; simp
  | var i => simp [expOk, Exp.Ok]
  | neg e ih => exact ih
  | compl e ih => exact ih
  | plus e ih => exact ih
  | lnot e ih => exact ih
  | cast b e ih => simp [expOk, Exp.Ok, ih, and_assoc]
  | bin op l r ihl ihr => simp [expOk, Exp.Ok, ihl, ihr]
  | rel op l r ihl ihr => simp [expOk, Exp.Ok, ihl, ihr]

theorem varying_some {e e' : IExp} (h : varying e = some e') : e' = e := by
  unfold varying at h
  split at h
  · cases h
  · cases h; rfl

/-- What does not branch. -/
theorem leaf_sound {σ : Env} {p : Leaf} {st : List Expr.Stmt} {n : Nat} {eo : Option IExp} {ρ' : Nat → Int} {x : Int} (hf : Fit Γ N σ.vars)
    (ho : p.ok N = true) (hl : lowered Γ p = some (st, n, eo)) (h : p.src.run Γ σ.vars = some (ρ', x)) :
    p.base ≤ n ∧ ∃ σ', Does Γ N n σ st σ' ∧ σ'.vars = ρ' ∧ Fit Γ N ρ' ∧ ∀ e, eo = some e → ∃ b, EHolds Γ N n σ' e b x := by
  obtain ⟨src, ev, base⟩ := p
  have stm : ∀ (s : Stm) (i : Nat), s.Ok N → i < N → src = .stm s → (∀ up j, s ≠ .post up j) → s.exec Γ σ.vars = some ρ' → x = ρ' i →
      (∀ st n, lowerStm Γ s base = some ((), n, st) → lowered Γ ⟨src, ev, base⟩ = some (st, n, assigned i (tyOf (Γ i) {}) st)) →
      base ≤ n ∧ ∃ σ', Does Γ N n σ st σ' ∧ σ'.vars = ρ' ∧ Fit Γ N ρ' ∧ ∀ e, eo = some e → ∃ b, EHolds Γ N n σ' e b x := by
    rintro s i hs hi rfl _ he rfl hlow
    obtain ⟨_, n1, st1, σ1, e1, l1, d1, rfl, hf1⟩ := lowerStm_sound (n := base) hf hs he
    rw [hlow _ _ e1] at hl
    simp only [Option.some.injEq, Prod.mk.injEq] at hl
    obtain ⟨rfl, rfl, rfl⟩ := hl
    refine ⟨l1, σ1, d1, rfl, hf1, ?_⟩
    intro e he
    unfold assigned at he
    split at he
    · simp only [Option.map_eq_some_iff] at he
      obtain ⟨_, _, rfl⟩ := he
      exact ⟨_, asExpr_holds (obj_holds hf1 hi)⟩
    · cases he
  cases src with
  | hole i => simp [Src.run] at h
  | pure e =>
    simp only [Src.run, Option.map_eq_some_iff, Prod.mk.injEq] at h
    obtain ⟨⟨b, x'⟩, h1, rfl, rfl⟩ := h
    obtain ⟨e1, n1, st1, σ1, g1, l1, d1, k1, h1⟩ := lower_sound (n := base) e hf (expOk_iff.mp ho) h1
    simp only [lowered, g1] at hl
    cases ev with
    | false =>
      simp only [Bool.false_eq_true, if_false, Option.some.injEq, Prod.mk.injEq] at hl
      obtain ⟨rfl, rfl, rfl⟩ := hl
      refine ⟨l1, σ1, d1, k1.vars, hf, ?_⟩
      intro e' he
      rw [varying_some he]
      exact ⟨b, h1⟩
    | true =>
      obtain ⟨v, n2, st2, σ2, g2, l2, d2, k2, h2⟩ := eval_sound h1
      simp only [if_true, g2, Option.some.injEq, Prod.mk.injEq] at hl
      obtain ⟨rfl, rfl, rfl⟩ := hl
      refine ⟨Nat.le_trans l1 l2, σ2, (d1.mono l2).append d2, (k2.vars.trans k1.vars), hf, ?_⟩
      intro e' he
      rw [varying_some he]
      exact ⟨b, asExpr_holds h2⟩
  | stm s =>
    simp only [Src.run, Option.map_eq_some_iff, Prod.mk.injEq] at h
    obtain ⟨ρ1, h1, rfl, hx⟩ := h
    cases s with
    | assign i e =>
      simp only [Leaf.ok, Bool.and_eq_true, decide_eq_true_eq, expOk_iff] at ho
      exact stm (.assign i e) i ho ho.1 rfl (by simp) h1 hx.symm (fun st n e => by simp only [lowered, e])
    | update op i e =>
      simp only [Leaf.ok, Bool.and_eq_true, decide_eq_true_eq, expOk_iff] at ho
      exact stm (.update op i e) i ho ho.1 rfl (by simp) h1 hx.symm (fun st n e => by simp only [lowered, e])
    | pre up i =>
      simp only [Leaf.ok, decide_eq_true_eq] at ho
      exact stm (.pre up i) i ho ho rfl (by simp) h1 hx.symm (fun st n e => by simp only [lowered, e])
    | post up i =>
      simp only [Leaf.ok, decide_eq_true_eq] at ho
      obtain ⟨_, n1, st1, σ1, e1, l1, d1, ⟨rfl, hf1⟩, l2, ht⟩ := post_sound (n := base) hf ho h1
      simp only [lowered, e1, Option.some.injEq, Prod.mk.injEq] at hl
      obtain ⟨rfl, rfl, rfl⟩ := hl
      refine ⟨l1, σ1, d1, rfl, hf1, ?_⟩
      intro e he
      simp only [Option.some.injEq] at he
      subst he
      simp only at hx
      subst hx
      exact ⟨Γ i, asExpr_holds ⟨rfl, hf i ho, by omega, ht⟩⟩

/-! ### Values in the graph -/

theorem comparison_value {n : Nat} {σ : Env} {e : IExp} {b : Basic} {x : Int} (h : EHolds Γ N n σ e b x) (hc : isComparison e = true) :
    b = .int ∧ (x = 0 ∨ x = 1) := by
  cases h with
  | same h => cases hc
  | conv h _ _ _ _ => cases hc
  | not h _ => cases hc
  | @arith op o l r _ _ _ _ _ ho _ _ _ _ _ =>
    cases op <;> first | (cases hc; done) | (cases ho; done)
  | rel ho ha hl hr =>
    refine ⟨rfl, ?_⟩
    split_ifs <;> simp

theorem opposite_holds {n : Nat} {σ : Env} {e e' : IExp} {b : Basic} {x : Int} (h : EHolds Γ N n σ e b x) (hc : isComparison e = true)
    (ho : opposite e = some e') : EHolds Γ N n σ e' .int (if x = 0 then 1 else 0) := by
  have hp : evalNegation e n = some (e', n, []) := by
    unfold opposite at ho
    split at ho <;> cases ho <;> rfl
  obtain ⟨a, n', st, σ', h1, h2, h3, h4, h5⟩ := evalNegation_sound h
  rw [hp] at h1
  simp only [Option.some.injEq, Prod.mk.injEq] at h1
  obtain ⟨rfl, rfl, rfl⟩ := h1
  cases h3
  exact h5

theorem opTy_some {t : Types.Ty} {b : Basic} (h : opTy t = some b) : t = tyOf b {} ∧ isOpTy b := by
  unfold opTy at h
  have h1 := List.find?_some h
  have h2 := List.mem_of_find?_eq_some h
  simp only [decide_eq_true_eq] at h1
  refine ⟨h1.symm, ?_⟩
  simp only [List.mem_cons, List.not_mem_nil, or_false] at h2
  exact h2

theorem opTy_isOp {b : Basic} (h : (opTy (tyOf b {})).isSome = true) : isOpTy b := by
  obtain ⟨c, hc⟩ := Option.isSome_iff_exists.mp h
  obtain ⟨h1, h2⟩ := opTy_some hc
  rw [tyOf_inj h1]
  exact h2

theorem plain_holds {n : Nat} {σ : Env} {f : R IExp} {e : IExp} {b : Basic} {x : Int}
    (h : Sound Γ N σ n f fun σ' n' e => Keep n σ σ' ∧ EHolds Γ N n' σ' e b x) (hp : plain n (f n) = some e) : EHolds Γ N n σ e b x := by
  obtain ⟨a, n', st, σ', h1, h2, h3, h4, h5⟩ := h
  rw [h1] at hp
  cases st with
  | cons _ _ => cases hp
  | nil =>
    cases h3
    simp only [plain] at hp
    split_ifs at hp with hn
    cases hp
    rw [← hn]
    exact hn ▸ h5

theorem common_int {b : Basic} (h : isOpTy b) : Basic.int.common b = b ∧ b.common .int = b := by
  rcases h with rfl | rfl | rfl | rfl <;> exact ⟨rfl, rfl⟩

theorem conv_small {b : Basic} {n : Int} (h : isOpTy b) (hn : -2147483648 ≤ n ∧ n ≤ 2147483647 ∧ (b.isSigned = true ∨ 0 ≤ n)) : conv b n = n := by
  refine Fold.conv_self ?_
  rcases h with rfl | rfl | rfl | rfl
  · exact ⟨_, _, rfl, by omega⟩
  · exact ⟨_, _, rfl, by rcases hn.2.2 with h | h; · cases h
                         · omega⟩
  · exact ⟨_, _, rfl, by omega⟩
  · exact ⟨_, _, rfl, by rcases hn.2.2 with h | h; · cases h
                         · omega⟩

theorem comparand_holds {n : Nat} {σ : Env} {e : Option IExp} {v : IVar} {c : Basic} (h : e.bind comparand = some (v, c)) :
    ∃ e', e = some e' ∧ identity e' = some v ∧ isOpTy c ∧ ∀ b x, EHolds Γ N n σ e' b x → VHolds Γ N n σ v c x := by
  rw [Option.bind_eq_some_iff] at h
  obtain ⟨e', rfl, h⟩ := h
  unfold comparand at h
  split at h
  · rename_i v' hv
    simp only [Option.map_eq_some_iff, Prod.mk.injEq] at h
    obtain ⟨c', h1, rfl, rfl⟩ := h
    obtain ⟨h2, h3⟩ := opTy_some h1
    refine ⟨e', rfl, hv, h3, ?_⟩
    intro b x he
    have := identity_holds he hv
    rw [this.ty] at h2
    rw [← tyOf_inj h2]
    exact this
  · cases h

end Verif.Flow
