import Verif.Call.Lemmas

/-!
# Whole expressions with calls
-/

namespace Verif.Call

open Verif.Types (Ty)
open Verif.Types.Spec (Basic)
open Verif.Fold (tyOf isInt)
open Verif.Fold.Spec (conv fits)
open Verif.Expr (IVar IExp Env VHolds EHolds AHolds Keep asExpr Fit put)

variable {S : Type} {W : Decls} {F : Functions S} {N : Nat}

/-- While the arguments for list `d` are read: the lists below stay, and this one has more. -/
structure Adds (d : Nat) (s : State S) (p : PS) (s' : State S) (p' : PS) (more : List IVar) : Prop where
  le : p.n ≤ p'.n
  keep : Keep p.n s.σ s'.σ
  fns : ∀ k < p.n, s'.fns k = s.fns k
  depth : p'.depth = p.depth
  lists : ∀ i < d, p'.lists.getD i [] = p.lists.getD i []
  list : p'.lists.getD d [] = p.lists.getD d [] ++ more
  clean : Clean p'

theorem getD_modify {l : List (List IVar)} {d i : Nat} {v : IVar} (hd : d < l.length) :
    (l.modify d (· ++ [v])).getD i [] = if i = d then l.getD d [] ++ [v] else l.getD i [] := by
  simp only [List.getD_eq_getElem?_getD, List.getElem?_modify]
  by_cases h : i = d
  · subst h
    simp [List.getElem?_eq_getElem hd]
  · simp [h, Ne.symm h]

theorem Step.adds {d : Nat} {s s' : State S} {p p' : PS} (h : Step s p s' p') (hd : d < p.depth) (hc : Clean p) : Adds d s p s' p' [] :=
  ⟨h.le, h.keep, h.fns, h.depth, fun i hi => h.lists i (by omega), by rw [h.lists d hd, List.append_nil], h.clean hc⟩

theorem Adds.trans {d : Nat} {s s' s'' : State S} {p p' p'' : PS} {a b : List IVar} (h : Adds d s p s' p' a) (g : Adds d s' p' s'' p'' b) :
    Adds d s p s'' p'' (a ++ b) :=
  ⟨Nat.le_trans h.le g.le, h.keep.trans g.keep h.le, fun k hk => (g.fns k (Nat.lt_of_lt_of_le hk h.le)).trans (h.fns k hk),
    g.depth.trans h.depth, fun i hi => (g.lists i hi).trans (h.lists i hi), by rw [g.list, h.list, List.append_assoc], g.clean⟩

theorem pushArg_sound {d : Nat} {v : IVar} {s : State S} {p : PS} (hd : d < p.depth) (hc : Clean p) :
    Sound W F N s p (pushArg d v) fun s' p' _ => s' = s ∧ p'.n = p.n ∧ Adds d s p s' p' [v] := by
  have hl := hc.depth
  refine ⟨(), _, [], s, rfl, Nat.le_refl _, .nil, rfl, rfl, Nat.le_refl _, Keep.refl _ _, fun _ _ => rfl, rfl, ?_, ?_, ?_, ?_⟩
  · intro i hi
    dsimp only
    rw [getD_modify (by omega), if_neg (by omega)]
  · dsimp only
    rw [getD_modify (by omega), if_pos rfl]
  · dsimp only
    rw [List.length_modify]
    exact hl
  · intro i hi
    dsimp only at hi ⊢
    rw [getD_modify (by omega), if_neg (by omega)]
    exact hc.rest i hi

theorem params_run {M : Nat} : ∀ {vs : List IVar} {s : State S},
    Runs W F N M s (vs.map .param) { s with pending := s.pending ++ vs } := by
  intro vs
  induction vs with
  | nil => intro s; rw [List.append_nil]; exact .nil
  | cons v r ih =>
    intro s
    refine .param ?_
    have := @ih { s with pending := s.pending ++ [v] }
    rw [show s.pending ++ v :: r = (s.pending ++ [v]) ++ r by rw [List.append_assoc]; rfl]
    exact this

/-- A call, whose function is known, and whose arguments can be read. -/
theorem call_sound {s : State S} {p : PS} {c : Callee} {f : Nat} {a : Args} {xs : List (Basic × Int)} {y : Ans} {v : Val} {w w' : S}
    (hp : Clean p) (hc : c.At W p.n s f)
    (ha : ∀ d (p' : PS), d < p'.depth → Clean p' → p'.n = p.n → p'.lists.getD d [] = [] →
      Sound W F N s p' (lowerArgs W d (W.sig (W.type f)).params (W.sig (W.type f)).more a) fun s' p'' _ =>
        ∃ vs, Adds d s p' s' p'' vs ∧ Idle s' w ∧ Holding W N p''.n s'.σ vs xs)
    (hf : F f xs w = some (y, w')) (hv : y.val W (W.sig (W.type f)).ret = some v) :
    Sound W F N s p (do
      let d ← pushList
      lowerArgs W d (W.sig (W.type f)).params (W.sig (W.type f)).more a
      finishCall W d (.fn c)) fun s' p' e => Step s p s' p' ∧ Out W F N s' p'.n e v w' := by
  have hpush : Sound W F N s p pushList fun s' p' d => s' = s ∧ d = p.depth ∧ p'.n = p.n ∧ p'.depth = p.depth + 1 ∧ Clean p' ∧
      ∀ i, p'.lists.getD i [] = p.lists.getD i [] := by
    have hl := hp.depth
    unfold pushList
    by_cases h : p.depth = p.lists.length
    · have hsame : ∀ i, (p.lists ++ [[]]).getD i [] = p.lists.getD i [] := by
        intro i
        simp only [List.getD_eq_getElem?_getD, List.getElem?_append]
        split_ifs with hi
        · rfl
        · rw [List.getElem?_eq_none (by omega : p.lists.length ≤ i)]
          generalize i - p.lists.length = j
          cases j with
          | zero => rfl
          | succ j => rfl
      refine ⟨p.depth, { p with lists := p.lists ++ [[]], depth := p.depth + 1 }, [], s, if_pos h, Nat.le_refl _, .nil, rfl, rfl, rfl, rfl, ⟨?_, ?_⟩, hsame⟩
      · simp only [List.length_append, List.length_cons, List.length_nil]; omega
      · intro i hi
        exact (hsame i).trans (hp.rest i (by dsimp only at hi; omega))
    · refine ⟨p.depth, { p with depth := p.depth + 1 }, [], s, if_neg h, Nat.le_refl _, .nil, rfl, rfl, rfl, rfl, ⟨?_, ?_⟩, fun _ => rfl⟩
      · dsimp only; omega
      · intro i hi
        exact hp.rest i (by dsimp only at hi; omega)
  refine .bind hpush ?_
  rintro _ p1 _ l1 ⟨rfl, rfl, n1, d1, c1, e1⟩
  refine .bind (ha p.depth p1 (by omega) c1 n1 (by rw [e1]; exact hp.rest _ (Nat.le_refl _))) ?_
  rintro s2 p2 _ l2 ⟨vs, h2, hi2, hh⟩
  have hvs : p2.lists.getD p.depth [] = vs := by
    rw [h2.list, e1, hp.rest _ (Nat.le_refl _), List.nil_append]
  have hd2 : p2.depth = p.depth + 1 := h2.depth.trans d1
  have hc2 : c.At W p2.n { s2 with pending := vs } f := hc.mono (by omega) (fun k hk => h2.fns k (by omega))
  have hl2 := h2.clean.depth
  refine ⟨.call c, { p2 with lists := p2.lists.set (p2.depth - 1) [], depth := p2.depth - 1 }, vs.map .param, { s2 with pending := vs }, ?_, Nat.le_refl _, ?_, ?_, ?_⟩
  · unfold finishCall
    simp only [P.bind, pushParams, hvs, evalC, bind, pure, P.pure, popList, List.append_nil]
  · have := @params_run S W F N p2.n vs s2
    rw [hi2.pending, List.nil_append] at this
    exact this
  · have hset : ∀ i, (p2.lists.set (p2.depth - 1) []).getD i [] = if i = p.depth then [] else p2.lists.getD i [] := by
      intro i
      rw [show p2.depth - 1 = p.depth by omega]
      simp only [List.getD_eq_getElem?_getD, List.getElem?_set]
      by_cases h : p.depth = i
      · subst h
        simp [show p.depth < p2.lists.length by omega]
      · simp [h, Ne.symm h]
    refine ⟨by have := h2.le; dsimp only; omega, ⟨h2.keep.vars, fun k hk => h2.keep.tmps k (by omega)⟩, fun k hk => h2.fns k (by omega), ?_, ?_, ?_⟩
    · dsimp only; omega
    · intro i hi
      dsimp only
      rw [hset, if_neg (by omega), h2.lists i hi, e1]
    · intro _
      refine ⟨?_, ?_⟩
      · dsimp only
        rw [List.length_set]; omega
      · intro i hi
        dsimp only at hi ⊢
        rw [hset]
        split_ifs with h
        · rfl
        · exact h2.clean.rest i (by omega)
  · exact ⟨f, xs, y, hc2, hh, by rw [show ({ s2 with pending := vs } : State S).w = w from hi2.w]; exact hf, hv⟩

/-- An operand. -/
theorem operand (hW : W.Good) {s : State S} {p : PS} {f : P CExp} {b : Basic} {x : Int} {w : S} {α : Type} {g : IVar → P α}
    {Q : State S → PS → α → Prop} (h : Sound W F N s p f fun s' p' e => Step s p s' p' ∧ Out W F N s' p'.n e (.int b x) w)
    (hg : ∀ s' p' v, Step s p s' p' → Idle s' w → VHolds W.vars N p'.n s'.σ v b x → Sound W F N s' p' (g v) Q) :
    Sound W F N s p (do
      let e ← f
      let v ← evalInt W e
      g v) Q := by
  refine .bind h ?_
  rintro s1 p1 e l1 ⟨k1, h1⟩
  refine .bind (evalInt_sound hW h1) ?_
  rintro s2 p2 v l2 ⟨k2, i2, h2⟩
  exact hg s2 p2 v (k1.trans k2) i2 h2

theorem result {s : State S} {p : PS} {f : Expr.R IExp} {b : Basic} {x : Int} {w : S} (hi : Idle s w)
    (h : Expr.Sound W.vars N s.σ p.n f fun σ' n' e => Keep p.n s.σ σ' ∧ EHolds W.vars N n' σ' e b x) :
    Sound W F N s p (do
      let e ← lift f
      pure (.plain e)) fun s' p' e => Step s p s' p' ∧ Out W F N s' p'.n e (.int b x) w ∧ ∀ c, e ≠ .call c := by
  refine .bind (lift_sound hi h) ?_
  rintro s1 p1 e l ⟨h1, h2, h3⟩
  exact .pure ⟨h1, ⟨h2, _, _, rfl, h3⟩, fun _ => nofun⟩

theorem num_inv {v : Val} {b : Basic} {x : Int} (h : v.num = some (b, x)) : v = .int b x := by
  cases v <;> simp only [Val.num, reduceCtorEq, Option.some.injEq, Prod.mk.injEq] at h
  rw [h.1, h.2]

theorem function_inv {v : Val} {f : Nat} (h : v.function = some f) : v = .fn f := by
  cases v <;> simp only [Val.function, reduceCtorEq, Option.some.injEq] at h
  rw [h]

mutual
theorem lower_sound (hW : W.Good) : (e : CE) → ∀ {s : State S} {p : PS} {v : Val} {w : S}, Fit W.vars N s.σ.vars → Clean p → s.pending = [] →
    e.Ok N → e.value W F s.σ.vars s.w = some (v, w) →
    Sound W F N s p (lower W e) fun s' p' a => Step s p s' p' ∧ Out W F N s' p'.n a v w ∧ (e.isCall = false → ∀ c, a ≠ .call c)
  | .const b n, s, p, v, w, hf, hp, hi, ho, h => by
    simp only [CE.value, Option.some.injEq, Prod.mk.injEq] at h
    obtain ⟨rfl, rfl⟩ := h
    exact .pure ⟨Step.refl _ _, ⟨⟨hi, rfl⟩, _, _, rfl, Expr.asExpr_holds ⟨rfl, ho, rfl⟩⟩, fun _ _ => nofun⟩
  | .var i, s, p, v, w, hf, hp, hi, ho, h => by
    simp only [CE.value, Option.some.injEq, Prod.mk.injEq] at h
    obtain ⟨rfl, rfl⟩ := h
    exact .pure ⟨Step.refl _ _, ⟨⟨hi, rfl⟩, _, _, rfl, Expr.asExpr_holds (Expr.obj_holds hf ho)⟩, fun _ _ => nofun⟩
  | .name f, s, p, v, w, hf, hp, hi, ho, h => by
    simp only [CE.value, Option.some.injEq, Prod.mk.injEq] at h
    obtain ⟨rfl, rfl⟩ := h
    exact .pure ⟨Step.refl _ _, ⟨⟨hi, rfl⟩, _, rfl, rfl⟩, fun _ _ => nofun⟩
  | .neg e, s, p, v, w, hf, hp, hi, ho, h => by
    simp only [CE.value, Option.bind_eq_bind, Option.bind_eq_some_iff, Prod.exists, Option.some.injEq, Prod.mk.injEq] at h
    obtain ⟨v1, w1, h1, b, x, h2, t, z, h3, rfl, rfl⟩ := h
    cases num_inv h2
    refine operand hW ((lower_sound hW e hf hp hi ho h1).weaken fun _ _ _ _ h => ⟨h.1, h.2.1⟩) ?_
    intro s1 p1 v k1 i1 hv
    exact (result i1 (Expr.evalNeg_sound hv h3)).weaken fun _ _ _ _ h => ⟨k1.trans h.1, h.2.1, fun _ => h.2.2⟩
  | .compl e, s, p, v, w, hf, hp, hi, ho, h => by
    simp only [CE.value, Option.bind_eq_bind, Option.bind_eq_some_iff, Prod.exists, Option.some.injEq, Prod.mk.injEq] at h
    obtain ⟨v1, w1, h1, b, x, h2, rfl, rfl⟩ := h
    cases num_inv h2
    refine operand hW ((lower_sound hW e hf hp hi ho h1).weaken fun _ _ _ _ h => ⟨h.1, h.2.1⟩) ?_
    intro s1 p1 v k1 i1 hv
    exact (result i1 (Expr.evalNot_sound hv)).weaken fun _ _ _ _ h => ⟨k1.trans h.1, h.2.1, fun _ => h.2.2⟩
  | .plus e, s, p, v, w, hf, hp, hi, ho, h => by
    simp only [CE.value, Option.bind_eq_bind, Option.bind_eq_some_iff, Prod.exists, Option.some.injEq, Prod.mk.injEq] at h
    obtain ⟨v1, w1, h1, b, x, h2, rfl, rfl⟩ := h
    cases num_inv h2
    refine operand hW ((lower_sound hW e hf hp hi ho h1).weaken fun _ _ _ _ h => ⟨h.1, h.2.1⟩) ?_
    intro s1 p1 v k1 i1 hv
    exact (result i1 (Expr.evalPlus_sound hv)).weaken fun _ _ _ _ h => ⟨k1.trans h.1, h.2.1, fun _ => h.2.2⟩
  | .lnot e, s, p, v, w, hf, hp, hi, ho, h => by
    simp only [CE.value, Option.bind_eq_bind, Option.bind_eq_some_iff, Prod.exists, Option.some.injEq, Prod.mk.injEq] at h
    obtain ⟨v1, w1, h1, b, x, h2, rfl, rfl⟩ := h
    cases num_inv h2
    refine .bind (lower_sound hW e hf hp hi ho h1) ?_
    rintro s1 p1 a l1 ⟨k1, h3, _⟩
    exact (negation_sound hW h3).weaken fun _ _ _ _ h => ⟨k1.trans h.1, h.2.1, fun _ => h.2.2⟩
  | .cast t e, s, p, v, w, hf, hp, hi, ho, h => by
    simp only [CE.value, Option.bind_eq_bind, Option.bind_eq_some_iff, Prod.exists, Option.some.injEq, Prod.mk.injEq] at h
    obtain ⟨v1, w1, h1, b, x, h2, rfl, rfl⟩ := h
    cases num_inv h2
    obtain ⟨o1, o2, o3⟩ := ho
    refine operand hW ((lower_sound hW e hf hp hi o3 h1).weaken fun _ _ _ _ h => ⟨h.1, h.2.1⟩) ?_
    intro s1 p1 v k1 i1 hv
    exact (result i1 (Expr.evalCast_sound hv o1 (fun e => (o2 e).elim))).weaken fun _ _ _ _ h => ⟨k1.trans h.1, h.2.1, fun _ => h.2.2⟩
  | .bin op l r, s, p, v, w, hf, hp, hi, ho, h => by
    simp only [CE.value, Option.bind_eq_bind, Option.bind_eq_some_iff, Prod.exists, Option.some.injEq, Prod.mk.injEq] at h
    obtain ⟨v1, w1, h1, a, x, h2, v2, w2, h3, b, y, h4, t, z, h5, rfl, rfl⟩ := h
    cases num_inv h2
    cases num_inv h4
    refine operand hW ((lower_sound hW l hf hp hi ho.1 h1).weaken fun _ _ _ _ h => ⟨h.1, h.2.1⟩) ?_
    intro s1 p1 v k1 i1 hv
    have hvars := k1.keep.vars
    refine operand hW ((lower_sound hW r (by rw [hvars]; exact hf) (k1.clean hp) i1.pending ho.2 (by rw [hvars, i1.w]; exact h3)).weaken
      fun _ _ _ _ h => ⟨h.1, h.2.1⟩) ?_
    intro s2 p2 u k2 i2 hu
    rw [Expr.foldOp_spec]
    exact (result i2 (Expr.evalBinary_sound (hv.keep k2.keep k2.le) hu h5)).weaken fun _ _ _ _ h =>
      ⟨(k1.trans k2).trans h.1, h.2.1, fun _ => h.2.2⟩
  | .rel op l r, s, p, v, w, hf, hp, hi, ho, h => by
    simp only [CE.value, Option.bind_eq_bind, Option.bind_eq_some_iff, Prod.exists, Option.some.injEq, Prod.mk.injEq] at h
    obtain ⟨v1, w1, h1, a, x, h2, v2, w2, h3, b, y, h4, rfl, rfl⟩ := h
    cases num_inv h2
    cases num_inv h4
    refine operand hW ((lower_sound hW l hf hp hi ho.1 h1).weaken fun _ _ _ _ h => ⟨h.1, h.2.1⟩) ?_
    intro s1 p1 v k1 i1 hv
    have hvars := k1.keep.vars
    refine operand hW ((lower_sound hW r (by rw [hvars]; exact hf) (k1.clean hp) i1.pending ho.2 (by rw [hvars, i1.w]; exact h3)).weaken
      fun _ _ _ _ h => ⟨h.1, h.2.1⟩) ?_
    intro s2 p2 u k2 i2 hu
    exact (result i2 (Expr.evalRel_sound (hv.keep k2.keep k2.le) hu)).weaken fun _ _ _ _ h =>
      ⟨(k1.trans k2).trans h.1, h.2.1, fun _ => h.2.2⟩
  | .comma l r, s, p, v, w, hf, hp, hi, ho, h => by
    simp only [CE.value, Option.bind_eq_bind, Option.bind_eq_some_iff, Prod.exists] at h
    obtain ⟨v1, w1, h1, h2⟩ := h
    refine .bind (lower_sound hW l hf hp hi ho.1 h1) ?_
    rintro s1 p1 a l1 ⟨k1, h3, _⟩
    refine .bind (discard_sound hW h3) ?_
    rintro s2 p2 _ l2 ⟨k2, i2⟩
    have k := k1.trans k2
    have hvars := k.keep.vars
    exact (lower_sound hW r (by rw [hvars]; exact hf) (k.clean hp) i2.pending ho.2 (by rw [hvars, i2.w]; exact h2)).weaken
      fun _ _ _ _ h => ⟨k.trans h.1, h.2.1, h.2.2⟩
  | .call f a, s, p, v, w, hf, hp, hi, ho, h => by
    simp only [CE.value, Option.bind_eq_bind, Option.bind_eq_some_iff, Prod.exists, Option.some.injEq, Prod.mk.injEq] at h
    obtain ⟨v1, w1, h1, g, h2, xs, w2, h3, y, w3, h4, v2, h5, rfl, rfl⟩ := h
    cases function_inv h2
    obtain ⟨o1, o2, o3⟩ := ho
    refine .bind (lower_sound hW f hf hp hi o1 h1) ?_
    rintro s1 p1 root l1 ⟨k1, hr, hn⟩
    cases root with
    | plain e => obtain ⟨_, _, _, e, _⟩ := hr; cases e
    | void => cases hr.2
    | call c => exact (hn o2 c rfl).elim
    | fn c =>
      obtain ⟨i1, g', e, hc⟩ := hr
      cases e
      simp only [CExp.function, hc.type]
      have hvars := k1.keep.vars
      refine (call_sound (k1.clean hp) hc ?_ h4 h5).weaken fun _ _ _ _ h => ⟨k1.trans h.1, h.2, fun e => by cases e⟩
      intro d p' hd hcl hn' hempty
      exact args_sound hW a (by rw [hvars]; exact hf) hcl i1.pending hd (hW.params _) o3 (by rw [hvars, i1.w]; exact h3)

theorem args_sound (hW : W.Good) : (a : Args) → ∀ {s : State S} {p : PS} {d : Nat} {ps : List Basic} {more : Bool} {xs : List (Basic × Int)} {w : S},
    Fit W.vars N s.σ.vars → Clean p → s.pending = [] → d < p.depth → (∀ b ∈ ps, b.isFloating = false) → a.Ok N →
    a.values W F s.σ.vars ps more s.w = some (xs, w) →
    Sound W F N s p (lowerArgs W d ps more a) fun s' p' _ => ∃ vs, Adds d s p s' p' vs ∧ Idle s' w ∧ Holding W N p'.n s'.σ vs xs
  | .nil, s, p, d, ps, more, xs, w, hf, hp, hi, hd, hps, ho, h => by
    cases ps with
    | cons => simp only [Args.values, reduceCtorEq] at h
    | nil =>
      simp only [Args.values, Option.some.injEq, Prod.mk.injEq] at h
      obtain ⟨rfl, rfl⟩ := h
      exact .pure ⟨[], (Step.refl s p).adds hd hp, ⟨hi, rfl⟩, .nil⟩
  | .cons e r, s, p, d, ps, more, xs, w, hf, hp, hi, hd, hps, ho, h => by
    have rest : ∀ {s1 : State S} {p1 : PS} {qs : List Basic} {v : IVar} {b : Basic} {x : Int} {w1 : S} {ys : List (Basic × Int)},
        (∀ b ∈ qs, b.isFloating = false) → Step s p s1 p1 → Idle s1 w1 → VHolds W.vars N p1.n s1.σ v b x →
        r.values W F s.σ.vars qs more w1 = some (ys, w) →
        Sound W F N s1 p1 (do
          pushArg d v
          lowerArgs W d qs more r) fun s' p' _ => ∃ vs, Adds d s p s' p' vs ∧ Idle s' w ∧ Holding W N p'.n s'.σ vs ((b, x) :: ys) := by
      intro s1 p1 qs v b x w1 ys hqs k1 i1 hv hr
      have hd1 : d < p1.depth := by rw [k1.depth]; exact hd
      have a1 := k1.adds hd hp
      refine .bind (pushArg_sound hd1 a1.clean) ?_
      rintro _ p2 _ l2 ⟨rfl, n2, a2⟩
      have hvars := k1.keep.vars
      refine (args_sound hW r (by rw [hvars]; exact hf) a2.clean i1.pending (by rw [a2.depth]; exact hd1) hqs ho.2
        (by rw [hvars, i1.w]; exact hr)).weaken ?_
      rintro s3 p3 _ l3 ⟨vs, a3, i3, h3⟩
      refine ⟨v :: vs, (a1.trans a2).trans a3, i3, .cons ?_ h3⟩
      rw [← n2] at hv
      exact hv.keep a3.keep a3.le
    cases ps with
    | cons b ps =>
      simp only [Args.values, Option.bind_eq_bind, Option.bind_eq_some_iff, Prod.exists, Option.some.injEq, Prod.mk.injEq] at h
      obtain ⟨v1, w1, h1, b1, x, h2, ys, w2, h3, rfl, rfl⟩ := h
      cases num_inv h2
      refine .bind (lower_sound hW e hf hp hi ho.1 h1) ?_
      rintro s1 p1 a l1 ⟨k1, h4, _⟩
      refine .bind (prepareArg_sound hW (isInt_of (hps b List.mem_cons_self)) h4) ?_
      rintro s2 p2 v l2 ⟨k2, i2, hv⟩
      exact rest (fun b hb => hps b (List.mem_cons_of_mem _ hb)) (k1.trans k2) i2 hv h3
    | nil =>
      simp only [Args.values, Option.ite_none_right_eq_some, Option.bind_eq_bind, Option.bind_eq_some_iff, Prod.exists, Option.some.injEq,
        Prod.mk.injEq] at h
      obtain ⟨hm, v1, w1, h1, b1, x, h2, ys, w2, h3, rfl, rfl⟩ := h
      cases num_inv h2
      unfold lowerArgs
      rw [if_pos hm]
      refine .bind (lower_sound hW e hf hp hi ho.1 h1) ?_
      rintro s1 p1 a l1 ⟨k1, h4, _⟩
      refine .bind (prepareVararg_sound hW h4) ?_
      rintro s2 p2 v l2 ⟨k2, i2, hv⟩
      exact rest hps (k1.trans k2) i2 hv h3
end

/-! ## Statements -/

/-- Between statements. -/
structure Between (p : PS) (s : State S) (ρ : Nat → Int) (w : S) : Prop where
  clean : Clean p
  idle : Idle s w
  vars : s.σ.vars = ρ

theorem evalAssign_sound (hW : W.Good) {s : State S} {p : PS} {e : CExp} {b : Basic} {x : Int} {w : S} {i : Nat} (hi : i < N)
    (ht : isInt (W.vars i)) (hp : Clean p) (h : Out W F N s p.n e (.int b x) w) :
    Sound W F N s p (evalAssign W (.obj i (tyOf (W.vars i) {})) e) fun s' p' _ =>
      Between p' s' (put s.σ.vars i (conv (W.vars i) x)) w ∧ p'.depth = p.depth := by
  refine .bind (prepareAssign_sound hW ht h) ?_
  rintro s1 p1 a l1 ⟨k1, h1⟩
  have plain : ∀ {e : IExp}, Idle s1 w → AHolds W.vars N p1.n s1.σ e (W.vars i) (conv (W.vars i) x) →
      Sound W F N s1 p1 (emit (.plain ⟨.obj i (tyOf (W.vars i) {}), e⟩)) fun s' p' _ =>
        Between p' s' (put s.σ.vars i (conv (W.vars i) x)) w ∧ p'.depth = p.depth := by
    intro e hi1 he
    refine ⟨(), p1, _, _, rfl, Nat.le_refl _, .plain (.var hi he .nil) .nil, ⟨k1.clean hp, ⟨hi1.pending, hi1.w⟩, ?_⟩, k1.depth⟩
    simp only [Env.setVar, k1.keep.vars]
  rcases h1 with h1 | ⟨e, rfl, hi1, he⟩
  · cases a with
    | plain e =>
      obtain ⟨hi1, b, x, e, he⟩ := h1
      cases e
      exact plain hi1 (.inl he)
    | fn c => obtain ⟨_, _, e, _⟩ := h1; cases e
    | void => cases h1.2
    | call c =>
      obtain ⟨f, xs, y, hc, ha, hf, hv⟩ := h1
      refine ⟨(), p1, _, _, rfl, Nat.le_refl _, .call hc ha hf hv (.obj hi) .nil, ⟨k1.clean hp, ⟨rfl, rfl⟩, ?_⟩, k1.depth⟩
      simp only [Env.setVar, k1.keep.vars]
  · exact plain hi1 he

theorem lowerStm_sound (hW : W.Good) {s : State S} {p : PS} {t : Stm} {ρ : Nat → Int} {w : S} (hf : Fit W.vars N s.σ.vars) (hp : Clean p)
    (hi : s.pending = []) (ho : t.Ok N) (h : t.exec W F s.σ.vars s.w = some (ρ, w)) :
    Sound W F N s p (lowerStm W t) fun s' p' _ => (Between p' s' ρ w ∧ p'.depth = p.depth) ∧ Fit W.vars N ρ := by
  have int : ∀ i < N, isInt (W.vars i) := fun i hi => Fold.fits_isInt (hf i hi)
  cases t with
  | assign i e =>
    simp only [Stm.exec, Option.bind_eq_bind, Option.bind_eq_some_iff, Prod.exists, Option.some.injEq, Prod.mk.injEq] at h
    obtain ⟨v, w1, h1, b, x, h2, rfl, rfl⟩ := h
    cases num_inv h2
    refine .bind (lower_sound hW e hf hp hi ho.2 h1) ?_
    rintro s1 p1 a l1 ⟨k1, h3, _⟩
    refine (evalAssign_sound hW ho.1 (int i ho.1) (k1.clean hp) h3).weaken ?_
    rintro s2 p2 _ l2 ⟨h4, h5⟩
    rw [k1.keep.vars] at h4
    exact ⟨⟨h4, h5.trans k1.depth⟩, Expr.put_fit hf (int i ho.1)⟩
  | update op i e =>
    simp only [Stm.exec, Option.bind_eq_bind, Option.bind_eq_some_iff, Prod.exists, Option.some.injEq, Prod.mk.injEq] at h
    obtain ⟨v, w1, h1, b, x, h2, t, z, h3, rfl, rfl⟩ := h
    cases num_inv h2
    refine operand hW ((lower_sound hW e hf hp hi ho.2 h1).weaken fun _ _ _ _ h => ⟨h.1, h.2.1⟩) ?_
    intro s1 p1 v k1 i1 hv
    have hvars := k1.keep.vars
    rw [Expr.foldOp_spec]
    refine .bind (lift_sound i1 (Expr.evalBinary_sound (Expr.obj_holds (by rw [hvars]; exact hf) ho.1) hv (by rw [hvars]; exact h3))) ?_
    rintro s2 p2 e2 l2 ⟨k2, i2, h4⟩
    have h4' : Out W F N s2 p2.n (.plain e2) (.int t z) w1 := ⟨i2, _, _, rfl, h4⟩
    refine (evalAssign_sound hW ho.1 (int i ho.1) (k2.clean (k1.clean hp)) h4').weaken ?_
    rintro s3 p3 _ l3 ⟨h5, h6⟩
    rw [k2.keep.vars, hvars] at h5
    exact ⟨⟨h5, h6.trans (k2.depth.trans k1.depth)⟩, Expr.put_fit hf (int i ho.1)⟩
  | exp e =>
    simp only [Stm.exec, Option.bind_eq_bind, Option.bind_eq_some_iff, Prod.exists, Option.some.injEq, Prod.mk.injEq] at h
    obtain ⟨v, w1, h1, rfl, rfl⟩ := h
    refine .bind (lower_sound hW e hf hp hi ho h1) ?_
    rintro s1 p1 a l1 ⟨k1, h3, _⟩
    cases a with
    | plain e => exact .pure ⟨⟨⟨k1.clean hp, h3.1, k1.keep.vars⟩, k1.depth⟩, hf⟩
    | fn c => exact .pure ⟨⟨⟨k1.clean hp, h3.1, k1.keep.vars⟩, k1.depth⟩, hf⟩
    | void => exact .pure ⟨⟨⟨k1.clean hp, h3.1, k1.keep.vars⟩, k1.depth⟩, hf⟩
    | call c =>
      obtain ⟨f, xs, y, hc, ha, hf', hv⟩ := h3
      exact ⟨(), p1, _, _, rfl, Nat.le_refl _, .call hc ha hf' hv .none .nil, ⟨⟨k1.clean hp, ⟨rfl, rfl⟩, k1.keep.vars⟩, k1.depth⟩, hf⟩

theorem lowerAll_sound (hW : W.Good) : ∀ {prog : List Stm} {s : State S} {p : PS} {ρ : Nat → Int} {w : S}, Fit W.vars N s.σ.vars → Clean p →
    s.pending = [] → (∀ t ∈ prog, t.Ok N) → exec W F s.σ.vars prog s.w = some (ρ, w) →
    Sound W F N s p (lowerAll W prog) fun s' p' _ => Between p' s' ρ w ∧ p'.depth = p.depth := by
  intro prog
  induction prog with
  | nil =>
    intro s p ρ w hf hp hi _ h
    simp only [exec, Option.some.injEq, Prod.mk.injEq] at h
    obtain ⟨rfl, rfl⟩ := h
    exact .pure ⟨⟨hp, ⟨hi, rfl⟩, rfl⟩, rfl⟩
  | cons t r ih =>
    intro s p ρ w hf hp hi ho h
    simp only [exec, Option.bind_eq_bind, Option.bind_eq_some_iff, Prod.exists] at h
    obtain ⟨ρ1, w1, h1, h2⟩ := h
    refine .bind (lowerStm_sound hW hf hp hi (ho t List.mem_cons_self) h1) ?_
    rintro s1 p1 _ l1 ⟨⟨⟨hp1, i1, rfl⟩, hd⟩, hf1⟩
    exact (ih hf1 hp1 i1.pending (fun s hs => ho s (List.mem_cons_of_mem _ hs)) (by rw [i1.w]; exact h2)).weaken
      fun _ _ _ _ h => ⟨h.1, h.2.trans hd⟩

end Verif.Call
