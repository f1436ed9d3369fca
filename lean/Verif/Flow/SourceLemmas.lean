import Verif.Flow.FlatLemmas

/-!
# From expressions that may be undefined to the machine of the graph
-/

namespace Verif.Flow

open Verif.Types.Spec (Basic)
open Verif.Fold.Spec (conv fits)
open Verif.Cfg (Prim Expr Stmt Cont SState sstepWith sstep evalOpt findCase findDefault findLabel switchTo)
open Verif.Expr (put Fit put_fit Env)

variable {C : Ctx}

abbrev evalL (Γ : Nat → Basic) (e : Expr Leaf) (u : Option U) : Option U × Int := Cfg.Expr.eval (σ := LeafOf Γ) e u

theorem prim_value {p : Leaf} {eff cmp : Bool} {ρ ρ' : Nat → Int} {x : Int} (ho : exprOk C (.prim eff cmp p) = true) (hf : Fit C.Γ C.N ρ)
    (h : p.src.run C.Γ ρ = some (ρ', x)) : Fit C.Γ C.N ρ' ∧ (cmp = true → x = 0 ∨ x = 1) := by
  simp only [exprOk, Bool.and_eq_true] at ho
  obtain ⟨⟨h1, _⟩, h2⟩ := ho
  split at h2
  · rename_i st n eo hl
    simp only [Bool.and_eq_true, beq_iff_eq] at h2
    obtain ⟨_, σ', _, _, h3, h4⟩ := leaf_sound (σ := ⟨ρ, fun _ => none⟩) hf h1 hl h
    refine ⟨h3, ?_⟩
    intro hc
    rw [h2.2] at hc
    cases eo with
    | none => cases hc
    | some e =>
      obtain ⟨b, hb⟩ := h4 e rfl
      exact (comparison_value hb hc).2
  · cases h2

theorem source_eval : ∀ {e : Expr Leaf} {ρ ρ' : Nat → Int} {x : Int}, exprOk C e = true → Fit C.Γ C.N ρ → value C.Γ e ρ = some (ρ', x) → ∀ l,
    ∃ l', evalL C.Γ e (some ⟨ρ, l⟩) = (some ⟨ρ', l'⟩, x) ∧ Fit C.Γ C.N ρ' := by
  intro e
  induction e with
  | imm n =>
    intro ρ ρ' x _ hf h l
    cases h
    exact ⟨l, rfl, hf⟩
  | prim eff cmp p =>
    intro ρ ρ' x ho hf h l
    obtain ⟨h1, h2⟩ := prim_value ho hf h
    refine ⟨some (p, x), ?_, h1⟩
    have ha : Prim.act (σ := LeafOf C.Γ) p (some ⟨ρ, l⟩) = some ⟨ρ', some (p, x)⟩ := by
      show U.after p (p.src.run C.Γ ρ) = _
      rw [show p.src.run C.Γ ρ = some (ρ', x) from h]
      rfl
    have hv : Prim.val (σ := LeafOf C.Γ) p (some ⟨ρ', some (p, x)⟩ : Option U) = x := rfl
    simp only [evalL, Cfg.Expr.eval, ha, hv]
    cases cmp with
    | false => rfl
    | true => rcases h2 rfl with rfl | rfl <;> rfl
  | app cmp p e ih =>
    intro ρ ρ' x ho hf h l
    simp only [exprOk, Bool.and_eq_true, Bool.not_eq_true'] at ho
    obtain ⟨⟨hc, hp⟩, he⟩ := ho
    obtain ⟨⟨ρ1, y⟩, h1, h2⟩ := Option.bind_eq_some_iff.mp h
    obtain ⟨l1, e1, f1⟩ := ih he hf h1 l
    cases hs : p.src with
    | hole i =>
      rw [hs] at h2
      cases h2
      simp only [Leaf.ok, hs, decide_eq_true_eq] at hp
      refine ⟨some (p, conv (C.Γ i) y), ?_, put_fit f1 (Fold.fits_isInt (f1 i hp))⟩
      have ha : Prim.put (σ := LeafOf C.Γ) p y (some ⟨ρ1, l1⟩) = some ⟨put ρ1 i (conv (C.Γ i) y), some (p, conv (C.Γ i) y)⟩ := by
        show U.after p (p.src.put C.Γ y ρ1) = _
        rw [hs]; rfl
      subst hc
      simp only [evalL] at e1
      simp only [evalL, Cfg.Expr.eval, e1, ha]
      rfl
    | pure _ => rw [hs] at h2; cases h2
    | stm _ => rw [hs] at h2; cases h2
  | not e ih =>
    intro ρ ρ' x ho hf h l
    obtain ⟨⟨ρ1, y⟩, h1, h2⟩ := Option.map_eq_some_iff.mp h
    cases h2
    obtain ⟨l1, e1, f1⟩ := ih ho hf h1 l
    refine ⟨l1, ?_, f1⟩
    simp only [evalL] at e1
    simp only [evalL, Cfg.Expr.eval, e1]
  | and a b iha ihb =>
    intro ρ ρ' x ho hf h l
    simp only [exprOk, Bool.and_eq_true] at ho
    obtain ⟨⟨ρ1, y⟩, h1, h2⟩ := Option.bind_eq_some_iff.mp h
    obtain ⟨l1, e1, f1⟩ := iha ho.1 hf h1 l
    simp only [evalL] at e1
    dsimp only at h2
    by_cases hy : y = 0
    · rw [if_pos hy] at h2
      cases h2
      refine ⟨l1, ?_, f1⟩
      simp only [evalL, Cfg.Expr.eval, e1, if_pos hy]
    · rw [if_neg hy] at h2
      obtain ⟨⟨ρ2, z⟩, h3, h4⟩ := Option.map_eq_some_iff.mp h2
      cases h4
      obtain ⟨l2, e2, f2⟩ := ihb ho.2 f1 h3 l1
      simp only [evalL] at e2
      refine ⟨l2, ?_, f2⟩
      simp only [evalL, Cfg.Expr.eval, e1, if_neg hy, e2]
  | or a b iha ihb =>
    intro ρ ρ' x ho hf h l
    simp only [exprOk, Bool.and_eq_true] at ho
    obtain ⟨⟨ρ1, y⟩, h1, h2⟩ := Option.bind_eq_some_iff.mp h
    obtain ⟨l1, e1, f1⟩ := iha ho.1 hf h1 l
    simp only [evalL] at e1
    dsimp only at h2
    by_cases hy : y ≠ 0
    · rw [if_pos hy] at h2
      cases h2
      refine ⟨l1, ?_, f1⟩
      simp only [evalL, Cfg.Expr.eval, e1, if_pos hy]
    · rw [if_neg hy] at h2
      obtain ⟨⟨ρ2, z⟩, h3, h4⟩ := Option.map_eq_some_iff.mp h2
      cases h4
      obtain ⟨l2, e2, f2⟩ := ihb ho.2 f1 h3 l1
      simp only [evalL] at e2
      refine ⟨l2, ?_, f2⟩
      simp only [evalL, Cfg.Expr.eval, e1, if_neg hy, e2]
  | cond c a b ihc iha ihb =>
    intro ρ ρ' x ho hf h l
    simp only [exprOk, Bool.and_eq_true] at ho
    obtain ⟨⟨ρ1, y⟩, h1, h2⟩ := Option.bind_eq_some_iff.mp h
    obtain ⟨l1, e1, f1⟩ := ihc ho.1.1 hf h1 l
    simp only [evalL] at e1
    dsimp only at h2
    by_cases hy : y ≠ 0
    · rw [if_pos hy] at h2
      obtain ⟨l2, e2, f2⟩ := iha ho.1.2 f1 h2 l1
      simp only [evalL] at e2
      refine ⟨l2, ?_, f2⟩
      simp only [evalL, Cfg.Expr.eval, e1, if_pos hy, e2]
    · rw [if_neg hy] at h2
      obtain ⟨l2, e2, f2⟩ := ihb ho.2 f1 h2 l1
      simp only [evalL] at e2
      refine ⟨l2, ?_, f2⟩
      simp only [evalL, Cfg.Expr.eval, e1, if_neg hy, e2]
  | comma a b iha ihb =>
    intro ρ ρ' x ho hf h l
    simp only [exprOk, Bool.and_eq_true] at ho
    obtain ⟨⟨ρ1, y⟩, h1, h2⟩ := Option.bind_eq_some_iff.mp h
    obtain ⟨l1, e1, f1⟩ := iha ho.1 hf h1 l
    obtain ⟨l2, e2, f2⟩ := ihb ho.2 f1 h2 l1
    simp only [evalL] at e1 e2
    refine ⟨l2, ?_, f2⟩
    simp only [evalL, Cfg.Expr.eval, e1, e2]

theorem source_opt {e : Option (Expr Leaf)} {ρ ρ' : Nat → Int} (ho : optOk C e = true) (hf : Fit C.Γ C.N ρ)
    (h : evalOpt (value C.Γ) e ρ = some ρ') (l) :
    ∃ l', evalOpt (fun e u => some (evalL C.Γ e u)) e (some ⟨ρ, l⟩) = some (some ⟨ρ', l'⟩) ∧ Fit C.Γ C.N ρ' := by
  cases e with
  | none => cases h; exact ⟨l, rfl, hf⟩
  | some e =>
    obtain ⟨⟨ρ1, y⟩, h1, rfl⟩ := Option.map_eq_some_iff.mp h
    obtain ⟨l1, e1, f1⟩ := source_eval ho hf h1 l
    refine ⟨l1, ?_, f1⟩
    simp only [evalOpt, e1]; rfl

def contOk (C : Ctx) : Cont Leaf → Prop
  | .stop => True
  | .seq t k => stmtOk C t = true ∧ contOk C k
  | .whileK c s k => exprOk C c = true ∧ stmtOk C s = true ∧ contOk C k
  | .doK s c k => exprOk C c = true ∧ stmtOk C s = true ∧ contOk C k
  | .forK c n s k => optOk C c = true ∧ optOk C n = true ∧ stmtOk C s = true ∧ contOk C k
  | .switchK k => contOk C k

def stateOk (C : Ctx) : SState Leaf (Nat → Int) → Prop
  | .exec s k ρ => stmtOk C s = true ∧ contOk C k ∧ Fit C.Γ C.N ρ
  | .next k ρ | .again k ρ => contOk C k ∧ Fit C.Γ C.N ρ
  | .test c n s k ρ => optOk C c = true ∧ optOk C n = true ∧ stmtOk C s = true ∧ contOk C k ∧ Fit C.Γ C.N ρ
  | .done _ _ => True

def lift (l : Option (Leaf × Int)) : SState Leaf (Nat → Int) → SState Leaf (Option U)
  | .exec s k ρ => .exec s k (some ⟨ρ, l⟩)
  | .next k ρ => .next k (some ⟨ρ, l⟩)
  | .again k ρ => .again k (some ⟨ρ, l⟩)
  | .test c n s k ρ => .test c n s k (some ⟨ρ, l⟩)
  | .done ρ r => .done (some ⟨ρ, l⟩) r

theorem break_ok : ∀ {k k' : Cont Leaf}, contOk C k → k.break = some k' → contOk C k'
  | .stop, _, _, e => by cases e
  | .seq _ k, _, h, e => break_ok (k := k) h.2 e
  | .whileK _ _ _, _, h, e => by cases e; exact h.2.2
  | .doK _ _ _, _, h, e => by cases e; exact h.2.2
  | .forK _ _ _ _, _, h, e => by cases e; exact h.2.2.2
  | .switchK _, _, h, e => by cases e; exact h

theorem continue_ok : ∀ {k k' : Cont Leaf}, contOk C k → k.continue = some k' → contOk C k'
  | .stop, _, _, e => by cases e
  | .seq _ k, _, h, e => continue_ok (k := k) h.2 e
  | .whileK _ _ _, _, h, e => by cases e; exact h
  | .doK _ _ _, _, h, e => by cases e; exact h
  | .forK _ _ _ _, _, h, e => by cases e; exact h
  | .switchK k, _, h, e => continue_ok (k := k) h e

theorem find_ok (f : Stmt Leaf → Cont Leaf → Option (Stmt Leaf × Cont Leaf))
    (hseq : ∀ s t k, f (.seq s t) k = (f s (.seq t k)).or (f t k)) (hite : ∀ c s k, f (.ite c s) k = f s k)
    (helse : ∀ c s t k, f (.ifElse c s t) k = (f s k).or (f t k)) (hwhile : ∀ c s k, f (.while c s) k = f s (.whileK c s k))
    (hdo : ∀ s c k, f (.doWhile s c) k = f s (.doK s c k)) (hfor : ∀ i c n s k, f (.for i c n s) k = f s (.forK c n s k))
    (hlab : ∀ m s k, f (.label m s) k = some (s, k) ∨ f (.label m s) k = f s k) (hcase : ∀ m s k, f (.case m s) k = some (s, k) ∨ f (.case m s) k = f s k)
    (hdef : ∀ s k, f (.default s) k = some (s, k) ∨ f (.default s) k = f s k)
    (hsw : ∀ c s k, f (.switch c s) k = none ∨ f (.switch c s) k = f s (.switchK k))
    (hno : ∀ k, f .skip k = none ∧ f .brk k = none ∧ f .cont k = none ∧ (∀ e, f (.expr e) k = none) ∧ (∀ l, f (.goto l) k = none) ∧ ∀ e, f (.ret e) k = none) :
    ∀ (s : Stmt Leaf) {k : Cont Leaf} {r : Stmt Leaf × Cont Leaf}, stmtOk C s = true → contOk C k → f s k = some r → stmtOk C r.1 = true ∧ contOk C r.2 := by
  intro s
  induction s with
  | skip => intro k r _ _ h; rw [(hno k).1] at h; cases h
  | brk => intro k r _ _ h; rw [(hno k).2.1] at h; cases h
  | cont => intro k r _ _ h; rw [(hno k).2.2.1] at h; cases h
  | expr e => intro k r _ _ h; rw [(hno k).2.2.2.1] at h; cases h
  | goto e => intro k r _ _ h; rw [(hno k).2.2.2.2.1] at h; cases h
  | ret e => intro k r _ _ h; rw [(hno k).2.2.2.2.2] at h; cases h
  | seq s t ihs iht =>
    intro k r hs hk h
    simp only [stmtOk, Bool.and_eq_true] at hs
    rw [hseq, Option.or_eq_some_iff] at h
    rcases h with h | ⟨_, h⟩
    · exact ihs (k := .seq t k) hs.1 ⟨hs.2, hk⟩ h
    · exact iht hs.2 hk h
  | ite c s ih =>
    intro k r hs hk h
    simp only [stmtOk, Bool.and_eq_true] at hs
    rw [hite] at h
    exact ih hs.2 hk h
  | ifElse c s t ihs iht =>
    intro k r hs hk h
    simp only [stmtOk, Bool.and_eq_true] at hs
    rw [helse, Option.or_eq_some_iff] at h
    rcases h with h | ⟨_, h⟩
    · exact ihs hs.1.2 hk h
    · exact iht hs.2 hk h
  | «while» c s ih =>
    intro k r hs hk h
    simp only [stmtOk, Bool.and_eq_true] at hs
    rw [hwhile] at h
    exact ih (k := .whileK c s k) hs.2 ⟨hs.1, hs.2, hk⟩ h
  | doWhile s c ih =>
    intro k r hs hk h
    simp only [stmtOk, Bool.and_eq_true] at hs
    rw [hdo] at h
    exact ih (k := .doK s c k) hs.2 ⟨hs.1, hs.2, hk⟩ h
  | «for» i c n s ih =>
    intro k r hs hk h
    simp only [stmtOk, Bool.and_eq_true] at hs
    rw [hfor] at h
    exact ih (k := .forK c n s k) hs.2 ⟨hs.1.1.2, hs.1.2, hs.2, hk⟩ h
  | label m s ih =>
    intro k r hs hk h
    rcases hlab m s k with e | e <;> rw [e] at h
    · cases h; exact ⟨hs, hk⟩
    · exact ih hs hk h
  | case m s ih =>
    intro k r hs hk h
    rcases hcase m s k with e | e <;> rw [e] at h
    · cases h; exact ⟨hs, hk⟩
    · exact ih hs hk h
  | default s ih =>
    intro k r hs hk h
    rcases hdef s k with e | e <;> rw [e] at h
    · cases h; exact ⟨hs, hk⟩
    · exact ih hs hk h
  | switch c s ih =>
    intro k r hs hk h
    simp only [stmtOk, Bool.and_eq_true] at hs
    rcases hsw c s k with e | e <;> rw [e] at h
    · cases h
    · exact ih (k := .switchK k) hs.2 hk h

theorem findCase_ok {n : Int} {s : Stmt Leaf} {k : Cont Leaf} {r : Stmt Leaf × Cont Leaf} (hs : stmtOk C s = true) (hk : contOk C k)
    (h : findCase n s k = some r) : stmtOk C r.1 = true ∧ contOk C r.2 :=
  find_ok (findCase n) (fun _ _ _ => rfl) (fun _ _ _ => rfl) (fun _ _ _ _ => rfl) (fun _ _ _ => rfl) (fun _ _ _ => rfl) (fun _ _ _ _ _ => rfl)
    (fun _ _ _ => .inr rfl) (fun m s k => by by_cases e : m = n <;> simp [findCase, e]) (fun _ _ => .inr rfl) (fun _ _ _ => .inl rfl)
    (fun _ => ⟨rfl, rfl, rfl, fun _ => rfl, fun _ => rfl, fun _ => rfl⟩) s hs hk h

theorem findDefault_ok {s : Stmt Leaf} {k : Cont Leaf} {r : Stmt Leaf × Cont Leaf} (hs : stmtOk C s = true) (hk : contOk C k)
    (h : findDefault s k = some r) : stmtOk C r.1 = true ∧ contOk C r.2 :=
  find_ok findDefault (fun _ _ _ => rfl) (fun _ _ _ => rfl) (fun _ _ _ _ => rfl) (fun _ _ _ => rfl) (fun _ _ _ => rfl) (fun _ _ _ _ _ => rfl)
    (fun _ _ _ => .inr rfl) (fun _ _ _ => .inr rfl) (fun _ _ => .inl rfl) (fun _ _ _ => .inl rfl)
    (fun _ => ⟨rfl, rfl, rfl, fun _ => rfl, fun _ => rfl, fun _ => rfl⟩) s hs hk h

theorem findLabel_ok {n : Nat} {s : Stmt Leaf} {k : Cont Leaf} {r : Stmt Leaf × Cont Leaf} (hs : stmtOk C s = true) (hk : contOk C k)
    (h : findLabel n s k = some r) : stmtOk C r.1 = true ∧ contOk C r.2 :=
  find_ok (findLabel n) (fun _ _ _ => rfl) (fun _ _ _ => rfl) (fun _ _ _ _ => rfl) (fun _ _ _ => rfl) (fun _ _ _ => rfl) (fun _ _ _ _ _ => rfl)
    (fun m s k => by by_cases e : m = n <;> simp [findLabel, e]) (fun _ _ _ => .inr rfl) (fun _ _ => .inr rfl) (fun _ _ _ => .inr rfl)
    (fun _ => ⟨rfl, rfl, rfl, fun _ => rfl, fun _ => rfl, fun _ => rfl⟩) s hs hk h

theorem switch_lift {n : Int} {s : Stmt Leaf} {k : Cont Leaf} {ρ : Nat → Int} (l) (hs : stmtOk C s = true) (hk : contOk C k) (hf : Fit C.Γ C.N ρ) :
    switchTo n s k (some (⟨ρ, l⟩ : U)) = lift l (switchTo n s k ρ) ∧ stateOk C (switchTo n s k ρ) := by
  unfold switchTo
  cases h1 : findCase n s (.switchK k) with
  | some r =>
    obtain ⟨g1, g2⟩ := findCase_ok hs (k := .switchK k) hk h1
    exact ⟨rfl, g1, g2, hf⟩
  | none =>
    cases h2 : findDefault s (.switchK k) with
    | some r =>
      obtain ⟨g1, g2⟩ := findDefault_ok hs (k := .switchK k) hk h2
      exact ⟨rfl, g1, g2, hf⟩
    | none => exact ⟨rfl, hk, hf⟩

theorem source_step {body : Stmt Leaf} (hb : stmtOk C body = true) {s t : SState Leaf (Nat → Int)} (hs : stateOk C s)
    (h : sstepWith (value C.Γ) body s = some t) (l) :
    ∃ l', sstepWith (fun e u => some (evalL C.Γ e u)) body (lift l s) = some (lift l' t) ∧ stateOk C t := by
  -- an expression is evaluated, and the state after it
  have ev : ∀ {e : Expr Leaf} {ρ : Nat → Int} {g : (Nat → Int) × Int → SState Leaf (Nat → Int)} {g' : Option U × Int → SState Leaf (Option U)},
      exprOk C e = true → Fit C.Γ C.N ρ → (value C.Γ e ρ).map g = some t →
      (∀ ρ' x l', Fit C.Γ C.N ρ' → g' (some ⟨ρ', l'⟩, x) = lift l' (g (ρ', x)) ∧ stateOk C (g (ρ', x))) →
      ∃ l', (some (evalL C.Γ e (some ⟨ρ, l⟩))).map g' = some (lift l' t) ∧ stateOk C t := by
    intro e ρ g g' he hf hg hh
    obtain ⟨⟨ρ', x⟩, h1, h2⟩ := Option.map_eq_some_iff.mp hg
    obtain ⟨l', e1, f1⟩ := source_eval he hf h1 l
    obtain ⟨h3, h4⟩ := hh ρ' x l' f1
    refine ⟨l', ?_, by rw [← h2]; exact h4⟩
    rw [e1, Option.map_some, h3, h2]
  cases s with
  | exec s k ρ =>
    obtain ⟨h1, h2, h3⟩ := hs
    cases s with
    | skip => cases h; exact ⟨l, rfl, h2, h3⟩
    | expr e =>
      simp only [lift, sstepWith]
      exact ev h1 h3 h fun ρ' x l' hf => ⟨rfl, h2, hf⟩
    | seq s t =>
      cases h
      simp only [stmtOk, Bool.and_eq_true] at h1
      exact ⟨l, rfl, h1.1, ⟨h1.2, h2⟩, h3⟩
    | ite c s =>
      simp only [stmtOk, Bool.and_eq_true] at h1
      simp only [lift, sstepWith]
      refine ev h1.1 h3 h fun ρ' x l' hf => ?_
      dsimp only
      split_ifs
      · exact ⟨rfl, h1.2, h2, hf⟩
      · exact ⟨rfl, h2, hf⟩
    | ifElse c s t =>
      simp only [stmtOk, Bool.and_eq_true] at h1
      simp only [lift, sstepWith]
      refine ev h1.1.1 h3 h fun ρ' x l' hf => ?_
      dsimp only
      split_ifs
      · exact ⟨rfl, h1.1.2, h2, hf⟩
      · exact ⟨rfl, h1.2, h2, hf⟩
    | «while» c s =>
      simp only [stmtOk, Bool.and_eq_true] at h1
      simp only [lift, sstepWith]
      refine ev h1.1 h3 h fun ρ' x l' hf => ?_
      dsimp only
      split_ifs
      · exact ⟨rfl, h1.2, ⟨h1.1, h1.2, h2⟩, hf⟩
      · exact ⟨rfl, h2, hf⟩
    | doWhile s c =>
      cases h
      simp only [stmtOk, Bool.and_eq_true] at h1
      exact ⟨l, rfl, h1.2, ⟨h1.1, h1.2, h2⟩, h3⟩
    | «for» i c n s =>
      simp only [stmtOk, Bool.and_eq_true] at h1
      obtain ⟨ρ', g1, rfl⟩ := Option.map_eq_some_iff.mp h
      obtain ⟨l', e1, f1⟩ := source_opt h1.1.1.1 h3 g1 l
      refine ⟨l', ?_, h1.1.1.2, h1.1.2, h1.2, h2, f1⟩
      simp only [lift, sstepWith, e1, Option.map_some]
    | brk =>
      obtain ⟨k', g1, rfl⟩ := Option.map_eq_some_iff.mp h
      refine ⟨l, ?_, break_ok h2 g1, h3⟩
      simp only [lift, sstepWith, g1, Option.map_some]
    | cont =>
      obtain ⟨k', g1, rfl⟩ := Option.map_eq_some_iff.mp h
      refine ⟨l, ?_, continue_ok h2 g1, h3⟩
      simp only [lift, sstepWith, g1, Option.map_some]
    | ret e =>
      cases e with
      | none => cases h; exact ⟨l, rfl, trivial⟩
      | some e =>
        simp only [lift, sstepWith]
        exact ev h1 h3 h fun ρ' x l' hf => ⟨rfl, trivial⟩
    | goto n =>
      obtain ⟨r, g1, rfl⟩ := Option.map_eq_some_iff.mp h
      obtain ⟨g2, g3⟩ := findLabel_ok hb (k := .stop) trivial g1
      refine ⟨l, ?_, g2, g3, h3⟩
      simp only [lift, sstepWith, g1, Option.map_some]
    | label m s => cases h; exact ⟨l, rfl, h1, h2, h3⟩
    | switch e s =>
      simp only [stmtOk, Bool.and_eq_true] at h1
      simp only [lift, sstepWith]
      exact ev h1.1 h3 h fun ρ' x l' hf => switch_lift l' h1.2 h2 hf
    | case m s => cases h; exact ⟨l, rfl, h1, h2, h3⟩
    | default s => cases h; exact ⟨l, rfl, h1, h2, h3⟩
  | next k ρ =>
    obtain ⟨h2, h3⟩ := hs
    cases k with
    | stop => cases h; exact ⟨l, rfl, trivial⟩
    | seq t k => cases h; exact ⟨l, rfl, h2.1, h2.2, h3⟩
    | whileK c s k => cases h; exact ⟨l, rfl, h2, h3⟩
    | doK s c k => cases h; exact ⟨l, rfl, h2, h3⟩
    | forK c n s k => cases h; exact ⟨l, rfl, h2, h3⟩
    | switchK k => cases h; exact ⟨l, rfl, h2, h3⟩
  | again k ρ =>
    obtain ⟨h2, h3⟩ := hs
    cases k with
    | stop => cases h
    | seq t k => cases h
    | switchK k => cases h
    | whileK c s k =>
      simp only [lift, sstepWith]
      refine ev h2.1 h3 h fun ρ' x l' hf => ?_
      dsimp only
      split_ifs
      · exact ⟨rfl, h2.2.1, h2, hf⟩
      · exact ⟨rfl, h2.2.2, hf⟩
    | doK s c k =>
      simp only [lift, sstepWith]
      refine ev h2.1 h3 h fun ρ' x l' hf => ?_
      dsimp only
      split_ifs
      · exact ⟨rfl, h2.2.1, h2, hf⟩
      · exact ⟨rfl, h2.2.2, hf⟩
    | forK c n s k =>
      obtain ⟨ρ', g1, rfl⟩ := Option.map_eq_some_iff.mp h
      obtain ⟨l', e1, f1⟩ := source_opt h2.2.1 h3 g1 l
      refine ⟨l', ?_, h2.1, h2.2.1, h2.2.2.1, h2.2.2.2, f1⟩
      simp only [lift, sstepWith, e1, Option.map_some]
  | test c n s k ρ =>
    obtain ⟨h1, h2, h3, h4, h5⟩ := hs
    cases c with
    | none => cases h; exact ⟨l, rfl, h3, ⟨rfl, h2, h3, h4⟩, h5⟩
    | some c =>
      simp only [lift, sstepWith]
      refine ev h1 h5 h fun ρ' x l' hf => ?_
      dsimp only
      split_ifs
      · exact ⟨rfl, h3, ⟨h1, h2, h3, h4⟩, hf⟩
      · exact ⟨rfl, h4, hf⟩
  | done u r => cases h

theorem source_run {body : Stmt Leaf} (hb : stmtOk C body = true) : ∀ {n : Nat} {s t : SState Leaf (Nat → Int)}, stateOk C s → Run C.Γ body n s t → ∀ l,
    ∃ l', Cfg.SRun (σ := LeafOf C.Γ) body n (lift l s) (lift l' t)
  | 0, s, t, _, h, l => by rw [show s = t from h]; exact ⟨l, rfl⟩
  | n + 1, s, t, hs, ⟨m, h1, h2⟩, l => by
    obtain ⟨l1, e1, g1⟩ := source_step hb hs h1 l
    obtain ⟨l2, e2⟩ := source_run hb g1 h2 l1
    exact ⟨l2, _, e1, e2⟩

end Verif.Flow
