import Verif.Cfg.StmtLemmas

/-! # Statements, continued -/

namespace Verif.Cfg

set_option linter.unusedSectionVars false

variable {σ : Type} [Prim σ] {P : Nat → Prop}

theorem u_goto {b : B σ} {p t : Nat} (x : Nat) : U (b.goto p t) x ↔ U b x := Iff.rfl
theorem u_new {b : B σ} (x : Nat) : U b.new x ↔ U b x := Iff.rfl

theorem else_ok {b : B σ} {p : Nat} {c : Expr σ} {s t : Stmt σ} {brk cnt : Option Nat} {b' : B σ} {q : Nat} (hp : Pre b p)
    (ih1 : ∀ b p b' q, Pre b p → b.stmt brk cnt p s = some (b', q) → StmtOk P b p s brk cnt b' q)
    (ih2 : ∀ b p b' q, Pre b p → b.stmt brk cnt p t = some (b', q) → StmtOk P b p t brk cnt b' q)
    (h : b.stmt brk cnt p (.ifElse c s t) = some (b', q)) : StmtOk P b p (.ifElse c s t) brk cnt b' q := by
  have hlt := hp.lt
  obtain ⟨p2, ev2, i1, i2, pos2⟩ := new2 hp
  obtain ⟨h0, hq, v, e1, ev1, pr1, rel1, new1, rest1, run1⟩ := expr_part c p2
  have hn1 : hq ≠ b.n := by simp at new1; omega
  have hn2 : hq ≠ b.n + 1 := by simp at new1; omega
  have evt := evo_test v b.n (b.n + 1) pr1.inv pr1.u
  have j1 := (i1.evo ev1 (by omega)).evo evt hn1.symm
  have j2 := (i2.evo ev1 (by omega)).evo evt hn2.symm
  have ev3 := ev2.trans ev1 hp.inv hp.lt hp.u (Rel.refl _ _)
  have rel3 : Rel b p hq := Rel.trans ev2 (Rel.refl _ _) rel1
  have ev4 := ev3.trans evt hp.inv hp.lt hp.u rel3
  have hn4 := ev4.n_le
  have n2 := ev1.n_le
  have hqlt := pr1.lt
  simp only [B.stmt, e1] at h
  split at h
  · cases h
  · rename_i r hr
    obtain ⟨b5, e⟩ := r
    have hs := ih1 _ _ _ _ (j1.pre evt.inv) hr
    have evg := evo_goto (b.n + 1) hs.post.inv hs.post.u
    have hne : e ≠ b.n + 1 := Rel.ne hs.q_new j2 (by omega)
    have huq : ¬ U (h0.test hq v b.n (b.n + 1)) hq := fun h => pr1.u ((u_test hq).1 h)
    have hneq : e ≠ hq := by
      rintro rfl
      rcases hs.q_new with h | h | h
      · exact hn1 h
      · simp at h; omega
      · exact huq h
    have ev5 := ev4.trans hs.evo hp.inv hp.lt hp.u (Or.inr (Or.inl (Nat.le_refl _)))
    have rel5 : Rel b p e := Rel.jump ev4 (Nat.le_refl _) hs.q_new
    have ev6 := ev5.trans evg hp.inv hp.lt hp.u rel5
    have k2 := (j2.evo hs.evo (by omega)).evo evg hne.symm
    -- the first test block, so far
    have bq : (b5.goto e (b.n + 1)).blk hq = (h0.test hq v b.n (b.n + 1)).blk hq := by
      rw [goto_blk, if_neg hneq.symm]
      exact hs.evo.keep hq (by simpa using hqlt) hn1 huq
    have hq5 : hq < b5.n := by have := hs.evo.n_le; simp at this; omega
    have b5n : b.n + 1 < b5.n := k2.lt
    obtain ⟨b6, hb6⟩ : ∃ b6, b6 = b5.goto e (b.n + 1) := ⟨_, rfl⟩
    have n6 : b6.n = b5.n := by rw [hb6]; rfl
    rw [← hb6] at evg ev6 k2 bq h
    have evn : Evo b6 hq b6.new := evo_new evg.inv (by omega) (by
      rw [hb6]; intro h; exact huq (hs.evo.u hq (by simpa using hqlt) h))
    have in7 : Idle b6.new b6.n := idle_new evg.inv
    have k2' := k2.evo evn hn2.symm
    have hu7 : ¬ U b6.new hq := by
      rw [u_new, hb6]; intro h; exact huq (hs.evo.u hq (by simpa using hqlt) h)
    obtain ⟨b8, hb8⟩ : ∃ b8, b8 = (if boolOf v = some true then b6.new else b6.new.goto hq b6.n) := ⟨_, rfl⟩
    have ev8 : Evo b6.new hq b8 := by
      rw [hb8]; split
      · exact Evo.refl _ evn.inv
      · exact evo_goto _ evn.inv hu7
    have r8 : b8.rest = b6.rest := by rw [hb8]; split <;> rfl
    rw [← hb8] at h
    have in8 := in7.evo ev8 (by omega)
    have k8 := k2'.evo ev8 hn2.symm
    have ev7 := ev6.trans evn hp.inv hp.lt hp.u rel3
    have ev7' := ev7.trans ev8 hp.inv hp.lt hp.u rel3
    split at h
    · rename_i r' hr'
      obtain ⟨b9, e'⟩ := r'
      simp only [Option.some.injEq, Prod.mk.injEq] at h
      obtain ⟨rfl, rfl⟩ := h
      have ht := ih2 _ _ _ _ (in8.pre ev8.inv) hr'
      have evg' := evo_goto (b.n + 1) ht.post.inv ht.post.u
      have hne' : e' ≠ b.n + 1 := Rel.ne ht.q_new k8 (by omega)
      have hge : b.n ≤ b6.n := by omega
      have ev9 := ev7'.trans ht.evo hp.inv hp.lt hp.u (Or.inr (Or.inl hge))
      have rel9 : Rel b p e' := Rel.jump ev7' hge ht.q_new
      have ev10 := ev9.trans evg' hp.inv hp.lt hp.u rel9
      have r0 := rest_eq ((test_rest h0 hq v b.n (b.n + 1)).trans rest1)
      have r6 := rest_eq r8
      have r6' : b6.inSwitch = b5.inSwitch ∧ b6.cases = b5.cases ∧ b6.dflt = b5.dflt := by rw [hb6]; exact ⟨rfl, rfl, rfl⟩
      refine ⟨ev10, Or.inr (Or.inl (by omega)), (((k8.evo ht.evo (by omega)).evo evg' hne'.symm).pre evg'.inv), ?_, ?_⟩
      · show b9.inSwitch = _
        rw [ht.sw, r6.2.2.1, r6'.1, hs.sw, r0.2.2.1]; rfl
      · obtain ⟨cs1, d1, c1, jo1, t1⟩ := hs.tr
        obtain ⟨cs2, d2, c2, jo2, t2⟩ := ht.tr
        rw [r6.2.2.2.2, r6'.2.2] at jo2
        rw [r0.2.2.2.2] at jo1
        obtain ⟨d, jo3, jo4⟩ := join_trans jo1 jo2
        refine ⟨cs1 ++ cs2, d, ?_, jo4, ?_⟩
        · show b9.cases = _
          rw [c2, r6.2.2.2.1, r6'.2.1, c1, r0.2.2.2.1, List.append_assoc]; rfl
        · intro G L X hX hE hL
          have E9 : Ext b9 (Op e' (fun i => i = b.n + 1 ∨ X i) b9) G := hE.goto (Or.inl rfl) (by
            rintro i _ (h | h | h)
            · exact Or.inr (Or.inl (Or.inl h))
            · exact Or.inr (Or.inl (Or.inr h))
            · exact Or.inr (Or.inr h))
          have hX8 := (XOk.evo hX ev7' (q := b6.n) (Or.inr (Or.inl hge))).add k8 (by omega)
          have ts2 := t2 G L _ hX8 E9 hL
          have E8 := ht.evo.extOp ht.q_new ev8.inv E9
          have hu8 : ∀ x, U b8 x → U b6 x := fun x => (u_congr r6.1 r6.2.1 x).1
          have E7 : Ext b6.new (fun i => i = b6.n ∨ (i = hq ∨ i = b.n + 1 ∨ X i) ∨ U b6 i) G :=
            ev8.ext E8 evn.inv (Or.inr (Or.inl (Or.inl rfl))) (fun x hx => Or.inr (Or.inr hx)) (by
              rintro i _ (h | h | h)
              · exact Or.inl h
              · exact Or.inr (Or.inl (Or.inr h))
              · exact Or.inr (Or.inr (hu8 i h)))
          have E6 : Ext b6 (fun i => (i = hq ∨ i = b.n + 1 ∨ X i) ∨ U b6 i) G := E7.new (by
            rintro i hi (h | h)
            · omega
            · exact h)
          have E5 : Ext b5 (Op e (fun i => i = hq ∨ i = b.n + 1 ∨ X i) b5) G := by
            rw [hb6] at E6
            exact E6.goto (Or.inl rfl) (fun i _ h => Or.inr h)
          have hX4 : XOk (h0.test hq v b.n (b.n + 1)) b.n (fun i => i = hq ∨ i = b.n + 1 ∨ X i) := by
            rintro x (rfl | h)
            · exact ⟨by simpa using hqlt, hn1, huq⟩
            · exact ((XOk.evo hX ev4 (q := b.n) (Or.inr (Or.inl (Nat.le_refl _)))).add j2 (by omega)) x h
          have ts1 := t1 G L _ hX4 E5 (fun l c h => hL l c (ht.evo.lab _ (ev8.lab _ (evn.lab _ (by rw [hb6]; exact h)))))
          have E4 := hs.evo.extOp hs.q_new evt.inv E5
          have Eh : Ext h0 (Op hq (fun i => i = b.n ∨ i = b.n + 1 ∨ X i) h0) G := E4.test (Or.inl rfl) (by
            rintro i _ (h | (h | h) | h)
            · exact Or.inr (Or.inl (Or.inl h))
            · exact Or.inl h
            · exact Or.inr (Or.inl (Or.inr h))
            · exact Or.inr (Or.inr ((u_test i).1 h)))
          have hX2 : XOk b.new.new p (fun i => i = b.n ∨ i = b.n + 1 ∨ X i) := ((XOk.evo hX ev2 (Rel.refl _ _)).add i2 (by omega)).add i1 (by omega)
          have re := run1 G _ hX2 Eh
          have gt : Goto G (b5.pos e) (b.n + 1) := by
            rw [hb6] at E6
            exact goto_of_ext E6 hs.post.lt (by
              rintro ((h | h | h) | h)
              · exact hneq h
              · exact hne h
              · exact XOk.not hX rel5 h
              · exact hs.post.u h) hs.post.fresh.2.1
          have gt' : Goto G (b9.pos e') (b.n + 1) := goto_of_ext hE ht.post.lt (by
            rintro (h | h | h)
            · exact hne' h
            · exact XOk.not hX rel9 h
            · exact ht.post.u h) ht.post.fresh.2.1
          have n8 : b8.n = b6.n + 1 := by rw [hb8]; split <;> rfl
          have gq := sealed E8 (i := hq) (by omega) (by
            rintro (h | (h | h) | h)
            · omega
            · exact hn2 h
            · exact XOk.not hX rel3 h
            · exact hu7 (hu8 _ h))
          have b7q : b6.new.blk hq = (h0.test hq v b.n (b.n + 1)).blk hq := by
            rw [new_blk, if_neg (by omega), bq]
          have tt : Test G (h0.pos hq) v b.n b6.n := by
            unfold Test
            rw [hb8] at gq
            cases hv : boolOf v with
            | none =>
              rw [hv, if_neg (by simp), goto_blk, if_pos rfl, b7q] at gq
              simp only [B.test, hv, branch_blk, if_pos] at gq
              exact ⟨by simp [B.pos, gq], by simp [B.pos, gq], by simp [B.pos, gq], by simp [B.pos, gq]⟩
            | some x =>
              cases x with
              | true =>
                rw [hv, if_pos rfl, b7q] at gq
                simp only [B.test, hv, goto_blk, if_pos] at gq
                exact ⟨by simp [B.pos, gq], by simp [B.pos, gq], by simp [B.pos, gq, pr1.fresh.2.1]⟩
              | false =>
                rw [hv, if_neg (by simp), goto_blk, if_pos rfl, b7q] at gq
                simp only [B.test, hv, goto_blk, if_pos] at gq
                exact ⟨by simp [B.pos, gq], by simp [B.pos, gq], by simp [B.pos, gq, pr1.fresh.2.1]⟩
          rw [pos2] at re
          rw [j1.pos] at ts1
          rw [in8.pos] at ts2
          exact ⟨_, v, b.n, _, b6.n, _, b.n + 1, cs1, d1, cs2, d2, re, tt, ts1, gt, ts2, gt',
            ((k8.evo ht.evo (by omega)).evo evg' hne'.symm).pos, rfl, jo3⟩
    · cases h

/-- A jump, after which the code is not reached. -/
theorem jump_part {b : B σ} {p : Nat} (hp : Pre b p) (f : Block σ → Block σ) (hf : (f (b.blk p)).acts = (b.blk p).acts) :
    Evo b p (b.upd p f).new ∧ Pre (b.upd p f).new b.n ∧ (b.upd p f).new.pos b.n = (b.n, 0) ∧
    ∀ (G : Nat → Block σ) (X : Nat → Prop), XOk b p X → Ext (b.upd p f).new (Op b.n X (b.upd p f).new) G → G p = f (b.blk p) := by
  have hlt := hp.lt
  have ev1 : Evo b p (b.upd p f) := evo_upd f hp.inv hp.u (by rw [hf]; exact List.prefix_refl _)
  have ev2 : Evo (b.upd p f) p (b.upd p f).new := evo_new ev1.inv hp.lt hp.u
  have id : Idle (b.upd p f).new b.n := idle_new ev1.inv
  refine ⟨ev1.trans ev2 hp.inv hp.lt hp.u (Rel.refl _ _), id.pre ev2.inv, id.pos, ?_⟩
  intro G X hX hE
  have := sealed hE (i := p) (by simp; omega) (by
    rintro (h | h | h)
    · omega
    · exact (hX p h).2.1 rfl
    · exact hp.u h)
  rw [this, new_blk, if_neg (by simp; omega), upd_blk, if_pos rfl]

theorem brk_ok {b : B σ} {p t : Nat} {cnt : Option Nat} (hp : Pre b p) :
    StmtOk P b p .brk (some t) cnt (b.upd p fun x => { x with j0 := some t }).new b.n := by
  obtain ⟨h1, h2, h3, h4⟩ := jump_part hp (fun x => { x with j0 := some t }) rfl
  refine ⟨h1, Or.inr (Or.inl (Nat.le_refl _)), h2, rfl, [], none, by simp [B.new, B.upd], join_none _, ?_⟩
  intro G L X hX hE hL
  have := h4 G X hX hE
  exact ⟨⟨t, rfl, by simp [B.pos, this], by simp [B.pos, this], by simp [B.pos, this, hp.fresh.2.1]⟩, rfl, rfl⟩

theorem cont_ok {b : B σ} {p t : Nat} {brk : Option Nat} (hp : Pre b p) :
    StmtOk P b p .cont brk (some t) (b.upd p fun x => { x with j0 := some t }).new b.n := by
  obtain ⟨h1, h2, h3, h4⟩ := jump_part hp (fun x => { x with j0 := some t }) rfl
  refine ⟨h1, Or.inr (Or.inl (Nat.le_refl _)), h2, rfl, [], none, by simp [B.new, B.upd], join_none _, ?_⟩
  intro G L X hX hE hL
  have := h4 G X hX hE
  exact ⟨⟨t, rfl, by simp [B.pos, this], by simp [B.pos, this], by simp [B.pos, this, hp.fresh.2.1]⟩, rfl, rfl⟩

theorem ret_ok {b : B σ} {p : Nat} {brk cnt : Option Nat} (hp : Pre b p) :
    StmtOk P b p (.ret none) brk cnt b.new b.n := by
  have hlt := hp.lt
  obtain ⟨a1, a2, a3, a4, _, _⟩ := news hp
  refine ⟨a2, Or.inr (Or.inl (Nat.le_refl _)), a3.pre a2.inv, rfl, [], none, by simp [B.new, B.upd], join_none _, ?_⟩
  intro G L X hX hE hL
  have := sealed hE (i := p) (by simp; omega) (by
    rintro (h | h | h)
    · omega
    · exact (hX p h).2.1 rfl
    · exact hp.u h)
  rw [new_blk, if_neg (by omega)] at this
  exact ⟨⟨by simp [B.pos, this], by simp only [B.pos, this]; exact hp.fresh⟩, rfl, rfl⟩

theorem retval_ok {b : B σ} {p : Nat} {brk cnt : Option Nat} (e : Expr σ) (hp : Pre b p) {b' : B σ} {q : Nat}
    (h : b.stmt brk cnt p (.ret (some e)) = some (b', q)) : StmtOk P b p (.ret (some e)) brk cnt b' q := by
  obtain ⟨h0, hq, v, e1, ev1, pr1, rel1, new1, rest1, run1⟩ := expr_part e hp
  have r := rest_eq rest1
  simp only [B.stmt, e1, Option.some.injEq, Prod.mk.injEq] at h
  obtain ⟨rfl, rfl⟩ := h
  obtain ⟨h1, h2, h3, h4⟩ := jump_part pr1 (fun x => { x with expr := v, ret := true }) rfl
  refine ⟨ev1.trans h1 hp.inv hp.lt hp.u rel1, Or.inr (Or.inl ev1.n_le), h2, r.2.2.1, [], none, ?_, ?_, ?_⟩
  · show h0.cases = _
    rw [r.2.2.2.1]; simp
  · show Join _ _ h0.dflt
    rw [r.2.2.2.2]; exact join_none _
  · intro G L X hX hE hL
    have hX' := XOk.evo hX ev1 rel1
    have g := h4 G X hX' hE
    have Eh := h1.extOp (Or.inr (Or.inl (Nat.le_refl _))) pr1.inv hE
    have re := run1 G X hX Eh
    exact ⟨⟨_, v, re, by simp [B.pos, g], by simp [B.pos, g, pr1.fresh.1], by simp [B.pos, g, pr1.fresh.2.1], by simp [B.pos, g],
      by simp [B.pos, g]⟩, rfl, rfl⟩

theorem expr_stmt_ok {b : B σ} {p : Nat} {brk cnt : Option Nat} (e : Expr σ) (hp : Pre b p) :
    StmtOk P b p (.expr e) brk cnt (b.expr p e).1 (b.expr p e).2.1 := by
  obtain ⟨h0, hq, v, e1, ev1, pr1, rel1, new1, rest1, run1⟩ := expr_part e hp
  have r := rest_eq rest1
  rw [e1]
  refine ⟨ev1, rel1, pr1, r.2.2.1, [], none, by simp [r.2.2.2.1], by rw [r.2.2.2.2]; exact join_none _, ?_⟩
  intro G L X hX hE hL
  exact ⟨⟨v, run1 G X hX hE⟩, rfl, rfl⟩

def forInit (b : B σ) (p : Nat) : Option (Expr σ) → B σ × Nat
  | some e => ((b.expr p e).1, (b.expr p e).2.1)
  | none => (b, p)

/-- The first part of a `for` statement. -/
theorem init_part {b : B σ} {p : Nat} (i : Option (Expr σ)) (hp : Pre b p) :
    ∃ b' q, forInit b p i = (b', q) ∧
      Evo b p b' ∧ Pre b' q ∧ Rel b p q ∧ b'.rest = b.rest ∧
      ∀ (G : Nat → Block σ) (X : Nat → Prop), XOk b p X → Ext b' (Op q X b') G →
        match i with | none => b'.pos q = b.pos p | some a => ∃ v, ExecE G a (b.pos p) (b'.pos q) v := by
  cases i with
  | none => exact ⟨b, p, rfl, Evo.refl p hp.inv, hp, Rel.refl _ _, rfl, fun _ _ _ _ => rfl⟩
  | some e =>
    obtain ⟨h0, hq, v, e1, ev1, pr1, rel1, new1, rest1, run1⟩ := expr_part e hp
    exact ⟨h0, hq, by simp [forInit, e1], ev1, pr1, rel1, rest1, fun G X hX hE => ⟨v, run1 G X hX hE⟩⟩

end Verif.Cfg
