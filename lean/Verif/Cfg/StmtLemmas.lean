import Verif.Cfg.Build

/-! # Every statement is in the graph that is built for it -/

namespace Verif.Cfg

set_option linter.unusedSectionVars false

variable {σ : Type} [Prim σ]

theorem join_none (a : Option Nat) : Join a none a := Or.inr ⟨rfl, rfl⟩

theorem join_trans {a b c d e : Option Nat} (h1 : Join a b c) (h2 : Join c d e) : ∃ x, Join b d x ∧ Join a x e := by
  unfold Join at *
  rcases h1 with ⟨rfl, rfl⟩ | ⟨rfl, rfl⟩ <;> rcases h2 with ⟨rfl, rfl⟩ | ⟨rfl, rfl⟩
  · exact ⟨e, Or.inl ⟨rfl, rfl⟩, Or.inl ⟨rfl, rfl⟩⟩
  · exact ⟨e, Or.inr ⟨rfl, rfl⟩, Or.inl ⟨rfl, rfl⟩⟩
  · exact ⟨e, Or.inl ⟨rfl, rfl⟩, Or.inl ⟨rfl, rfl⟩⟩
  · exact ⟨none, Or.inl ⟨rfl, rfl⟩, Or.inr ⟨rfl, rfl⟩⟩

variable {P : Nat → Prop}

theorem seq_ok {b b1 b2 : B σ} {p q r : Nat} {s t : Stmt σ} {brk cnt : Option Nat} (hp : Pre b p)
    (h1 : StmtOk P b p s brk cnt b1 q) (h2 : StmtOk P b1 q t brk cnt b2 r) : StmtOk P b p (.seq s t) brk cnt b2 r := by
  have hrel : Rel b p r := Rel.trans h1.evo h1.q_new h2.q_new
  refine ⟨h1.evo.trans h2.evo hp.inv hp.lt hp.u h1.q_new, hrel, h2.post, h2.sw.trans h1.sw, ?_⟩
  obtain ⟨cs1, d1, c1, j1, t1⟩ := h1.tr
  obtain ⟨cs2, d2, c2, j2, t2⟩ := h2.tr
  obtain ⟨d, j3, j4⟩ := join_trans j1 j2
  refine ⟨cs1 ++ cs2, d, by rw [c2, c1, List.append_assoc], j4, ?_⟩
  intro G L X hX hE hL
  have hX1 := XOk.evo hX h1.evo h1.q_new
  have hE1 := h2.evo.extOp h2.q_new h1.post.inv hE
  exact ⟨_, cs1, d1, cs2, d2, t1 G L X hX hE1 (fun l c h => hL l c (h2.evo.lab _ h)), t2 G L X hX1 hE hL, rfl, j3⟩

theorem ite_ok {b : B σ} {p : Nat} {c : Expr σ} {s : Stmt σ} {brk cnt : Option Nat} {b' : B σ} {q : Nat} (hp : Pre b p)
    (ih : ∀ b p b' q, Pre b p → b.stmt brk cnt p s = some (b', q) → StmtOk P b p s brk cnt b' q)
    (h : b.stmt brk cnt p (.ite c s) = some (b', q)) : StmtOk P b p (.ite c s) brk cnt b' q := by
  have p2 := hp.new.new
  have hlt := hp.lt
  obtain ⟨h0, hq, v, e1, ev1, pr1, rel1, new1, rest1, run1⟩ := expr_part c p2
  have i1 : Idle b.new.new b.n := (idle_new hp.inv).evo (evo_new hp.new.inv hp.new.lt hp.new.u) (by simp; omega)
  have i2 : Idle b.new.new (b.n + 1) := idle_new hp.new.inv
  have hn1 : hq ≠ b.n := by simp at new1; omega
  have hn2 : hq ≠ b.n + 1 := by simp at new1; omega
  have evt := evo_test v b.n (b.n + 1) pr1.inv pr1.u
  have j1 := (i1.evo ev1 (by omega)).evo evt hn1.symm
  have j2 := (i2.evo ev1 (by omega)).evo evt hn2.symm
  simp only [B.stmt, e1] at h
  split at h
  · rename_i r hr
    obtain ⟨b5, e⟩ := r
    simp only [Option.some.injEq, Prod.mk.injEq] at h
    obtain ⟨rfl, rfl⟩ := h
    have hs := ih _ _ _ _ (j1.pre evt.inv) hr
    have evg := evo_goto (b.n + 1) hs.post.inv hs.post.u
    have hne : e ≠ b.n + 1 := Rel.ne hs.q_new j2 (by omega)
    have ev2 : Evo b p b.new.new := (evo_new hp.inv hp.lt hp.u).trans (evo_new hp.new.inv hp.new.lt hp.new.u) hp.inv hp.lt hp.u (Rel.refl _ _)
    have ev3 := ev2.trans ev1 hp.inv hp.lt hp.u (Rel.refl _ _)
    have rel3 : Rel b p hq := Rel.trans ev2 (Rel.refl _ _) rel1
    have ev4 := ev3.trans evt hp.inv hp.lt hp.u rel3
    have ev5 := ev4.trans hs.evo hp.inv hp.lt hp.u (Or.inr (Or.inl (Nat.le_refl _)))
    have rel5 : Rel b p e := Rel.jump ev4 (Nat.le_refl _) hs.q_new
    have ev6 := ev5.trans evg hp.inv hp.lt hp.u rel5
    refine ⟨ev6, Or.inr (Or.inl (by omega)), (((j2.evo hs.evo (by omega)).evo evg hne.symm).pre evg.inv), ?_, ?_⟩
    · have : (b5.goto e (b.n + 1)).inSwitch = b5.inSwitch := rfl
      rw [this, hs.sw]
      have := (rest_eq (b := h0) (test_rest h0 hq v b.n (b.n + 1))).2.2.1
      rw [this, (rest_eq rest1).2.2.1]; rfl
    · obtain ⟨cs, d, c1, d1, t1⟩ := hs.tr
      have r0 := rest_eq ((test_rest h0 hq v b.n (b.n + 1)).trans rest1)
      refine ⟨cs, d, ?_, ?_, ?_⟩
      · show b5.cases = _
        rw [c1, r0.2.2.2.1]; rfl
      · show Join _ _ b5.dflt
        rw [r0.2.2.2.2] at d1; exact d1
      · intro G L X hX hE hL
        have hX4 := (XOk.evo hX ev4 (q := b.n) (Or.inr (Or.inl (Nat.le_refl _)))).add j2 (by omega)
        have E5 : Ext b5 (Op e (fun i => i = b.n + 1 ∨ X i) b5) G := hE.goto (Or.inl rfl) (by
          rintro i _ (h | h | h)
          · exact Or.inr (Or.inl (Or.inl h))
          · exact Or.inr (Or.inl (Or.inr h))
          · exact Or.inr (Or.inr h))
        have ts := t1 G L _ hX4 E5 hL
        have E4 := hs.evo.extOp hs.q_new evt.inv E5
        have Eh : Ext h0 (Op hq (fun i => i = b.n ∨ i = b.n + 1 ∨ X i) h0) G := E4.test (Or.inl rfl) (by
          rintro i _ (h | h | h)
          · exact Or.inr (Or.inl (Or.inl h))
          · exact Or.inr (Or.inl (Or.inr h))
          · exact Or.inr (Or.inr ((u_congr (rest_eq (test_rest h0 hq v b.n (b.n + 1))).1 (rest_eq (test_rest h0 hq v b.n (b.n + 1))).2.1 i).1 h)))
        have hX2 : XOk b.new.new p (fun i => i = b.n ∨ i = b.n + 1 ∨ X i) := ((XOk.evo hX ev2 (Rel.refl _ _)).add i2 (by omega)).add i1 (by omega)
        have re := run1 G _ hX2 Eh
        have tt : Test G (h0.pos hq) v b.n (b.n + 1) := test_of_ext E4 pr1.lt (by
          rintro (h | (h | h) | h)
          · exact hn1 h
          · exact hn2 h
          · exact XOk.not hX rel3 h
          · exact pr1.u ((u_congr (rest_eq (test_rest h0 hq v b.n (b.n + 1))).1 (rest_eq (test_rest h0 hq v b.n (b.n + 1))).2.1 hq).1 h)) pr1.fresh.2.1
        have gt : Goto G (b5.pos e) (b.n + 1) := goto_of_ext hE hs.post.lt (by
          rintro (h | h | h)
          · exact hne h
          · exact XOk.not hX rel5 h
          · exact hs.post.u h) hs.post.fresh.2.1
        have pe : b.new.new.pos p = b.pos p := by rw [pos_new (by simp; omega), pos_new hlt]
        rw [pe] at re
        rw [j1.pos] at ts
        exact ⟨_, v, b.n, _, b.n + 1, re, tt, ts, gt, ((j2.evo hs.evo (by omega)).evo evg hne.symm).pos⟩
  · cases h

theorem while_ok {b : B σ} {p : Nat} {c : Expr σ} {s : Stmt σ} {brk cnt : Option Nat} {b' : B σ} {q : Nat} (hp : Pre b p)
    (ih : ∀ brk cnt b p b' q, brk.isSome = true → cnt.isSome = true → Pre b p → b.stmt brk cnt p s = some (b', q) → StmtOk P b p s brk cnt b' q)
    (h : b.stmt brk cnt p (.while c s) = some (b', q)) : StmtOk P b p (.while c s) brk cnt b' q := by
  have hlt := hp.lt
  obtain ⟨p3, ev3, i1, i2, i3, pos3⟩ := new3 hp
  have evg := evo_goto b.n p3.inv p3.u
  have g1 := i1.evo evg (by omega)
  have g2 := i2.evo evg (by omega)
  have g3 := i3.evo evg (by omega)
  have ev4 := ev3.trans evg hp.inv hp.lt hp.u (Rel.refl _ _)
  obtain ⟨h0, hq, v, e1, ev1, pr1, rel1, new1, rest1, run1⟩ := expr_part c (g1.pre evg.inv)
  have hn2 : hq ≠ b.n + 1 := by simp at new1; omega
  have hn3 : hq ≠ b.n + 2 := by simp at new1; omega
  have ev5 := ev4.trans ev1 hp.inv hp.lt hp.u (Or.inr (Or.inl (Nat.le_refl _)))
  have rel5 : Rel b p hq := Rel.jump ev4 (Nat.le_refl _) rel1
  have evt := evo_test v (b.n + 1) (b.n + 2) pr1.inv pr1.u
  have j2 := (g2.evo ev1 (by omega)).evo evt hn2.symm
  have j3 := (g3.evo ev1 (by omega)).evo evt hn3.symm
  have ev6 := ev5.trans evt hp.inv hp.lt hp.u rel5
  simp only [B.stmt, e1] at h
  split at h
  · rename_i r hr
    obtain ⟨b5, e⟩ := r
    simp only [Option.some.injEq, Prod.mk.injEq] at h
    obtain ⟨rfl, rfl⟩ := h
    have hs := ih _ _ _ _ _ _ rfl rfl (j2.pre evt.inv) hr
    have evg' := evo_goto b.n hs.post.inv hs.post.u
    have hne : e ≠ b.n + 2 := Rel.ne hs.q_new j3 (by omega)
    have ev7 := ev6.trans hs.evo hp.inv hp.lt hp.u (Or.inr (Or.inl (Nat.le_succ _)))
    have rel7 : Rel b p e := Rel.jump ev6 (Nat.le_succ _) hs.q_new
    have ev8 := ev7.trans evg' hp.inv hp.lt hp.u rel7
    have r0 := rest_eq ((test_rest h0 hq v (b.n + 1) (b.n + 2)).trans rest1)
    refine ⟨ev8, Or.inr (Or.inl (by omega)), (((j3.evo hs.evo (by omega)).evo evg' hne.symm).pre evg'.inv), ?_, ?_⟩
    · show b5.inSwitch = _
      rw [hs.sw, r0.2.2.1]; rfl
    · obtain ⟨cs, d, c1, d1, t1⟩ := hs.tr
      refine ⟨cs, d, ?_, ?_, ?_⟩
      · show b5.cases = _
        rw [c1, r0.2.2.2.1]; rfl
      · show Join _ _ b5.dflt
        rw [r0.2.2.2.2] at d1; exact d1
      · intro G L X hX hE hL
        have hX6 := (XOk.evo hX ev6 (q := b.n + 1) (Or.inr (Or.inl (Nat.le_succ _)))).add j3 (by omega)
        have E5 : Ext b5 (Op e (fun i => i = b.n + 2 ∨ X i) b5) G := hE.goto (Or.inl rfl) (by
          rintro i _ (h | h | h)
          · exact Or.inr (Or.inl (Or.inl h))
          · exact Or.inr (Or.inl (Or.inr h))
          · exact Or.inr (Or.inr h))
        have ts := t1 G L _ hX6 E5 hL
        have E4 := hs.evo.extOp hs.q_new evt.inv E5
        have Eh : Ext h0 (Op hq (fun i => i = b.n + 1 ∨ i = b.n + 2 ∨ X i) h0) G := E4.test (Or.inl rfl) (by
          rintro i _ (h | h | h)
          · exact Or.inr (Or.inl (Or.inl h))
          · exact Or.inr (Or.inl (Or.inr h))
          · exact Or.inr (Or.inr ((u_test i).1 h)))
        have hX2 : XOk (b.new.new.new.goto p b.n) b.n (fun i => i = b.n + 1 ∨ i = b.n + 2 ∨ X i) :=
          ((XOk.evo hX ev4 (q := b.n) (Or.inr (Or.inl (Nat.le_refl _)))).add g3 (by omega)).add g2 (by omega)
        have re := run1 G _ hX2 Eh
        have tt : Test G (h0.pos hq) v (b.n + 1) (b.n + 2) := test_of_ext E4 pr1.lt (by
          rintro (h | (h | h) | h)
          · exact hn2 h
          · exact hn3 h
          · exact XOk.not hX rel5 h
          · exact pr1.u ((u_test hq).1 h)) pr1.fresh.2.1
        have gt : Goto G (b5.pos e) b.n := goto_of_ext hE hs.post.lt (by
          rintro (h | h | h)
          · exact hne h
          · exact XOk.not hX rel7 h
          · exact hs.post.u h) hs.post.fresh.2.1
        have E3 := ev1.extOp rel1 evg.inv Eh
        have g0 : Goto G (b.pos p) b.n := by
          rw [← pos3]
          exact goto_of_ext E3 p3.lt (by
            rintro (h | (h | h | h) | h)
            · omega
            · omega
            · omega
            · exact (hX p h).2.1 rfl
            · exact p3.u h) p3.fresh.2.1
        rw [g1.pos] at re
        rw [j2.pos] at ts
        exact ⟨_, v, b.n, b.n + 1, _, b.n + 2, g0, re, tt, ts, gt, ((j3.evo hs.evo (by omega)).evo evg' hne.symm).pos⟩
  · cases h

theorem do_ok {b : B σ} {p : Nat} {c : Expr σ} {s : Stmt σ} {brk cnt : Option Nat} {b' : B σ} {q : Nat} (hp : Pre b p)
    (ih : ∀ brk cnt b p b' q, brk.isSome = true → cnt.isSome = true → Pre b p → b.stmt brk cnt p s = some (b', q) → StmtOk P b p s brk cnt b' q)
    (h : b.stmt brk cnt p (.doWhile s c) = some (b', q)) : StmtOk P b p (.doWhile s c) brk cnt b' q := by
  have hlt := hp.lt
  obtain ⟨p3, ev3, i1, i2, i3, pos3⟩ := new3 hp
  have evg := evo_goto b.n p3.inv p3.u
  have g1 := i1.evo evg (by omega)
  have g2 := i2.evo evg (by omega)
  have g3 := i3.evo evg (by omega)
  have ev4 := ev3.trans evg hp.inv hp.lt hp.u (Rel.refl _ _)
  simp only [B.stmt] at h
  split at h
  · rename_i r hr
    obtain ⟨b5, e⟩ := r
    have hs := ih _ _ _ _ _ _ rfl rfl (g1.pre evg.inv) hr
    have evg' := evo_goto (b.n + 1) hs.post.inv hs.post.u
    have hne2 : e ≠ b.n + 1 := Rel.ne hs.q_new g2 (by omega)
    have hne3 : e ≠ b.n + 2 := Rel.ne hs.q_new g3 (by omega)
    have ev5 := ev4.trans hs.evo hp.inv hp.lt hp.u (Or.inr (Or.inl (Nat.le_refl _)))
    have rel5 : Rel b p e := Rel.jump ev4 (Nat.le_refl _) hs.q_new
    have ev6 := ev5.trans evg' hp.inv hp.lt hp.u rel5
    have k2 := (g2.evo hs.evo (by omega)).evo evg' hne2.symm
    have k3 := (g3.evo hs.evo (by omega)).evo evg' hne3.symm
    obtain ⟨h0, hq, v, e1, ev1, pr1, rel1, new1, rest1, run1⟩ := expr_part c (k2.pre evg'.inv)
    have hn3 : hq ≠ b.n + 2 := Rel.ne rel1 k3 (by omega)
    have ev7 := ev6.trans ev1 hp.inv hp.lt hp.u (Or.inr (Or.inl (Nat.le_succ _)))
    have rel7 : Rel b p hq := Rel.jump ev6 (Nat.le_succ _) rel1
    have evt := evo_test v b.n (b.n + 2) pr1.inv pr1.u
    have ev8 := ev7.trans evt hp.inv hp.lt hp.u rel7
    have l3 := (k3.evo ev1 (by omega)).evo evt hn3.symm
    simp only [e1, Option.some.injEq, Prod.mk.injEq] at h
    obtain ⟨rfl, rfl⟩ := h
    have r0 := rest_eq ((test_rest h0 hq v b.n (b.n + 2)).trans rest1)
    refine ⟨ev8, Or.inr (Or.inl (by omega)), l3.pre evt.inv, ?_, ?_⟩
    · rw [r0.2.2.1]; exact hs.sw
    · obtain ⟨cs, d, c1, d1, t1⟩ := hs.tr
      refine ⟨cs, d, ?_, ?_, ?_⟩
      · rw [r0.2.2.2.1]; exact c1
      · rw [r0.2.2.2.2]; exact d1
      · intro G L X hX hE hL
        have hX7 := XOk.evo hX ev6 (q := b.n + 1) (Or.inr (Or.inl (Nat.le_succ _)))
        have Eh : Ext h0 (Op hq (fun i => i = b.n + 2 ∨ X i) h0) G := hE.test (Or.inl rfl) (by
          rintro i _ (h | h | h)
          · exact Or.inr (Or.inl (Or.inl h))
          · exact Or.inr (Or.inl (Or.inr h))
          · exact Or.inr (Or.inr ((u_test i).1 h)))
        have re := run1 G _ (hX7.add k3 (by omega)) Eh
        have E6 := ev1.extOp rel1 evg'.inv Eh
        have E5 : Ext b5 (Op e (fun i => i = b.n + 1 ∨ i = b.n + 2 ∨ X i) b5) G := E6.goto (Or.inl rfl) (by
          rintro i _ (h | h | h)
          · exact Or.inr (Or.inl (Or.inl h))
          · exact Or.inr (Or.inl (Or.inr h))
          · exact Or.inr (Or.inr h))
        have hX4 := ((XOk.evo hX ev4 (q := b.n) (Or.inr (Or.inl (Nat.le_refl _)))).add g3 (by omega)).add g2 (by omega)
        have ts := t1 G L _ hX4 E5 (fun l c h => hL l c (evt.lab _ (ev1.lab _ h)))
        have E4 := hs.evo.extOp hs.q_new evg.inv E5
        have tt : Test G (h0.pos hq) v b.n (b.n + 2) := test_of_ext hE pr1.lt (by
          rintro (h | h | h)
          · exact hn3 h
          · exact XOk.not hX rel7 h
          · exact pr1.u ((u_test hq).1 h)) pr1.fresh.2.1
        have gt : Goto G (b5.pos e) (b.n + 1) := goto_of_ext E6 hs.post.lt (by
          rintro (h | (h | h) | h)
          · exact hne2 h
          · exact hne3 h
          · exact XOk.not hX rel5 h
          · exact hs.post.u h) hs.post.fresh.2.1
        have g0 : Goto G (b.pos p) b.n := by
          rw [← pos3]
          exact goto_of_ext E4 p3.lt (by
            rintro (h | (h | h | h) | h)
            · omega
            · omega
            · omega
            · exact (hX p h).2.1 rfl
            · exact p3.u h) p3.fresh.2.1
        rw [k2.pos] at re
        rw [g1.pos] at ts
        exact ⟨_, v, b.n, b.n + 1, _, b.n + 2, g0, ts, gt, re, tt, l3.pos⟩
  · cases h

end Verif.Cfg
