import Verif.Cfg.StmtLemmas2

/-! # Statements, continued: `for` -/

namespace Verif.Cfg

set_option linter.unusedSectionVars false

variable {σ : Type} [Prim σ] {P : Nat → Prop}

def forTest (b : B σ) (p top body tail : Nat) : Option (Expr σ) → B σ × Nat
  | some e =>
    (((b.goto p top).expr top e).1.test ((b.goto p top).expr top e).2.1 ((b.goto p top).expr top e).2.2 body tail, top)
  | none => (b.goto p body, body)

def forIncr (b : B σ) (incr t : Nat) : Option (Expr σ) → B σ × Nat
  | some e => ((b.expr incr e).1.goto (b.expr incr e).2.1 t, incr)
  | none => (b, t)

/-- The controlling expression of a `for` statement. -/
theorem test_part {b0 b : B σ} {p0 p top body tail : Nat} (c : Option (Expr σ)) (hp0 : Pre b0 p0) (ev0 : Evo b0 p0 b)
    (rel0 : Rel b0 p0 p) (hp : Pre b p) (i1 : Idle b top) (i2 : Idle b body)
    (i4 : Idle b tail) (n1 : b0.n ≤ top) (h1 : top ≠ p) (h2 : body ≠ p) (h4 : tail ≠ p) (d1 : body ≠ top) (d2 : tail ≠ top) :
    ∃ b' t, forTest b p top body tail c = (b', t) ∧
      Evo b0 p0 b' ∧ b'.rest = b.rest ∧ (∀ x, Idle b x → x ≠ p → x ≠ top → Idle b' x) ∧ (t = top ∨ t = body) ∧
      ∀ (G : Nat → Block σ) (X : Nat → Prop), XOk b p X → X body → X tail → ¬ X top → Ext b' (fun i => X i ∨ U b' i) G →
        Ext b (Op p (fun i => i = top ∨ X i) b) G ∧ Goto G (b.pos p) t ∧
        match c with | none => t = body | some a => ∃ m v, ExecE G a (t, 0) m v ∧ Test G m v body tail := by
  cases c with
  | none =>
    have ev := evo_goto body hp.inv hp.u
    refine ⟨_, _, rfl, ev0.trans ev hp0.inv hp0.lt hp0.u rel0, rfl, fun x hx hxp _ => hx.evo ev hxp, Or.inr rfl, ?_⟩
    intro G X hX _ _ _ hE
    refine ⟨hE.goto (Or.inl rfl) (by
      rintro i _ (h | h)
      · exact Or.inr (Or.inl (Or.inr h))
      · exact Or.inr (Or.inr h)), goto_of_ext hE hp.lt (by
      rintro (h | h)
      · exact (hX p h).2.1 rfl
      · exact hp.u h) hp.fresh.2.1, rfl⟩
  | some e =>
    have ev := evo_goto top hp.inv hp.u
    have k1 := i1.evo ev h1
    obtain ⟨h0, hq, v, e1, ev1, pr1, rel1, new1, rest1, run1⟩ := expr_part e (k1.pre ev.inv)
    have evt := evo_test v body tail pr1.inv pr1.u
    have evA := ev0.trans ev hp0.inv hp0.lt hp0.u rel0
    have evB := evA.trans ev1 hp0.inv hp0.lt hp0.u (Or.inr (Or.inl n1))
    have relB : Rel b0 p0 hq := Rel.jump evA n1 rel1
    have evC := evB.trans evt hp0.inv hp0.lt hp0.u relB
    have hne : ∀ x, Idle b x → x ≠ p → x ≠ top → hq ≠ x := fun x hx hxp hxt => Rel.ne rel1 (hx.evo ev hxp) hxt
    refine ⟨h0.test hq v body tail, top, by simp [forTest, e1], evC, (test_rest _ _ _ _ _).trans rest1, ?_, Or.inl rfl, ?_⟩
    · intro x hx hxp hxt
      exact ((hx.evo ev hxp).evo ev1 hxt).evo evt (hne x hx hxp hxt).symm
    · intro G X hX hb ht hnt hE
      have hX1 : XOk (b.goto p top) top X := by
        intro x hx
        obtain ⟨a1, a2, a3⟩ := hX x hx
        exact ⟨a1, fun h => hnt (h ▸ hx), a3⟩
      have hXq : ¬ X hq := XOk.not hX1 rel1
      have Eh : Ext h0 (Op hq X h0) G := hE.test (Or.inl rfl) (by
        rintro i _ (h | h)
        · exact Or.inr (Or.inl h)
        · exact Or.inr (Or.inr ((u_test i).1 h)))
      have re := run1 G X hX1 Eh
      have E1 := ev1.extOp rel1 ev.inv Eh
      rw [k1.pos] at re
      refine ⟨E1.goto (Or.inl rfl) (by
        rintro i _ (h | h | h)
        · exact Or.inr (Or.inl (Or.inl h))
        · exact Or.inr (Or.inl (Or.inr h))
        · exact Or.inr (Or.inr h)), goto_of_ext E1 hp.lt (by
        rintro (h | h | h)
        · exact h1 h.symm
        · exact (hX p h).2.1 rfl
        · exact hp.u h) hp.fresh.2.1, _, v, re, test_of_ext hE pr1.lt (by
        rintro (h | h)
        · exact hXq h
        · exact pr1.u ((u_test hq).1 h)) pr1.fresh.2.1⟩

/-- The third expression of a `for` statement. -/
theorem incr_part {b0 b : B σ} {p0 incr t : Nat} (n : Option (Expr σ)) (hp0 : Pre b0 p0) (ev0 : Evo b0 p0 b)
    (i3 : Idle b incr) (n3 : b0.n ≤ incr) :
    ∃ b' k, forIncr b incr t n = (b', k) ∧
      Evo b0 p0 b' ∧ b'.rest = b.rest ∧ (∀ x, Idle b x → x ≠ incr → Idle b' x) ∧
      ∀ (G : Nat → Block σ) (X : Nat → Prop), XOk b incr X → Ext b' (fun i => X i ∨ U b' i) G →
        Ext b (fun i => (i = incr ∨ X i) ∨ U b i) G ∧
        match n with | none => k = t | some a => ∃ m v, ExecE G a (k, 0) m v ∧ Goto G m t := by
  cases n with
  | none =>
    refine ⟨_, _, rfl, ev0, rfl, fun x hx _ => hx, ?_⟩
    intro G X hX hE
    exact ⟨hE.mono (by
      rintro i _ (h | h)
      · exact Or.inl (Or.inr h)
      · exact Or.inr h), rfl⟩
  | some e =>
    obtain ⟨h0, hq, v, e1, ev1, pr1, rel1, new1, rest1, run1⟩ := expr_part e (i3.pre ev0.inv)
    have evB := ev0.trans ev1 hp0.inv hp0.lt hp0.u (Or.inr (Or.inl n3))
    have relB : Rel b0 p0 hq := Rel.jump ev0 n3 rel1
    have evg := evo_goto t pr1.inv pr1.u
    refine ⟨h0.goto hq t, incr, by simp [forIncr, e1], evB.trans evg hp0.inv hp0.lt hp0.u relB, rest1, ?_, ?_⟩
    · intro x hx hxi
      exact (hx.evo ev1 hxi).evo evg (Rel.ne rel1 hx hxi).symm
    · intro G X hX hE
      have Eh : Ext h0 (Op hq X h0) G := hE.goto (Or.inl rfl) (by
        rintro i _ (h | h)
        · exact Or.inr (Or.inl h)
        · exact Or.inr (Or.inr h))
      have re := run1 G X hX Eh
      rw [i3.pos] at re
      have E1 := ev1.extOp rel1 ev0.inv Eh
      exact ⟨E1.mono (by
        rintro i _ (h | h | h)
        · exact Or.inl (Or.inl h)
        · exact Or.inl (Or.inr h)
        · exact Or.inr h), _, v, re, goto_of_ext hE pr1.lt (by
        rintro (h | h)
        · exact XOk.not hX rel1 h
        · exact pr1.u h) pr1.fresh.2.1⟩

theorem for_stmt (b : B σ) (brk cnt : Option Nat) (p : Nat) (i c n : Option (Expr σ)) (s : Stmt σ) :
    b.stmt brk cnt p (.for i c n s) =
      match (forIncr (forTest (forInit b.new.new.new.new p i).1 (forInit b.new.new.new.new p i).2 b.n (b.n + 1) (b.n + 3) c).1 (b.n + 2)
        (forTest (forInit b.new.new.new.new p i).1 (forInit b.new.new.new.new p i).2 b.n (b.n + 1) (b.n + 3) c).2 n).1.stmt (some (b.n + 3))
        (some (forIncr (forTest (forInit b.new.new.new.new p i).1 (forInit b.new.new.new.new p i).2 b.n (b.n + 1) (b.n + 3) c).1 (b.n + 2)
        (forTest (forInit b.new.new.new.new p i).1 (forInit b.new.new.new.new p i).2 b.n (b.n + 1) (b.n + 3) c).2 n).2) (b.n + 1) s with
      | some r => some (r.1.goto r.2 (forIncr (forTest (forInit b.new.new.new.new p i).1 (forInit b.new.new.new.new p i).2 b.n (b.n + 1) (b.n + 3) c).1 (b.n + 2)
        (forTest (forInit b.new.new.new.new p i).1 (forInit b.new.new.new.new p i).2 b.n (b.n + 1) (b.n + 3) c).2 n).2, b.n + 3)
      | none => none := by
  cases n <;> cases c <;> cases i <;> rfl

theorem for_ok {b : B σ} {p : Nat} {i c n : Option (Expr σ)} {s : Stmt σ} {brk cnt : Option Nat} {b' : B σ} {q : Nat} (hp : Pre b p)
    (ih : ∀ brk cnt b p b' q, brk.isSome = true → cnt.isSome = true → Pre b p → b.stmt brk cnt p s = some (b', q) → StmtOk P b p s brk cnt b' q)
    (h : b.stmt brk cnt p (.for i c n s) = some (b', q)) : StmtOk P b p (.for i c n s) brk cnt b' q := by
  have hlt := hp.lt
  obtain ⟨p4, ev4, i1, i2, i3, i4, pos4⟩ := new4 hp
  obtain ⟨b5, p5, e5, ev5, pr5, rel5, rest5, run5⟩ := init_part i p4
  have ne1 : b.n ≠ p5 := (Rel.ne rel5 i1 (by omega)).symm
  have ne2 : b.n + 1 ≠ p5 := (Rel.ne rel5 i2 (by omega)).symm
  have ne3 : b.n + 2 ≠ p5 := (Rel.ne rel5 i3 (by omega)).symm
  have ne4 : b.n + 3 ≠ p5 := (Rel.ne rel5 i4 (by omega)).symm
  have j1 := i1.evo ev5 (by omega)
  have j2 := i2.evo ev5 (by omega)
  have j3 := i3.evo ev5 (by omega)
  have j4 := i4.evo ev5 (by omega)
  have ev05 := ev4.trans ev5 hp.inv hp.lt hp.u (Rel.refl _ _)
  have rel05 : Rel b p p5 := Rel.trans ev4 (Rel.refl _ _) rel5
  obtain ⟨b6, t, e6, ev6, rest6, idle6, ht, run6⟩ :=
    test_part c hp ev05 rel05 pr5 j1 j2 j4 (Nat.le_refl _) ne1 ne2 ne4 (by omega) (by omega)
  have k2 := idle6 _ j2 ne2 (by omega)
  have k3 := idle6 _ j3 ne3 (by omega)
  have k4 := idle6 _ j4 ne4 (by omega)
  obtain ⟨b7, k, e7, ev7, rest7, idle7, run7⟩ := incr_part (t := t) n hp ev6 k3 (by omega)
  have l2 := idle7 _ k2 (by omega)
  have l4 := idle7 _ k4 (by omega)
  rw [for_stmt, e5] at h
  simp only [e6] at h
  simp only [e7] at h
  split at h
  · rename_i r hr
    obtain ⟨b8, e⟩ := r
    simp only [Option.some.injEq, Prod.mk.injEq] at h
    obtain ⟨rfl, rfl⟩ := h
    have hs := ih _ _ _ _ _ _ rfl rfl (l2.pre ev7.inv) hr
    have evg := evo_goto k hs.post.inv hs.post.u
    have hne : e ≠ b.n + 3 := Rel.ne hs.q_new l4 (by omega)
    have ev8 := ev7.trans hs.evo hp.inv hp.lt hp.u (Or.inr (Or.inl (Nat.le_succ _)))
    have rel8 : Rel b p e := Rel.jump ev7 (Nat.le_succ _) hs.q_new
    have ev9 := ev8.trans evg hp.inv hp.lt hp.u rel8
    have m4 := (l4.evo hs.evo (by omega)).evo evg hne.symm
    have r0 := rest_eq (((rest7.trans rest6).trans rest5))
    refine ⟨ev9, Or.inr (Or.inl (by omega)), m4.pre evg.inv, ?_, ?_⟩
    · show b8.inSwitch = _
      rw [hs.sw, r0.2.2.1]; rfl
    · obtain ⟨cs, d, c1, d1, t1⟩ := hs.tr
      refine ⟨cs, d, ?_, ?_, ?_⟩
      · show b8.cases = _
        rw [c1, r0.2.2.2.1]; rfl
      · show Join _ _ b8.dflt
        rw [r0.2.2.2.2] at d1; exact d1
      · intro G L X hX hE hL
        have hX7 := (XOk.evo hX ev7 (q := b.n + 1) (Or.inr (Or.inl (Nat.le_succ _)))).add l4 (by omega)
        have E8 : Ext b8 (Op e (fun i => i = b.n + 3 ∨ X i) b8) G := hE.goto (Or.inl rfl) (by
          rintro i _ (h | h | h)
          · exact Or.inr (Or.inl (Or.inl h))
          · exact Or.inr (Or.inl (Or.inr h))
          · exact Or.inr (Or.inr h))
        have ts := t1 G L _ hX7 E8 hL
        have E7 := hs.evo.extOp hs.q_new ev7.inv E8
        have gt : Goto G (b8.pos e) k := goto_of_ext hE hs.post.lt (by
          rintro (h | h | h)
          · exact hne h
          · exact XOk.not hX rel8 h
          · exact hs.post.u h) hs.post.fresh.2.1
        have hX6 : XOk b6 (b.n + 2) (fun i => i = b.n + 1 ∨ i = b.n + 3 ∨ X i) :=
          ((XOk.evo hX ev6 (q := b.n + 2) (Or.inr (Or.inl (by omega)))).add k4 (by omega)).add k2 (by omega)
        obtain ⟨E6, ti⟩ := run7 G _ hX6 (E7.mono (by
          rintro i _ (h | h | h)
          · exact Or.inl (Or.inl h)
          · exact Or.inl (Or.inr h)
          · exact Or.inr h))
        have hX5 : XOk b5 p5 (fun i => i = b.n + 2 ∨ i = b.n + 1 ∨ i = b.n + 3 ∨ X i) :=
          (((XOk.evo hX ev05 rel05).add j4 ne4).add j2 ne2).add j3 ne3
        obtain ⟨E5, g5, tc⟩ := run6 G _ hX5 (Or.inr (Or.inl rfl)) (Or.inr (Or.inr (Or.inl rfl))) (by
          rintro (h | h | h | h)
          · omega
          · omega
          · omega
          · have := (hX _ h).1; omega) E6
        have hX4 : XOk b.new.new.new.new p (fun i => i = b.n ∨ i = b.n + 2 ∨ i = b.n + 1 ∨ i = b.n + 3 ∨ X i) :=
          ((((XOk.evo hX ev4 (Rel.refl _ _)).add i4 (by omega)).add i2 (by omega)).add i3 (by omega)).add i1 (by omega)
        have t5 := run5 G _ hX4 E5
        rw [pos4] at t5
        rw [l2.pos] at ts
        exact ⟨b5.pos p5, t, b.n + 1, k, _, b.n + 3, t5, g5, tc, ti, ts, gt, m4.pos⟩
  · cases h

end Verif.Cfg
