import Verif.Cfg.StmtLemmas3

/-! # Statements, continued: labels and switch -/

namespace Verif.Cfg

set_option linter.unusedSectionVars false

variable {σ : Type} [Prim σ] {P : Nat → Prop}

theorem lookup_mem {l c : Nat} : ∀ {ls : List (Nat × Nat)}, ls.lookup l = some c → (l, c) ∈ ls
  | [], h => by simp at h
  | (a, b) :: r, h => by
    rw [List.lookup_cons] at h
    by_cases hla : l = a
    · subst hla; simp at h; subst h; simp
    · rw [show (l == a) = false by simpa using hla] at h
      exact List.mem_cons_of_mem _ (lookup_mem h)

theorem lookup_none {l : Nat} : ∀ {ls : List (Nat × Nat)}, ls.lookup l = none → ∀ c, (l, c) ∉ ls
  | [], h, c => by simp
  | (a, b) :: r, h, c => by
    rw [List.lookup_cons] at h
    by_cases hla : l = a
    · subst hla; simp at h
    · rw [show (l == a) = false by simpa using hla] at h
      intro hm
      rcases List.mem_cons.1 hm with h' | h'
      · simp at h'; exact hla h'.1
      · exact lookup_none h c h'

theorem label_block {b : B σ} {p : Nat} (l : Nat) (hp : Pre b p) :
    ∃ b1 c, b.labelBlock l = (b1, c) ∧ Evo b p b1 ∧ Pre b1 p ∧ b1.pos p = b.pos p ∧ (l, c) ∈ b1.labels ∧ b1.defined = b.defined ∧
      b1.inSwitch = b.inSwitch ∧ b1.cases = b.cases ∧ b1.dflt = b.dflt ∧ (∀ x, x < b.n → U b x → U b1 x) := by
  have hlt := hp.lt
  unfold B.labelBlock
  split
  · rename_i c hc
    exact ⟨b, c, rfl, Evo.refl p hp.inv, hp, rfl, lookup_mem hc, rfl, rfl, rfl, rfl, fun _ _ h => h⟩
  · rename_i hc
    have hno := lookup_none hc
    obtain ⟨a1, a2, a3, a4, _, _⟩ := news hp
    have hmem : ∀ l' c', (l', c') ∈ b.labels ++ [(l, b.n)] ↔ ((l', c') ∈ b.labels ∨ (l' = l ∧ c' = b.n)) := by
      intro l' c'; simp
    have hU : ∀ x, U ({ b.new with labels := b.labels ++ [(l, b.n)] } : B σ) x ↔ (U b x ∨ (x = b.n ∧ l ∉ b.defined)) := by
      intro x
      constructor
      · rintro ⟨l', h1, h2⟩
        rcases (hmem l' x).1 h1 with h | ⟨rfl, rfl⟩
        · exact Or.inl ⟨l', h, h2⟩
        · exact Or.inr ⟨rfl, h2⟩
      · rintro (⟨l', h1, h2⟩ | ⟨rfl, h⟩)
        · exact ⟨l', (hmem l' x).2 (Or.inl h1), h2⟩
        · exact ⟨l, (hmem l b.n).2 (Or.inr ⟨rfl, rfl⟩), h⟩
    have hinv : Inv ({ b.new with labels := b.labels ++ [(l, b.n)] } : B σ) := by
      refine ⟨?_, ?_, ?_, ?_⟩
      · intro l' c h
        show c < b.n + 1
        rcases (hmem l' c).1 h with h | ⟨_, rfl⟩
        · have := hp.inv.lt l' c h; omega
        · omega
      · intro l1 l2 c h1 h2
        rcases (hmem l1 c).1 h1 with k1 | ⟨k1, k1'⟩ <;> rcases (hmem l2 c).1 h2 with k2 | ⟨k2, k2'⟩
        · exact hp.inv.inj l1 l2 c k1 k2
        · have := hp.inv.lt l1 c k1; omega
        · have := hp.inv.lt l2 _ k2; omega
        · omega
      · intro l' c1 c2 h1 h2
        rcases (hmem l' c1).1 h1 with k1 | ⟨k1, k1'⟩ <;> rcases (hmem l' c2).1 h2 with k2 | ⟨k2, k2'⟩
        · exact hp.inv.fn l' c1 c2 k1 k2
        · rw [k2] at k1; exact absurd k1 (hno c1)
        · rw [k1] at k2; exact absurd k2 (hno c2)
        · omega
      · intro x hx
        rcases (hU x).1 hx with h | ⟨rfl, h⟩
        · exact a2.inv.empty x h
        · exact a3.empty
    have hup : ¬ U ({ b.new with labels := b.labels ++ [(l, b.n)] } : B σ) p := by
      intro h
      rcases (hU p).1 h with h | ⟨h, _⟩
      · exact hp.u h
      · omega
    refine ⟨_, _, rfl, ⟨a2.n_le, a2.keep, a2.grow, ?_, ?_, hinv⟩, ⟨hinv, a1.lt, hup, a1.fresh⟩, a4, ?_, rfl, rfl, rfl, rfl, ?_⟩
    · intro x hx h
      rcases (hU x).1 h with h | ⟨h, _⟩
      · exact h
      · omega
    · rintro ⟨l', c⟩ h
      exact (hmem l' c).2 (Or.inl h)
    · exact (hmem l b.n).2 (Or.inr ⟨rfl, rfl⟩)
    · exact fun x _ h => (hU x).2 (Or.inl h)

theorem goto_ok {b : B σ} {p l : Nat} {brk cnt : Option Nat} {b' : B σ} {q : Nat} (hp : Pre b p) (hl : P l)
    (h : b.stmt brk cnt p (.goto l) = some (b', q)) : StmtOk P b p (.goto l) brk cnt b' q := by
  obtain ⟨b1, c, e1, ev1, pr1, pos1, mem1, def1, sw1, cs1, d1, _⟩ := label_block l hp
  simp only [B.stmt, e1, Option.some.injEq, Prod.mk.injEq] at h
  obtain ⟨rfl, rfl⟩ := h
  obtain ⟨h1, h2, h3, h4⟩ := jump_part pr1 (fun x => { x with j0 := some c }) rfl
  refine ⟨ev1.trans h1 hp.inv hp.lt hp.u (Rel.refl _ _), Or.inr (Or.inl ev1.n_le), h2, sw1, [], none, ?_, ?_, ?_⟩
  · show b1.cases = _
    rw [cs1]; simp
  · show Join _ _ b1.dflt
    rw [d1]; exact join_none _
  · intro G L X hX hE hL
    have g := h4 G X (XOk.evo hX ev1 (Rel.refl _ _)) hE
    rw [← pos1]
    exact ⟨⟨c, hL l c mem1, hl, by simp [B.pos, g], by simp [B.pos, g], by simp [B.pos, g, pr1.fresh.2.1]⟩, rfl, rfl⟩

/-- Going on at a block reserved before. -/
theorem go_on {b b3 : B σ} {p c : Nat} {s : Stmt σ} {brk cnt : Option Nat} {b' : B σ} {q : Nat} (hp : Pre b p) (ev3 : Evo b p b3)
    (hcp : c ≠ p) (hrel : Rel b p c) (id3 : Idle b3 c) (blk3 : b3.blk p = { b.blk p with j0 := some c }) (hu3 : ¬ U b3 p)
    (hs : StmtOk P b3 c s brk cnt b' q) {G : Nat → Block σ} {L : Nat → Option Nat} {X : Nat → Prop} (hX : XOk b p X)
    (hE : Ext b' (Op q X b') G)
    {cs : List (Int × Nat)} {d : Option Nat}
    (t1 : ∀ (G : Nat → Block σ) (L : Nat → Option Nat) (X : Nat → Prop), XOk b3 c X →
      Ext b' (Op q X b') G → (∀ l c, (l, c) ∈ b'.labels → L l = some c) → TrS G L P s brk cnt cs d (b3.pos c) (b'.pos q))
    (hL : ∀ l c, (l, c) ∈ b'.labels → L l = some c) : Goto G (b.pos p) c ∧ TrS G L P s brk cnt cs d (c, 0) (b'.pos q) := by
  have ts := t1 G L X (XOk.evo hX ev3 hrel) hE hL
  rw [id3.pos] at ts
  have E3 := hs.evo.extOp hs.q_new ev3.inv hE
  have g := sealed E3 (i := p) (by have := ev3.n_le; have := hp.lt; omega) (by
    rintro (h | h | h)
    · exact hcp h.symm
    · exact (hX p h).2.1 rfl
    · exact hu3 h)
  rw [blk3] at g
  exact ⟨⟨by simp [B.pos, g], by simp [B.pos, g], by simp [B.pos, g, hp.fresh.2.1]⟩, ts⟩

theorem label_ok {b : B σ} {p l : Nat} {s : Stmt σ} {brk cnt : Option Nat} {b' : B σ} {q : Nat} (hp : Pre b p)
    (ih : ∀ b p b' q, Pre b p → b.stmt brk cnt p s = some (b', q) → StmtOk P b p s brk cnt b' q)
    (h : b.stmt brk cnt p (.label l s) = some (b', q)) : StmtOk P b p (.label l s) brk cnt b' q := by
  have hlt := hp.lt
  obtain ⟨b1, c, e1, ev1, pr1, pos1, mem1, def1, sw1, cs1, d1, _⟩ := label_block l hp
  simp only [B.stmt, e1] at h
  split at h
  · cases h
  · rename_i hdef
    have uc : U b1 c := ⟨l, mem1, by rw [def1]; exact hdef⟩
    have hcp : c ≠ p := fun e => pr1.u (e ▸ uc)
    obtain ⟨b2, hb2⟩ : ∃ b2 : B σ, b2 = { b1 with defined := l :: b1.defined } := ⟨_, rfl⟩
    have lab2 : b2.labels = b1.labels := by rw [hb2]
    have def2 : b2.defined = l :: b1.defined := by rw [hb2]
    have blk2 : b2.blk = b1.blk := by rw [hb2]
    have n2 : b2.n = b1.n := by rw [hb2]
    have hU : ∀ x, U b2 x → U b1 x := by
      rintro x ⟨l', h1, h2⟩
      rw [lab2] at h1
      rw [def2] at h2
      exact ⟨l', h1, fun h => h2 (List.mem_cons_of_mem _ h)⟩
    have nuc : ¬ U b2 c := by
      rintro ⟨l', h1, h2⟩
      rw [lab2] at h1
      rw [def2] at h2
      have := pr1.inv.inj l' l c h1 mem1
      subst this
      exact h2 List.mem_cons_self
    have inv2 : Inv b2 := by
      refine ⟨?_, ?_, ?_, ?_⟩
      · intro l' c' h; rw [lab2] at h; rw [n2]; exact pr1.inv.lt l' c' h
      · intro l1 l2 c' h h'; rw [lab2] at h h'; exact pr1.inv.inj l1 l2 c' h h'
      · intro l1 l2 c' h h'; rw [lab2] at h h'; exact pr1.inv.fn l1 l2 c' h h'
      · intro x hx; rw [blk2]; exact pr1.inv.empty x (hU x hx)
    have ev2 : Evo b p b2 := by
      refine ⟨by rw [n2]; exact ev1.n_le, ?_, ?_, fun x hx h => ev1.u x hx (hU x h), ?_, inv2⟩
      · intro x h1 h2 h3; rw [blk2]; exact ev1.keep x h1 h2 h3
      · rw [blk2]; exact ev1.grow
      · intro e he; rw [lab2]; exact ev1.lab e he
    rw [← hb2] at h
    have hup : ¬ U b2 p := fun h => pr1.u (hU p h)
    have evg := evo_goto c inv2 hup
    have ev3 := ev2.trans evg hp.inv hp.lt hp.u (Rel.refl _ _)
    have id2 : Idle b2 c := ⟨by rw [n2]; exact pr1.inv.u_lt uc, nuc, by rw [blk2]; exact pr1.inv.empty c uc⟩
    have id3 := id2.evo evg hcp
    have hrel : Rel b p c := by
      by_cases hc : c < b.n
      · exact Or.inr (Or.inr (ev1.u c hc uc))
      · exact Or.inr (Or.inl (by omega))
    have hs := ih _ _ _ _ (id3.pre evg.inv) h
    refine ⟨ev3.trans hs.evo hp.inv hp.lt hp.u hrel, Rel.trans ev3 hrel hs.q_new, hs.post, ?_, ?_⟩
    · rw [hs.sw]; show b2.inSwitch = _; rw [hb2]; exact sw1
    · obtain ⟨cs, d, c1, jo, t1⟩ := hs.tr
      have e1' : (b2.goto p c).cases = b.cases := by show b2.cases = _; rw [hb2]; exact cs1
      have e2' : (b2.goto p c).dflt = b.dflt := by show b2.dflt = _; rw [hb2]; exact d1
      rw [e1'] at c1
      rw [e2'] at jo
      refine ⟨cs, d, c1, jo, ?_⟩
      intro G L X hX hE hL
      have pe : b1.blk p = b.blk p := by
        have hpos := pos1
        by_cases hlk : b.labels.lookup l = none
        · unfold B.labelBlock at e1
          rw [hlk] at e1
          simp only [Prod.mk.injEq] at e1
          rw [← e1.1]
          show b.new.blk p = _
          rw [new_blk, if_neg (by omega)]
        · obtain ⟨c', hc'⟩ := Option.ne_none_iff_exists'.1 hlk
          unfold B.labelBlock at e1
          rw [hc'] at e1
          simp only [Prod.mk.injEq] at e1
          rw [← e1.1]
      have := go_on hp ev3 hcp hrel id3 (by rw [goto_blk, if_pos rfl, blk2, pe]) hup hs hX hE t1 hL
      exact ⟨c, hL l c (hs.evo.lab _ (by show (l, c) ∈ b2.labels; rw [lab2]; exact mem1)), this.1, this.2⟩

theorem case_ok {b : B σ} {p : Nat} {n : Int} {s : Stmt σ} {brk cnt : Option Nat} {b' : B σ} {q : Nat} (hp : Pre b p)
    (ih : ∀ b p b' q, Pre b p → b.stmt brk cnt p s = some (b', q) → StmtOk P b p s brk cnt b' q)
    (h : b.stmt brk cnt p (.case n s) = some (b', q)) : StmtOk P b p (.case n s) brk cnt b' q := by
  have hlt := hp.lt
  obtain ⟨a1, a2, a3, a4, _, _⟩ := news hp
  simp only [B.stmt] at h
  split at h
  · obtain ⟨b2, hb2⟩ : ∃ b2 : B σ, b2 = { b.new with cases := b.cases ++ [(n, b.n)] } := ⟨_, rfl⟩
    have ev2 : Evo b p b2 := by
      rw [hb2]; exact ⟨a2.n_le, a2.keep, a2.grow, a2.u, a2.lab, ⟨a2.inv.lt, a2.inv.inj, a2.inv.fn, a2.inv.empty⟩⟩
    have id2 : Idle b2 b.n := by rw [hb2]; exact ⟨a3.lt, a3.u, a3.empty⟩
    have hup : ¬ U b2 p := by rw [hb2]; exact a1.u
    have blk2 : b2.blk = b.new.blk := by rw [hb2]
    rw [← hb2] at h
    have evg := evo_goto b.n ev2.inv hup
    have ev3 := ev2.trans evg hp.inv hp.lt hp.u (Rel.refl _ _)
    have id3 := id2.evo evg (by omega)
    have hrel : Rel b p b.n := Or.inr (Or.inl (Nat.le_refl _))
    have hs := ih _ _ _ _ (id3.pre evg.inv) h
    refine ⟨ev3.trans hs.evo hp.inv hp.lt hp.u hrel, Rel.trans ev3 hrel hs.q_new, hs.post, ?_, ?_⟩
    · rw [hs.sw]; show b2.inSwitch = _; rw [hb2]; rfl
    · obtain ⟨cs, d, c1, jo, t1⟩ := hs.tr
      have e1' : (b2.goto p b.n).cases = b.cases ++ [(n, b.n)] := by show b2.cases = _; rw [hb2]
      have e2' : (b2.goto p b.n).dflt = b.dflt := by show b2.dflt = _; rw [hb2]; rfl
      rw [e1'] at c1
      rw [e2'] at jo
      refine ⟨(n, b.n) :: cs, d, by rw [c1]; simp, jo, ?_⟩
      intro G L X hX hE hL
      have := go_on hp ev3 (by omega) hrel id3 (by rw [goto_blk, if_pos rfl, blk2, new_blk, if_neg (by omega)]) hup hs hX hE t1 hL
      exact ⟨b.n, cs, this.1, this.2, rfl⟩
  · cases h

theorem default_ok {b : B σ} {p : Nat} {s : Stmt σ} {brk cnt : Option Nat} {b' : B σ} {q : Nat} (hp : Pre b p)
    (ih : ∀ b p b' q, Pre b p → b.stmt brk cnt p s = some (b', q) → StmtOk P b p s brk cnt b' q)
    (h : b.stmt brk cnt p (.default s) = some (b', q)) : StmtOk P b p (.default s) brk cnt b' q := by
  have hlt := hp.lt
  obtain ⟨a1, a2, a3, a4, _, _⟩ := news hp
  simp only [B.stmt] at h
  split at h
  · split at h
    · cases h
    · rename_i hd
      have hd : b.dflt = none := by simpa using hd
      have evg' := evo_goto b.n a2.inv a1.u
      have idg := a3.evo evg' (by omega)
      obtain ⟨b3, hb3⟩ : ∃ b3 : B σ, b3 = { b.new.goto p b.n with dflt := some b.n } := ⟨_, rfl⟩
      have ev3' := a2.trans evg' hp.inv hp.lt hp.u (Rel.refl _ _)
      have ev3 : Evo b p b3 := by
        rw [hb3]; exact ⟨ev3'.n_le, ev3'.keep, ev3'.grow, ev3'.u, ev3'.lab, ⟨ev3'.inv.lt, ev3'.inv.inj, ev3'.inv.fn, ev3'.inv.empty⟩⟩
      have id3 : Idle b3 b.n := by rw [hb3]; exact ⟨idg.lt, idg.u, idg.empty⟩
      have hup : ¬ U b3 p := by rw [hb3]; exact a1.u
      rw [← hb3] at h
      have hrel : Rel b p b.n := Or.inr (Or.inl (Nat.le_refl _))
      have hs := ih _ _ _ _ (id3.pre ev3.inv) h
      refine ⟨ev3.trans hs.evo hp.inv hp.lt hp.u hrel, Rel.trans ev3 hrel hs.q_new, hs.post, ?_, ?_⟩
      · rw [hs.sw, hb3]; rfl
      · obtain ⟨cs, d, c1, jo, t1⟩ := hs.tr
        have e1' : b3.cases = b.cases := by rw [hb3]; rfl
        have e2' : b3.dflt = some b.n := by rw [hb3]
        rw [e1'] at c1
        rw [e2'] at jo
        rcases jo with ⟨h, _⟩ | ⟨rfl, h⟩
        · cases h
        refine ⟨cs, some b.n, c1, Or.inl ⟨hd, h⟩, ?_⟩
        intro G L X hX hE hL
        have := go_on hp ev3 (by omega) hrel id3 (by
          rw [hb3]
          show (b.new.goto p b.n).blk p = _
          rw [goto_blk, if_pos rfl, new_blk, if_neg (by omega)]) hup hs hX hE t1 hL
        exact ⟨b.n, this.1, this.2, rfl⟩
  · cases h

theorem chain_ok (v : V σ) (d : Nat) : ∀ (cs : List (Int × Nat)) (b : B σ) (m : Nat), Inv b → m < b.n → ¬ U b m →
    Evo b m ((b.chain m v cs).1.goto (b.chain m v cs).2 d) ∧ ((b.chain m v cs).1.goto (b.chain m v cs).2 d).rest = b.rest ∧
    ∀ (G : Nat → Block σ) (X : Nat → Prop), ¬ X m → (∀ x, X x → x < b.n) →
      Ext ((b.chain m v cs).1.goto (b.chain m v cs).2 d) (fun i => X i ∨ U b i) G →
      ∃ t0, G m = { b.blk m with j0 := some t0 } ∧ TrChain G v t0 cs d
  | [], b, m, hb, hm, hu => by
    refine ⟨evo_goto d hb hu, rfl, ?_⟩
    intro G X hX _ hE
    have g := sealed hE (i := m) hm (by
      rintro (h | h)
      · exact hX h
      · exact hu h)
    rw [show (b.chain m v []).1.goto (b.chain m v []).2 d = b.goto m d from rfl, goto_blk, if_pos rfl] at g
    exact ⟨d, g, rfl⟩
  | (n, c) :: r, b, m, hb, hm, hu => by
    have evn := evo_new (p := m) hb hm hu
    obtain ⟨b1, hb1⟩ : ∃ b1 : B σ, b1 = (b.new.upd b.n fun x => { x with expr := .eqc n v, j1 := some c }).goto m b.n := ⟨_, rfl⟩
    have blk1 : ∀ x, b1.blk x = if x = m then { b.blk m with j0 := some b.n } else if x = b.n then { expr := .eqc n v, j1 := some c } else b.blk x := by
      intro x
      rw [hb1, goto_blk]
      by_cases hx : x = m
      · rw [if_pos hx, if_pos hx, upd_blk, if_neg (by omega), new_blk, if_neg (by omega)]
      · rw [if_neg hx, if_neg hx, upd_blk]
        by_cases hx' : x = b.n
        · rw [if_pos hx', if_pos hx', new_blk, if_pos rfl]
        · rw [if_neg hx', if_neg hx', new_blk, if_neg hx']
    have rest1 : b1.rest = b.rest := by rw [hb1]; rfl
    have n1 : b1.n = b.n + 1 := by rw [hb1]; rfl
    have ev1 : Evo b m b1 := evo_of hb hu (by omega) (fun x hx hxm => by rw [blk1, if_neg hxm, if_neg (by omega)])
      (by rw [blk1, if_pos rfl]; exact List.prefix_refl _) (rest_eq rest1).1 (rest_eq rest1).2.1
    have u1 : ∀ x, U b1 x ↔ U b x := u_congr (rest_eq rest1).1 (rest_eq rest1).2.1
    have hun : ¬ U b1 b.n := fun h => absurd (hb.u_lt ((u1 _).1 h)) (by omega)
    obtain ⟨i1, i2, i3⟩ := chain_ok v d r b1 b.n ev1.inv (by omega) hun
    have e : b.chain m v ((n, c) :: r) = b1.chain b.n v r := by rw [hb1]; rfl
    rw [e]
    refine ⟨ev1.trans i1 hb hm hu (Or.inr (Or.inl (Nat.le_refl _))), i2.trans rest1, ?_⟩
    intro G X hX hlt hE
    obtain ⟨t', g1, g2⟩ := i3 G X (fun h => absurd (hlt _ h) (by omega)) (fun x h => by have := hlt x h; omega) (hE.mono (by
      rintro i _ (h | h)
      · exact Or.inl h
      · exact Or.inr ((u1 i).2 h)))
    have hum : ¬ U b1 m := fun h => hu ((u1 m).1 h)
    have g := sealed hE (i := m) (by have := i1.n_le; omega) (by
      rintro (h | h)
      · exact hX h
      · exact hu h)
    rw [i1.keep m (by omega) (by omega) hum, blk1, if_pos rfl] at g
    refine ⟨b.n, g, t', ?_, g2⟩
    rw [g1, blk1, if_neg (by omega), if_pos rfl]

theorem switch_ok {b : B σ} {p : Nat} {e : Expr σ} {s : Stmt σ} {brk cnt : Option Nat} {b' : B σ} {q : Nat} (hp : Pre b p)
    (ih : ∀ brk b p b' q, brk.isSome = true → Pre b p → b.stmt brk cnt p s = some (b', q) → StmtOk P b p s brk cnt b' q)
    (h : b.stmt brk cnt p (.switch e s) = some (b', q)) : StmtOk P b p (.switch e s) brk cnt b' q := by
  have hlt := hp.lt
  obtain ⟨p2, ev2, i1, i2, pos2⟩ := new2 hp
  obtain ⟨h0, hq, v, e1, ev1, pr1, rel1, new1, rest1, run1⟩ := expr_part e p2
  have hn1 : hq ≠ b.n := by simp at new1; omega
  have hn2 : hq ≠ b.n + 1 := by simp at new1; omega
  obtain ⟨gw, restw, runw⟩ := eval_ok h0 v pr1.lt
  obtain ⟨w, vw, hw⟩ : ∃ w vw, h0.eval hq v = (w, vw) := ⟨_, _, rfl⟩
  rw [hw] at gw restw runw
  simp only at gw restw runw
  have evw := evo_grow pr1.inv pr1.u gw restw
  have restw' := rest_eq (restw.trans rest1)
  have uw : ∀ x, U w x ↔ U h0 x := u_congr (rest_eq restw).1 (rest_eq restw).2.1
  have hqw : ¬ U w hq := fun h => pr1.u ((uw hq).1 h)
  have ev3 := ev2.trans ev1 hp.inv hp.lt hp.u (Rel.refl _ _)
  have rel3 : Rel b p hq := Rel.trans ev2 (Rel.refl _ _) rel1
  have ev4 := ev3.trans evw hp.inv hp.lt hp.u rel3
  have j1 := (i1.evo ev1 (by omega)).evo evw hn1.symm
  have j2 := (i2.evo ev1 (by omega)).evo evw hn2.symm
  obtain ⟨b4, hb4⟩ : ∃ b4 : B σ, b4 = { w with inSwitch := true, cases := [], dflt := none } := ⟨_, rfl⟩
  have ev4' : Evo b p b4 := by
    rw [hb4]; exact ⟨ev4.n_le, ev4.keep, ev4.grow, ev4.u, ev4.lab, ⟨ev4.inv.lt, ev4.inv.inj, ev4.inv.fn, ev4.inv.empty⟩⟩
  have k1 : Idle b4 b.n := by rw [hb4]; exact ⟨j1.lt, j1.u, j1.empty⟩
  have k2 : Idle b4 (b.n + 1) := by rw [hb4]; exact ⟨j2.lt, j2.u, j2.empty⟩
  have hq4 : ¬ U b4 hq := by rw [hb4]; exact hqw
  have blk4 : b4.blk = w.blk := by rw [hb4]
  have n4 : b4.n = w.n := by rw [hb4]
  have hqn : hq < b4.n := by rw [n4]; exact gw.q_lt
  simp only [B.stmt, e1, hw] at h
  rw [← hb4] at h
  split at h
  · cases h
  · rename_i r hr
    obtain ⟨b5, e'⟩ := r
    have hs := ih _ _ _ _ _ rfl (k1.pre ev4'.inv) hr
    have evg := evo_goto (b.n + 1) hs.post.inv hs.post.u
    have hne : e' ≠ b.n + 1 := Rel.ne hs.q_new k2 (by omega)
    have hneq : e' ≠ hq := by
      rintro rfl
      rcases hs.q_new with h | h | h
      · exact hn1 h
      · omega
      · exact hq4 h
    have ev5 := ev4'.trans hs.evo hp.inv hp.lt hp.u (Or.inr (Or.inl (Nat.le_refl _)))
    have rel5 : Rel b p e' := Rel.jump ev4' (Nat.le_refl _) hs.q_new
    have ev6 := ev5.trans evg hp.inv hp.lt hp.u rel5
    have l2 := (k2.evo hs.evo (by omega)).evo evg hne.symm
    have hq5 : ¬ U b5 hq := fun h => hq4 (hs.evo.u hq hqn h)
    have bq : (b5.goto e' (b.n + 1)).blk hq = w.blk hq := by
      rw [goto_blk, if_neg hneq.symm, hs.evo.keep hq hqn hn1 hq4, blk4]
    obtain ⟨b6, hb6⟩ : ∃ b6, b6 = b5.goto e' (b.n + 1) := ⟨_, rfl⟩
    have lab6 : b6.labels = b5.labels := by rw [hb6]; rfl
    have u6 : ∀ x, U b6 x ↔ U b5 x := by intro x; rw [hb6]; exact Iff.rfl
    have n6 : b6.n = b5.n := by rw [hb6]; rfl
    have n5 : b4.n ≤ b5.n := hs.evo.n_le
    simp only at h
    rw [← hb6] at h evg ev6 l2 bq
    obtain ⟨c1, c2, c3⟩ := chain_ok vw (b5.dflt.getD (b.n + 1)) b5.cases b6 hq evg.inv (by omega) (fun h => hq5 ((u6 hq).1 h))
    obtain ⟨b7, hb7⟩ : ∃ b7, b7 = (b6.chain hq vw b5.cases).1.goto (b6.chain hq vw b5.cases).2 (b5.dflt.getD (b.n + 1)) := ⟨_, rfl⟩
    rw [← hb7] at h c1 c2 c3
    have ev7 := ev6.trans c1 hp.inv hp.lt hp.u rel3
    have m2 := l2.evo c1 hn2.symm
    simp only [Option.some.injEq, Prod.mk.injEq] at h
    obtain ⟨h, rfl⟩ := h
    have hU' : ∀ x, U b' x ↔ U b7 x := by intro x; rw [← h]; exact Iff.rfl
    have hpos' : ∀ x, b'.pos x = b7.pos x := by intro x; rw [← h]; rfl
    have hlab' : b'.labels = b7.labels := by rw [← h]
    have hext : ∀ {O G}, Ext b' O G → Ext b7 O G := by intro O G hE; rw [← h] at hE; exact hE
    have m2' : Idle b' (b.n + 1) := by rw [← h]; exact ⟨m2.lt, m2.u, m2.empty⟩
    have ev7' : Evo b p b' := by
      rw [← h]; exact ⟨ev7.n_le, ev7.keep, ev7.grow, ev7.u, ev7.lab, ⟨ev7.inv.lt, ev7.inv.inj, ev7.inv.fn, ev7.inv.empty⟩⟩
    obtain ⟨cs, d, d1, d2, t1⟩ := hs.tr
    have hcs : b5.cases = cs := by rw [d1, hb4]; rfl
    have hd : b5.dflt = d := by
      rw [hb4] at d2
      rcases d2 with ⟨_, h⟩ | ⟨h1, h2⟩
      · exact h
      · rw [h2, h1]
    refine ⟨ev7', Or.inr (Or.inl (by omega)), m2'.pre ev7'.inv, ?_, [], none, ?_, ?_, ?_⟩
    · rw [← h]; exact restw'.2.2.1
    · rw [← h]; simp only [List.append_nil]; exact restw'.2.2.2.1
    · rw [← h]; show Join _ _ w.dflt; rw [restw'.2.2.2.2]; exact join_none _
    · intro G L X hX hE hL
      have u7 : ∀ x, U b7 x ↔ U b5 x := fun x => (u_congr (rest_eq c2).1 (rest_eq c2).2.1 x).trans (u6 x)
      have E7 : Ext b7 (fun i => (i = b.n + 1 ∨ X i) ∨ U b6 i) G := (hext hE).mono (by
        rintro i _ (h | h | h)
        · exact Or.inl (Or.inl h)
        · exact Or.inl (Or.inr h)
        · exact Or.inr ((u6 i).2 ((u7 i).1 ((hU' i).1 h))))
      have hXq : ¬ X hq := XOk.not hX rel3
      obtain ⟨t0, g1, g2⟩ := c3 G (fun i => i = b.n + 1 ∨ X i) (by
        rintro (h | h)
        · exact hn2 h
        · exact hXq h) (by
        rintro x (h | h)
        · have := l2.lt; omega
        · have := (hX x h).1; have := ev6.n_le; omega) E7
      have E6 : Ext b6 (fun i => i = hq ∨ (i = b.n + 1 ∨ X i) ∨ U b6 i) G := c1.ext E7 evg.inv (Or.inl rfl) (fun x hx => Or.inr (Or.inr hx)) (by
        intro i _ h; exact Or.inr h)
      have E5 : Ext b5 (Op e' (fun i => i = hq ∨ i = b.n + 1 ∨ X i) b5) G := by
        rw [hb6] at E6
        exact E6.goto (Or.inl rfl) (by
          rintro i _ (h | h | h)
          · exact Or.inr (Or.inl (Or.inl h))
          · exact Or.inr (Or.inl (Or.inr h))
          · exact Or.inr (Or.inr h))
      have hX4 : XOk b4 b.n (fun i => i = hq ∨ i = b.n + 1 ∨ X i) := by
        rintro x (rfl | h)
        · exact ⟨hqn, hn1, hq4⟩
        · exact ((XOk.evo hX ev4' (q := b.n) (Or.inr (Or.inl (Nat.le_refl _)))).add k2 (by omega)) x h
      have ts := t1 G L _ hX4 E5 (fun l c hm => hL l c (by rw [hlab']; exact c1.lab _ (by rw [lab6]; exact hm)))
      have E4 := hs.evo.extOp hs.q_new ev4'.inv E5
      have Ew : Ext w (fun i => i = b.n ∨ (i = hq ∨ i = b.n + 1 ∨ X i) ∨ U w i) G := by
        intro i hi
        have := E4 i (by omega)
        rw [blk4] at this
        refine ⟨this.1, fun hn => this.2 fun ho => hn ?_⟩
        rcases ho with h | h | h
        · exact Or.inl h
        · exact Or.inr (Or.inl h)
        · rw [hb4] at h; exact Or.inr (Or.inr h)
      have rw' := runw G _ Ew
      have Eh : Ext h0 (Op hq (fun i => i = b.n ∨ i = b.n + 1 ∨ X i) h0) G := gw.ext Ew (Or.inl rfl) (by
        rintro i _ (h | (h | h) | h)
        · exact Or.inr (Or.inl (Or.inl h))
        · exact Or.inl h
        · exact Or.inr (Or.inl (Or.inr h))
        · exact Or.inr (Or.inr ((uw i).1 h)))
      have hX2 : XOk b.new.new p (fun i => i = b.n ∨ i = b.n + 1 ∨ X i) := ((XOk.evo hX ev2 (Rel.refl _ _)).add i2 (by omega)).add i1 (by omega)
      have re := run1 G _ hX2 Eh
      rw [pos2] at re
      rw [k1.pos] at ts
      have gt : Goto G (b5.pos e') (b.n + 1) := by
        rw [hb6] at E6
        exact goto_of_ext E6 hs.post.lt (by
          rintro (h | (h | h) | h)
          · exact hneq h
          · exact hne h
          · exact XOk.not hX rel5 h
          · exact hs.post.u h) hs.post.fresh.2.1
      rw [bq] at g1
      have gm : Goto G (w.pos hq) t0 := ⟨by simp [B.pos, g1], by simp [B.pos, g1], by simp [B.pos, g1, (gw.fresh pr1.fresh).2.1]⟩
      rw [hcs, hd] at g2
      refine ⟨w.pos hq, vw, t0, b.n, _, b.n + 1, cs, d, ?_, gm, g2, ts, gt, m2'.pos, rfl, rfl⟩
      intro x
      obtain ⟨x1, s1, s2, s3, s7⟩ := re x
      obtain ⟨x2, s4, s5, s6, s8⟩ := rw' x1 s7
      exact ⟨x2, s1.trans s4, s5.trans s2, s6.trans s3, s8⟩

/-- Every statement is built right. -/
theorem stmt_ok (s : Stmt σ) : ∀ (brk cnt : Option Nat) (b : B σ) (p : Nat) (b' : B σ) (q : Nat), s.wf P brk.isSome cnt.isSome →
    Pre b p → b.stmt brk cnt p s = some (b', q) → StmtOk P b p s brk cnt b' q := by
  induction s with
  | skip =>
    intro brk cnt b p b' q _ hp h
    simp only [B.stmt, Option.some.injEq, Prod.mk.injEq] at h
    obtain ⟨rfl, rfl⟩ := h
    exact ⟨Evo.refl _ hp.inv, Rel.refl _ _, hp, rfl, [], none, by simp, join_none _, fun _ _ _ _ _ _ => ⟨rfl, rfl, rfl⟩⟩
  | expr e =>
    intro brk cnt b p b' q _ hp h
    simp only [B.stmt, Option.some.injEq, Prod.mk.injEq] at h
    obtain ⟨rfl, rfl⟩ := h
    exact expr_stmt_ok e hp
  | seq s t ih1 ih2 =>
    intro brk cnt b p b' q hw hp h
    simp only [B.stmt] at h
    split at h
    · rename_i r hr
      have h1 := ih1 brk cnt b p r.1 r.2 hw.1 hp hr
      exact seq_ok hp h1 (ih2 brk cnt r.1 r.2 b' q hw.2 h1.post h)
    · cases h
  | ite c s ih =>
    intro brk cnt b p b' q hw hp h
    exact ite_ok hp (fun b p b' q => ih brk cnt b p b' q hw) h
  | ifElse c s t ih1 ih2 =>
    intro brk cnt b p b' q hw hp h
    exact else_ok hp (fun b p b' q => ih1 brk cnt b p b' q hw.1) (fun b p b' q => ih2 brk cnt b p b' q hw.2) h
  | «while» c s ih =>
    intro brk cnt b p b' q hw hp h
    exact while_ok hp (fun brk cnt b p b' q h1 h2 => ih brk cnt b p b' q (by rw [h1, h2]; exact hw)) h
  | doWhile s c ih =>
    intro brk cnt b p b' q hw hp h
    exact do_ok hp (fun brk cnt b p b' q h1 h2 => ih brk cnt b p b' q (by rw [h1, h2]; exact hw)) h
  | «for» i c n s ih =>
    intro brk cnt b p b' q hw hp h
    exact for_ok hp (fun brk cnt b p b' q h1 h2 => ih brk cnt b p b' q (by rw [h1, h2]; exact hw)) h
  | brk =>
    intro brk cnt b p b' q hw hp h
    obtain ⟨t, rfl⟩ := Option.isSome_iff_exists.1 (show brk.isSome = true from hw)
    simp only [B.stmt, Option.some.injEq, Prod.mk.injEq] at h
    obtain ⟨rfl, rfl⟩ := h
    exact brk_ok hp
  | cont =>
    intro brk cnt b p b' q hw hp h
    obtain ⟨t, rfl⟩ := Option.isSome_iff_exists.1 (show cnt.isSome = true from hw)
    simp only [B.stmt, Option.some.injEq, Prod.mk.injEq] at h
    obtain ⟨rfl, rfl⟩ := h
    exact cont_ok hp
  | ret e =>
    intro brk cnt b p b' q _ hp h
    cases e with
    | none =>
      simp only [B.stmt, Option.some.injEq, Prod.mk.injEq] at h
      obtain ⟨rfl, rfl⟩ := h
      exact ret_ok hp
    | some e => exact retval_ok e hp h
  | goto l =>
    intro brk cnt b p b' q hw hp h
    exact goto_ok hp hw h
  | label l s ih =>
    intro brk cnt b p b' q hw hp h
    exact label_ok hp (fun b p b' q => ih brk cnt b p b' q hw) h
  | switch e s ih =>
    intro brk cnt b p b' q hw hp h
    exact switch_ok hp (fun brk b p b' q h1 => ih brk cnt b p b' q (by rw [h1]; exact hw)) h
  | case n s ih =>
    intro brk cnt b p b' q hw hp h
    exact case_ok hp (fun b p b' q => ih brk cnt b p b' q hw) h
  | default s ih =>
    intro brk cnt b p b' q hw hp h
    exact default_ok hp (fun b p b' q => ih brk cnt b p b' q hw) h

/-- The finished graph. -/
theorem build_tr {body : Stmt σ} {r : B σ × Nat} (hw : body.wf P false false) (hr : ({} : B σ).new.stmt none none 0 body = some r) :
    ∃ (q : Pos) (cs : List (Int × Nat)) (d : Option Nat), TrS r.1.blk (fun l => r.1.labels.lookup l) P body none none cs d (0, 0) q ∧
      (r.1.blk q.1).acts.length = q.2 ∧ (r.1.blk q.1).Fresh := by
  obtain ⟨b1, q⟩ := r
  have inv0 : Inv ({} : B σ).new := by
    refine ⟨?_, ?_, ?_, ?_⟩
    · intro l c h; simp [B.new, B.upd] at h
    · intro l l' c h; simp [B.new, B.upd] at h
    · intro l l' c h; simp [B.new, B.upd] at h
    · rintro x ⟨l, h, _⟩; simp [B.new, B.upd] at h
  have hs := stmt_ok (P := P) body none none _ 0 b1 q hw ⟨inv0, by simp, by rintro ⟨l, h, _⟩; simp [B.new, B.upd] at h, by
    rw [new_blk, if_pos rfl]; exact fresh_empty⟩ hr
  obtain ⟨cs, d, _, _, t1⟩ := hs.tr
  have := t1 b1.blk (fun l => b1.labels.lookup l) (fun _ => False) (fun x h => h.elim) (fun i _ => ⟨List.prefix_refl _, fun _ => rfl⟩) (by
    intro l c hm
    cases hk : b1.labels.lookup l with
    | none => exact absurd hm (lookup_none hk c)
    | some c' => rw [hs.post.inv.fn l c c' hm (lookup_mem hk)])
  exact ⟨_, cs, d, this, rfl, hs.post.fresh⟩

theorem build_ok {body : Stmt σ} {b : B σ} (hw : body.wf P false false) (h : build body = some b) :
    ∃ (q : Pos) (cs : List (Int × Nat)) (d : Option Nat) (L : Nat → Option Nat), TrS b.blk L P body none none cs d (0, 0) q ∧
      (b.blk q.1).acts.length = q.2 ∧ (b.blk q.1).Fresh := by
  unfold build at h
  split at h
  · rename_i r hr
    split at h
    · simp only [Option.some.injEq] at h
      subst h
      obtain ⟨q, cs, d, h1, h2⟩ := build_tr hw hr
      exact ⟨q, cs, d, _, h1, h2⟩
    · cases h
  · cases h

end Verif.Cfg
