import Verif.Cfg.ExprLemmas

/-! # Statements: what the finished graph looks like -/

namespace Verif.Cfg

set_option linter.unusedSectionVars false

variable {σ : Type} [Prim σ]

def Join (a b c : Option Nat) : Prop := (a = none ∧ c = b) ∨ (b = none ∧ c = a)

/-- The chain of comparisons of a switch, entered at `t`. -/
def TrChain (G : Nat → Block σ) (v : V σ) : Nat → List (Int × Nat) → Nat → Prop
  | t, [], d => t = d
  | t, (n, c) :: r, d => ∃ t', G t = { expr := .eqc n v, j0 := some t', j1 := some c } ∧ TrChain G v t' r d

/-- The statement `s` is in graph `G` from position `p` on, and ends at `q`; `cs` and `d` are its case labels and default label. -/
def TrS (G : Nat → Block σ) (L : Nat → Option Nat) (P : Nat → Prop) :
    Stmt σ → Option Nat → Option Nat → List (Int × Nat) → Option Nat → Pos → Pos → Prop
  | .skip, _, _, cs, d, p, q => q = p ∧ cs = [] ∧ d = none
  | .expr e, _, _, cs, d, p, q => (∃ v, ExecE G e p q v) ∧ cs = [] ∧ d = none
  | .seq s t, brk, cnt, cs, d, p, q =>
    ∃ m cs1 d1 cs2 d2, TrS G L P s brk cnt cs1 d1 p m ∧ TrS G L P t brk cnt cs2 d2 m q ∧ cs = cs1 ++ cs2 ∧ Join d1 d2 d
  | .ite c s, brk, cnt, cs, d, p, q =>
    ∃ m v r e n, ExecE G c p m v ∧ Test G m v r n ∧ TrS G L P s brk cnt cs d (r, 0) e ∧ Goto G e n ∧ q = (n, 0)
  | .ifElse c s t, brk, cnt, cs, d, p, q =>
    ∃ m v r e l e' n cs1 d1 cs2 d2, ExecE G c p m v ∧ Test G m v r l ∧ TrS G L P s brk cnt cs1 d1 (r, 0) e ∧ Goto G e n ∧
      TrS G L P t brk cnt cs2 d2 (l, 0) e' ∧ Goto G e' n ∧ q = (n, 0) ∧ cs = cs1 ++ cs2 ∧ Join d1 d2 d
  | .while c s, _, _, cs, d, p, q =>
    ∃ m v top body e n, Goto G p top ∧ ExecE G c (top, 0) m v ∧ Test G m v body n ∧
      TrS G L P s (some n) (some top) cs d (body, 0) e ∧ Goto G e top ∧ q = (n, 0)
  | .doWhile s c, _, _, cs, d, p, q =>
    ∃ m v top cond e n, Goto G p top ∧ TrS G L P s (some n) (some cond) cs d (top, 0) e ∧ Goto G e cond ∧
      ExecE G c (cond, 0) m v ∧ Test G m v top n ∧ q = (n, 0)
  | .for i c x s, _, _, cs, d, p, q =>
    ∃ p' top body incr e n,
      (match i with | none => p' = p | some a => ∃ v, ExecE G a p p' v) ∧ Goto G p' top ∧
      (match c with | none => top = body | some a => ∃ m v, ExecE G a (top, 0) m v ∧ Test G m v body n) ∧
      (match x with | none => incr = top | some a => ∃ m v, ExecE G a (incr, 0) m v ∧ Goto G m top) ∧
      TrS G L P s (some n) (some incr) cs d (body, 0) e ∧ Goto G e incr ∧ q = (n, 0)
  | .brk, brk, _, cs, d, p, _ => (∃ t, brk = some t ∧ Goto G p t) ∧ cs = [] ∧ d = none
  | .cont, _, cnt, cs, d, p, _ => (∃ t, cnt = some t ∧ Goto G p t) ∧ cs = [] ∧ d = none
  | .ret none, _, _, cs, d, p, _ => ((G p.1).acts.length = p.2 ∧ (G p.1).Fresh) ∧ cs = [] ∧ d = none
  | .ret (some e), _, _, cs, d, p, _ =>
    (∃ m v, ExecE G e p m v ∧ (G m.1).acts.length = m.2 ∧ (G m.1).j0 = none ∧ (G m.1).j1 = none ∧ (G m.1).ret = true ∧
      (G m.1).expr = v) ∧ cs = [] ∧ d = none
  | .goto l, _, _, cs, d, p, _ => (∃ t, L l = some t ∧ P l ∧ Goto G p t) ∧ cs = [] ∧ d = none
  | .label l s, brk, cnt, cs, d, p, q => ∃ t, L l = some t ∧ Goto G p t ∧ TrS G L P s brk cnt cs d (t, 0) q
  | .switch e s, _, cnt, cs, d, p, q =>
    ∃ m v t0 body last n cs' d', (∀ x : Mem σ, ∃ x', Star G (at_ p x) (at_ m x') ∧ x'.user = (e.eval x.user).1 ∧ v.get x' = (e.eval x.user).2 ∧ v.ok x') ∧
      Goto G m t0 ∧ TrChain G v t0 cs' (d'.getD n) ∧ TrS G L P s (some n) cnt cs' d' (body, 0) last ∧ Goto G last n ∧
      q = (n, 0) ∧ cs = [] ∧ d = none
  | .case n s, brk, cnt, cs, d, p, q => ∃ t cs', Goto G p t ∧ TrS G L P s brk cnt cs' d (t, 0) q ∧ cs = (n, t) :: cs'
  | .default s, brk, cnt, cs, d, p, q => ∃ t, Goto G p t ∧ TrS G L P s brk cnt cs none (t, 0) q ∧ d = some t

/-- Blocks of labels that are used but not yet defined. -/
def U (b : B σ) (x : Nat) : Prop := ∃ l, (l, x) ∈ b.labels ∧ l ∉ b.defined

structure Inv (b : B σ) : Prop where
  lt : ∀ l c, (l, c) ∈ b.labels → c < b.n
  inj : ∀ l l' c, (l, c) ∈ b.labels → (l', c) ∈ b.labels → l = l'
  fn : ∀ l c c', (l, c) ∈ b.labels → (l, c') ∈ b.labels → c = c'
  empty : ∀ x, U b x → b.blk x = {}

theorem Inv.u_lt {b : B σ} (h : Inv b) {x : Nat} (hx : U b x) : x < b.n := by
  obtain ⟨l, h1, _⟩ := hx
  exact h.lt l x h1

/-- From `b`, with open block `p`, the construction went on to `b'`. -/
structure Evo (b : B σ) (p : Nat) (b' : B σ) : Prop where
  n_le : b.n ≤ b'.n
  keep : ∀ x, x < b.n → x ≠ p → ¬ U b x → b'.blk x = b.blk x
  grow : (b.blk p).acts <+: (b'.blk p).acts
  u : ∀ x, x < b.n → U b' x → U b x
  lab : ∀ e, e ∈ b.labels → e ∈ b'.labels
  inv : Inv b'

theorem Evo.trans {b b1 b2 : B σ} {p q : Nat} (h1 : Evo b p b1) (h2 : Evo b1 q b2) (hb : Inv b) (hp : p < b.n) (hu : ¬ U b p)
    (hq : q = p ∨ b.n ≤ q ∨ U b q) : Evo b p b2 := by
  have hn := h1.n_le
  have hu1 : ∀ x, x < b.n → ¬ U b x → ¬ U b1 x := fun x hx hn h => hn (h1.u x hx h)
  refine ⟨h1.n_le.trans h2.n_le, ?_, ?_, ?_, fun e he => h2.lab e (h1.lab e he), h2.inv⟩
  · intro x hx hxp hxu
    have hxq : x ≠ q := by
      rcases hq with h | h | h
      · omega
      · omega
      · intro e; subst e; exact hxu h
    rw [h2.keep x (by omega) hxq (hu1 x hx hxu), h1.keep x hx hxp hxu]
  · by_cases hpq : p = q
    · subst hpq; exact h1.grow.trans h2.grow
    · rw [h2.keep p (by omega) hpq (hu1 p hp hu)]; exact h1.grow
  · exact fun x hx h => h1.u x hx (h2.u x (by omega) h)

theorem u_congr {b b' : B σ} (h1 : b'.labels = b.labels) (h2 : b'.defined = b.defined) (x : Nat) : U b' x ↔ U b x := by
  unfold U; rw [h1, h2]

/-- Steps that do not touch labels. -/
theorem evo_of {b b' : B σ} {p : Nat} (hb : Inv b) (hu : ¬ U b p) (hn : b.n ≤ b'.n)
    (hk : ∀ x, x < b.n → x ≠ p → b'.blk x = b.blk x)
    (hg : (b.blk p).acts <+: (b'.blk p).acts) (h1 : b'.labels = b.labels) (h2 : b'.defined = b.defined) : Evo b p b' := by
  refine ⟨hn, fun x hx hxp _ => hk x hx hxp, hg, fun x _ h => (u_congr h1 h2 x).1 h, fun e he => by rw [h1]; exact he, ?_⟩
  refine ⟨?_, ?_, ?_, ?_⟩
  · intro l c h; rw [h1] at h; have := hb.lt l c h; omega
  · intro l l' c h h'; rw [h1] at h h'; exact hb.inj l l' c h h'
  · intro l c c' h h'; rw [h1] at h h'; exact hb.fn l c c' h h'
  · intro x hx
    have hx' := (u_congr h1 h2 x).1 hx
    rw [hk x (hb.u_lt hx') (by intro e; subst e; exact hu hx')]
    exact hb.empty x hx'

theorem evo_new {b : B σ} {p : Nat} (hb : Inv b) (hp : p < b.n) (hu : ¬ U b p) : Evo b p b.new :=
  evo_of hb hu (by simp) (fun x hx _ => by rw [new_blk, if_neg (by omega)]) (by rw [new_blk, if_neg (by omega)]; exact List.prefix_refl _) rfl rfl

theorem evo_upd {b : B σ} {p : Nat} (f : Block σ → Block σ) (hb : Inv b) (hu : ¬ U b p)
    (hf : (b.blk p).acts <+: (f (b.blk p)).acts) : Evo b p (b.upd p f) :=
  evo_of hb hu (Nat.le_refl _) (fun x hx h => by rw [upd_blk, if_neg h]) (by rw [upd_blk, if_pos rfl]; exact hf) rfl rfl

theorem evo_goto {b : B σ} {p : Nat} (t : Nat) (hb : Inv b) (hu : ¬ U b p) : Evo b p (b.goto p t) :=
  evo_upd _ hb hu (List.prefix_refl _)

theorem evo_test {b : B σ} {p : Nat} (v : V σ) (t f : Nat) (hb : Inv b) (hu : ¬ U b p) : Evo b p (b.test p v t f) := by
  unfold B.test
  split
  · exact evo_goto _ hb hu
  · exact evo_goto _ hb hu
  · exact evo_upd _ hb hu (List.prefix_refl _)

theorem rest_eq {b b' : B σ} (h : b'.rest = b.rest) : b'.labels = b.labels ∧ b'.defined = b.defined ∧ b'.inSwitch = b.inSwitch ∧
    b'.cases = b.cases ∧ b'.dflt = b.dflt := by
  simp only [B.rest, Prod.mk.injEq] at h
  exact h

theorem evo_grow {b b' : B σ} {p q : Nat} (hb : Inv b) (hu : ¬ U b p) (hg : Grow b p b' q) (hr : b'.rest = b.rest) : Evo b p b' :=
  evo_of hb hu hg.n_le hg.keep hg.grow (rest_eq hr).1 (rest_eq hr).2.1

/-- The open blocks. -/
def Op (q : Nat) (X : Nat → Prop) (b : B σ) (i : Nat) : Prop := i = q ∨ X i ∨ U b i

theorem Evo.ext {b b' : B σ} {p : Nat} (h : Evo b p b') {O O' : Nat → Prop} {G : Nat → Block σ} (he : Ext b' O' G) (hb : Inv b)
    (hp : O p) (hU : ∀ x, U b x → O x) (hO : ∀ i, i < b.n → O' i → O i) : Ext b O G := by
  intro i hi
  obtain ⟨h1, h2⟩ := he i (by have := h.n_le; omega)
  by_cases hip : i = p
  · subst hip
    exact ⟨h.grow.trans h1, fun hn => absurd hp hn⟩
  · by_cases hu : U b i
    · refine ⟨?_, fun hn => absurd (hU i hu) hn⟩
      rw [hb.empty i hu]; exact List.nil_prefix
    · rw [h.keep i hi hip hu] at h1 h2
      exact ⟨h1, fun hn => h2 fun ho => hn (hO i hi ho)⟩

theorem goto_of_ext {b : B σ} {p t : Nat} {O : Nat → Prop} {G : Nat → Block σ} (h : Ext (b.goto p t) O G) (hp : p < b.n) (ho : ¬ O p)
    (hf : (b.blk p).j1 = none) : Goto G (b.pos p) t := by
  have := sealed h (i := p) hp ho
  rw [goto_blk, if_pos rfl] at this
  exact ⟨by simp [B.pos, this], by simp [B.pos, this], by simp [B.pos, this, hf]⟩

theorem test_of_ext {b : B σ} {p t f : Nat} {v : V σ} {O : Nat → Prop} {G : Nat → Block σ} (h : Ext (b.test p v t f) O G) (hp : p < b.n)
    (ho : ¬ O p) (hf : (b.blk p).j1 = none) : Test G (b.pos p) v t f := by
  unfold B.test at h
  unfold Test
  split at h
  · rename_i hb; rw [hb]; exact goto_of_ext h hp ho hf
  · rename_i hb; rw [hb]; exact goto_of_ext h hp ho hf
  · rename_i hb; rw [hb]
    have := sealed h (i := p) hp ho
    rw [branch_blk, if_pos rfl] at this
    exact ⟨by simp [B.pos, this], by simp [B.pos, this], by simp [B.pos, this], by simp [B.pos, this]⟩

theorem fresh_empty : ({} : Block σ).Fresh := ⟨rfl, rfl, rfl⟩

def Rel (b : B σ) (p q : Nat) : Prop := q = p ∨ b.n ≤ q ∨ U b q

def XOk (b : B σ) (p : Nat) (X : Nat → Prop) : Prop := ∀ x, X x → x < b.n ∧ x ≠ p ∧ ¬ U b x

/-- Where the construction may start. -/
structure Pre (b : B σ) (p : Nat) : Prop where
  inv : Inv b
  lt : p < b.n
  u : ¬ U b p
  fresh : (b.blk p).Fresh

/-- The result of compiling a statement. -/
structure StmtOk (P : Nat → Prop) (b : B σ) (p : Nat) (s : Stmt σ) (brk cnt : Option Nat) (b' : B σ) (q : Nat) : Prop where
  evo : Evo b p b'
  q_new : Rel b p q
  post : Pre b' q
  sw : b'.inSwitch = b.inSwitch
  tr : ∃ cs d, b'.cases = b.cases ++ cs ∧ Join b.dflt d b'.dflt ∧
    ∀ (G : Nat → Block σ) (L : Nat → Option Nat) (X : Nat → Prop), XOk b p X →
      Ext b' (Op q X b') G → (∀ l c, (l, c) ∈ b'.labels → L l = some c) → TrS G L P s brk cnt cs d (b.pos p) (b'.pos q)

/-- Pieces of the state, after evaluating an expression. -/
theorem expr_step {b : B σ} {p : Nat} (e : Expr σ) (h : Pre b p) :
    Evo b p (b.expr p e).1 ∧ Pre (b.expr p e).1 (b.expr p e).2.1 ∧ (∀ x, U (b.expr p e).1 x ↔ U b x) := by
  have ho := expr_ok e b p h.lt h.fresh
  have hg := ho.grow
  obtain ⟨r1, r2, _⟩ := rest_eq ho.rest
  have hu := fun x => u_congr r1 r2 x
  have hev := evo_grow h.inv h.u hg ho.rest
  refine ⟨hev, ⟨hev.inv, hg.q_lt, ?_, hg.fresh h.fresh⟩, hu⟩
  rw [hu]
  intro hx
  have := h.inv.u_lt hx
  rcases hg.q_new with e | e
  · rw [e] at hx; exact h.u hx
  · omega

/-- An empty block that is reserved for later. -/
structure Idle (b : B σ) (x : Nat) : Prop where
  lt : x < b.n
  u : ¬ U b x
  empty : b.blk x = {}

theorem Rel.refl (b : B σ) (p : Nat) : Rel b p p := Or.inl rfl

theorem Rel.trans {b b1 : B σ} {p q r : Nat} (he : Evo b p b1) (h1 : Rel b p q) (h2 : Rel b1 q r) : Rel b p r := by
  rcases h2 with rfl | h | h
  · exact h1
  · exact Or.inr (Or.inl (by have := he.n_le; omega))
  · by_cases hr : r < b.n
    · exact Or.inr (Or.inr (he.u r hr h))
    · exact Or.inr (Or.inl (by omega))

/-- Continuation at another block. -/
theorem Rel.jump {b b1 : B σ} {p q r : Nat} (he : Evo b p b1) (h1 : b.n ≤ q) (h2 : Rel b1 q r) : Rel b p r :=
  Rel.trans he (Or.inr (Or.inl h1)) h2

theorem Rel.ne {b : B σ} {p q x : Nat} (h : Rel b p q) (hx : Idle b x) (hp : x ≠ p) : q ≠ x := by
  rintro rfl
  rcases h with h | h | h
  · exact hp h
  · exact absurd hx.lt (by omega)
  · exact hx.u h

theorem XOk.not {b : B σ} {p q : Nat} {X : Nat → Prop} (hX : XOk b p X) (h : Rel b p q) : ¬ X q := by
  intro hx
  obtain ⟨h1, h2, h3⟩ := hX q hx
  rcases h with h | h | h
  · exact h2 h
  · omega
  · exact h3 h

theorem XOk.evo {b b1 : B σ} {p q : Nat} {X : Nat → Prop} (hX : XOk b p X) (he : Evo b p b1) (h : Rel b p q) : XOk b1 q X := by
  intro x hx
  obtain ⟨h1, h2, h3⟩ := hX x hx
  refine ⟨by have := he.n_le; omega, ?_, fun hu => h3 (he.u x h1 hu)⟩
  rintro rfl
  exact hX.not h hx

theorem XOk.add {b : B σ} {p x : Nat} {X : Nat → Prop} (hX : XOk b p X) (hi : Idle b x) (hp : x ≠ p) : XOk b p (fun i => i = x ∨ X i) := by
  rintro y (rfl | hy)
  · exact ⟨hi.lt, hp, hi.u⟩
  · exact hX y hy

theorem Idle.evo {b b1 : B σ} {p x : Nat} (h : Idle b x) (he : Evo b p b1) (hp : x ≠ p) : Idle b1 x :=
  ⟨by have := he.n_le; have := h.lt; omega, fun hu => h.u (he.u x h.lt hu), by rw [he.keep x h.lt hp h.u]; exact h.empty⟩

theorem Idle.pre {b : B σ} {x : Nat} (h : Idle b x) (hb : Inv b) : Pre b x := ⟨hb, h.lt, h.u, by rw [h.empty]; exact fresh_empty⟩

theorem Idle.pos {b : B σ} {x : Nat} (h : Idle b x) : b.pos x = (x, 0) := by simp [B.pos, h.empty]

theorem idle_new {b : B σ} (hb : Inv b) : Idle b.new b.n :=
  ⟨by simp, fun h => absurd (hb.u_lt (show U b b.n from h)) (by omega), by rw [new_blk, if_pos rfl]⟩

theorem Pre.new {b : B σ} {p : Nat} (h : Pre b p) : Pre b.new p :=
  ⟨(evo_new h.inv h.lt h.u).inv, by have := h.lt; simp; omega, h.u, by rw [new_blk, if_neg (by have := h.lt; omega)]; exact h.fresh⟩

theorem pos_new {b : B σ} {p : Nat} (h : p < b.n) : b.new.pos p = b.pos p := by
  simp [B.pos, new_blk, show p ≠ b.n by omega]

theorem Evo.refl {b : B σ} (p : Nat) (h : Inv b) : Evo b p b :=
  ⟨Nat.le_refl _, fun _ _ _ _ => rfl, List.prefix_refl _, fun _ _ h => h, fun _ h => h, h⟩

theorem Evo.extOp {b b' : B σ} {p q : Nat} (h : Evo b p b') (hq : Rel b p q) (hb : Inv b) {X : Nat → Prop} {G : Nat → Block σ}
    (he : Ext b' (Op q X b') G) : Ext b (Op p X b) G := by
  refine h.ext he hb (Or.inl rfl) (fun x hx => Or.inr (Or.inr hx)) ?_
  rintro i hi (rfl | hx | hu)
  · rcases hq with h | h | h
    · exact Or.inl h
    · omega
    · exact Or.inr (Or.inr h)
  · exact Or.inr (Or.inl hx)
  · exact Or.inr (Or.inr (h.u i hi hu))

/-- The expression at the head of a statement. -/
theorem expr_part {b : B σ} {p : Nat} (e : Expr σ) (h : Pre b p) :
    ∃ b' q v, b.expr p e = (b', q, v) ∧ Evo b p b' ∧ Pre b' q ∧ Rel b p q ∧ (q = p ∨ b.n ≤ q) ∧ b'.rest = b.rest ∧
    ∀ (G : Nat → Block σ) (X : Nat → Prop), XOk b p X → Ext b' (Op q X b') G → ExecE G e (b.pos p) (b'.pos q) v := by
  have ho := expr_ok e b p h.lt h.fresh
  obtain ⟨s1, s2, s3⟩ := expr_step e h
  refine ⟨(b.expr p e).1, (b.expr p e).2.1, (b.expr p e).2.2, rfl, s1, s2, ?_, ho.grow.q_new, ho.rest, ?_⟩
  · rcases ho.grow.q_new with h | h
    · exact Or.inl h
    · exact Or.inr (Or.inl h)
  · intro G X hX hE
    refine ho.run G (fun i => X i ∨ U (b.expr p e).1 i) hE ?_
    rintro x (hx | hx)
    · exact ⟨(hX x hx).1, (hX x hx).2.1⟩
    · have := (s3 x).1 hx
      exact ⟨h.inv.u_lt this, fun e => h.u (e ▸ this)⟩

theorem pre_goto {b : B σ} {p x t : Nat} (h : Idle b x) (hb : Inv b) (hp : x ≠ p) (hu : ¬ U b p) : Pre (b.goto p t) x :=
  (h.evo (evo_goto t hb hu) hp).pre (evo_goto t hb hu).inv

theorem u_test {b : B σ} {p t f : Nat} {v : V σ} (x : Nat) : U (b.test p v t f) x ↔ U b x :=
  u_congr (rest_eq (test_rest b p v t f)).1 (rest_eq (test_rest b p v t f)).2.1 x

theorem news {b : B σ} {p : Nat} (hp : Pre b p) : Pre b.new p ∧ Evo b p b.new ∧ Idle b.new b.n ∧ b.new.pos p = b.pos p ∧ b.new.rest = b.rest ∧
    (∀ x, Idle b x → Idle b.new x) :=
  ⟨hp.new, evo_new hp.inv hp.lt hp.u, idle_new hp.inv, pos_new hp.lt, rfl, fun x hx =>
    ⟨by have := hx.lt; simp; omega, hx.u, by rw [new_blk, if_neg (by have := hx.lt; omega)]; exact hx.empty⟩⟩

theorem new2 {b : B σ} {p : Nat} (hp : Pre b p) : Pre b.new.new p ∧ Evo b p b.new.new ∧ Idle b.new.new b.n ∧ Idle b.new.new (b.n + 1) ∧
    b.new.new.pos p = b.pos p := by
  obtain ⟨a1, a2, a3, a4, _, _⟩ := news hp
  obtain ⟨c1, c2, c3, c4, _, c6⟩ := news a1
  exact ⟨c1, a2.trans c2 hp.inv hp.lt hp.u (Rel.refl _ _), c6 _ a3, c3, c4.trans a4⟩

theorem new3 {b : B σ} {p : Nat} (hp : Pre b p) : Pre b.new.new.new p ∧ Evo b p b.new.new.new ∧ Idle b.new.new.new b.n ∧
    Idle b.new.new.new (b.n + 1) ∧ Idle b.new.new.new (b.n + 2) ∧ b.new.new.new.pos p = b.pos p := by
  obtain ⟨a1, a2, a3, a4, a5⟩ := new2 hp
  obtain ⟨c1, c2, c3, c4, _, c6⟩ := news a1
  exact ⟨c1, a2.trans c2 hp.inv hp.lt hp.u (Rel.refl _ _), c6 _ a3, c6 _ a4, c3, c4.trans a5⟩

theorem new4 {b : B σ} {p : Nat} (hp : Pre b p) : Pre b.new.new.new.new p ∧ Evo b p b.new.new.new.new ∧ Idle b.new.new.new.new b.n ∧
    Idle b.new.new.new.new (b.n + 1) ∧ Idle b.new.new.new.new (b.n + 2) ∧ Idle b.new.new.new.new (b.n + 3) ∧ b.new.new.new.new.pos p = b.pos p := by
  obtain ⟨a1, a2, a3, a4, a5, a6⟩ := new3 hp
  obtain ⟨c1, c2, c3, c4, _, c6⟩ := news a1
  exact ⟨c1, a2.trans c2 hp.inv hp.lt hp.u (Rel.refl _ _), c6 _ a3, c6 _ a4, c6 _ a5, c3, c4.trans a6⟩

end Verif.Cfg
