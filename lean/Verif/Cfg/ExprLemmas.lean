import Verif.Cfg.Spec

/-! # Expressions: the graph computes what the abstract machine does -/

namespace Verif.Cfg

set_option linter.unusedSectionVars false

variable {σ : Type} [Prim σ]

abbrev Pos := Nat × Nat

/-- `G` continues the construction `b`, where only the blocks in `O` are still open. -/
def Ext (b : B σ) (O : Nat → Prop) (G : Nat → Block σ) : Prop :=
  ∀ i, i < b.n → (b.blk i).acts <+: (G i).acts ∧ (¬ O i → G i = b.blk i)

def B.pos (b : B σ) (p : Nat) : Pos := (p, (b.blk p).acts.length)

/-- What is read in the next step may be read. -/
def Safe (G : Nat → Block σ) (s : CState σ) : Prop :=
  match (G s.blk).acts[s.pc]? with
  | some (.user _ _) => True
  | some (.app _ v) => v.ok s.mem
  | some (.set _ v) => v.ok s.mem
  | none => (G s.blk).j1 ≠ none → (G s.blk).expr.ok s.mem

def XStep (G : Nat → Block σ) (s t : CState σ) : Prop := cstep G s = some t ∧ Safe G s

/-- A run where only values that may be read are read. -/
def XRun (G : Nat → Block σ) : Nat → CState σ → CState σ → Prop
  | 0, s, t => s = t
  | n + 1, s, t => ∃ m, XStep G s m ∧ XRun G n m t

theorem XRun.crun {G : Nat → Block σ} : ∀ {n s t}, XRun G n s t → CRun G n s t
  | 0, _, _, h => h
  | _ + 1, _, _, ⟨m, h1, h2⟩ => ⟨m, h1.1, h2.crun⟩

def Star (G : Nat → Block σ) (s t : CState σ) : Prop := ∃ n, XRun G n s t

def at_ (p : Pos) (m : Mem σ) : CState σ := ⟨p.1, p.2, m⟩

theorem crun_trans {G : Nat → Block σ} : ∀ {n m s t u}, XRun G n s t → XRun G m t u → XRun G (n + m) s u
  | 0, m, s, t, u, h1, h2 => by
    rw [show s = t from h1, Nat.zero_add]; exact h2
  | n + 1, m, s, t, u, ⟨x, hx, h1⟩, h2 => by
    rw [show n + 1 + m = (n + m) + 1 by omega]
    exact ⟨x, hx, crun_trans h1 h2⟩

theorem Star.refl {G : Nat → Block σ} (s : CState σ) : Star G s s := ⟨0, rfl⟩

theorem Star.trans {G : Nat → Block σ} {s t u : CState σ} : Star G s t → Star G t u → Star G s u
  | ⟨n, h1⟩, ⟨m, h2⟩ => ⟨n + m, crun_trans h1 h2⟩

theorem Star.one {G : Nat → Block σ} {s t : CState σ} (h : XStep G s t) : Star G s t := ⟨1, t, h, rfl⟩

def Goto (G : Nat → Block σ) (p : Pos) (t : Nat) : Prop :=
  (G p.1).acts.length = p.2 ∧ (G p.1).j0 = some t ∧ (G p.1).j1 = none

def Br (G : Nat → Block σ) (p : Pos) (v : V σ) (f t : Nat) : Prop :=
  (G p.1).acts.length = p.2 ∧ (G p.1).expr = v ∧ (G p.1).j0 = some f ∧ (G p.1).j1 = some t

def Test (G : Nat → Block σ) (p : Pos) (v : V σ) (t f : Nat) : Prop :=
  match boolOf v with
  | some true => Goto G p t
  | some false => Goto G p f
  | none => Br G p v f t

/-- From `p`, the graph evaluates `e` and arrives at `q`, where `v` is the value. -/
def ExecE (G : Nat → Block σ) (e : Expr σ) (p q : Pos) (v : V σ) : Prop :=
  ∀ m : Mem σ, ∃ m', Star G (at_ p m) (at_ q m') ∧ m'.user = (e.eval m.user).1 ∧ v.get m' = (e.eval m.user).2 ∧ v.ok m'

theorem step_goto {G : Nat → Block σ} {p : Pos} {t : Nat} (h : Goto G p t) (m : Mem σ) :
    XStep G (at_ p m) (at_ (t, 0) m) := by
  obtain ⟨h1, h2, h3⟩ := h
  have : (G p.1).acts[p.2]? = none := by rw [List.getElem?_eq_none_iff]; omega
  exact ⟨by simp [cstep, at_, this, h2, h3], by simp [Safe, at_, this, h3]⟩

theorem step_br {G : Nat → Block σ} {p : Pos} {v : V σ} {f t : Nat} (h : Br G p v f t) (m : Mem σ) (hv : v.ok m) :
    XStep G (at_ p m) (at_ (if v.get m ≠ 0 then t else f, 0) m) := by
  obtain ⟨h1, h2, h3, h4⟩ := h
  have : (G p.1).acts[p.2]? = none := by rw [List.getElem?_eq_none_iff]; omega
  refine ⟨?_, ?_⟩
  · simp only [cstep, at_, this, h2, h3, h4]
    split <;> simp
  · simp only [Safe, at_, this, h2]
    exact fun _ => hv

theorem step_act {G : Nat → Block σ} {p : Pos} {k : Nat} {v : V σ} (h : (G p.1).acts[p.2]? = some (.set k v)) (m : Mem σ) (hv : v.ok m) :
    XStep G (at_ p m) (at_ (p.1, p.2 + 1) ((Act.set k v).run m)) :=
  ⟨by simp [cstep, at_, h], by simp only [Safe, at_, h]; exact hv⟩

theorem step_app {G : Nat → Block σ} {p : Pos} {a : σ} {v : V σ} (h : (G p.1).acts[p.2]? = some (.app a v)) (m : Mem σ) (hv : v.ok m) :
    XStep G (at_ p m) (at_ (p.1, p.2 + 1) ((Act.app a v).run m)) :=
  ⟨by simp [cstep, at_, h], by simp only [Safe, at_, h]; exact hv⟩

theorem step_user {G : Nat → Block σ} {p : Pos} {e : Bool} {a : σ} (h : (G p.1).acts[p.2]? = some (.user e a)) (m : Mem σ) :
    XStep G (at_ p m) (at_ (p.1, p.2 + 1) ((Act.user e a).run m)) :=
  ⟨by simp [cstep, at_, h], by simp only [Safe, at_, h]⟩

theorem step_test {G : Nat → Block σ} {p : Pos} {v : V σ} {t f : Nat} (h : Test G p v t f) (m : Mem σ) (hv : v.ok m) :
    XStep G (at_ p m) (at_ (if v.get m ≠ 0 then t else f, 0) m) := by
  unfold Test at h
  cases v with
  | imm n =>
    simp only [boolOf] at h
    by_cases hn : n = 0
    · subst hn
      have h' : Goto G p f := by simpa using h
      have := step_goto h' m
      simpa [V.get] using this
    · have h' : Goto G p t := by simpa [hn] using h
      have := step_goto h' m
      simpa [V.get, hn] using this
  | _ => exact step_br h m hv

@[simp] theorem upd_n (b : B σ) (i : Nat) (f : Block σ → Block σ) : (b.upd i f).n = b.n := rfl
@[simp] theorem new_n (b : B σ) : b.new.n = b.n + 1 := rfl
@[simp] theorem act_n (b : B σ) (i : Nat) (a : Act σ) : (b.act i a).n = b.n := rfl
@[simp] theorem goto_n (b : B σ) (i t : Nat) : (b.goto i t).n = b.n := rfl
@[simp] theorem branch_n (b : B σ) (i : Nat) (v : V σ) (f t : Nat) : (b.branch i v f t).n = b.n := rfl
@[simp] theorem test_n (b : B σ) (i : Nat) (v : V σ) (f t : Nat) : (b.test i v f t).n = b.n := by
  unfold B.test; split <;> rfl

theorem upd_blk (b : B σ) (i : Nat) (f : Block σ → Block σ) (j : Nat) :
    (b.upd i f).blk j = if j = i then f (b.blk i) else b.blk j := rfl
theorem new_blk (b : B σ) (j : Nat) : b.new.blk j = if j = b.n then {} else b.blk j := rfl
theorem act_blk (b : B σ) (i : Nat) (a : Act σ) (j : Nat) :
    (b.act i a).blk j = if j = i then { b.blk i with acts := (b.blk i).acts ++ [a] } else b.blk j := rfl
theorem goto_blk (b : B σ) (i t j : Nat) :
    (b.goto i t).blk j = if j = i then { b.blk i with j0 := some t } else b.blk j := rfl
theorem branch_blk (b : B σ) (i : Nat) (v : V σ) (f t j : Nat) :
    (b.branch i v f t).blk j = if j = i then { b.blk i with expr := v, j0 := some f, j1 := some t } else b.blk j := rfl

/-- The parts of the state that expressions do not touch. -/
def B.rest (b : B σ) : List (Nat × Nat) × List Nat × Bool × List (Int × Nat) × Option Nat :=
  (b.labels, b.defined, b.inSwitch, b.cases, b.dflt)

@[simp] theorem upd_rest (b : B σ) (i : Nat) (f : Block σ → Block σ) : (b.upd i f).rest = b.rest := rfl
@[simp] theorem new_rest (b : B σ) : b.new.rest = b.rest := rfl
@[simp] theorem act_rest (b : B σ) (i : Nat) (a : Act σ) : (b.act i a).rest = b.rest := rfl
@[simp] theorem goto_rest (b : B σ) (i t : Nat) : (b.goto i t).rest = b.rest := rfl
@[simp] theorem branch_rest (b : B σ) (i : Nat) (v : V σ) (f t : Nat) : (b.branch i v f t).rest = b.rest := rfl
@[simp] theorem test_rest (b : B σ) (i : Nat) (v : V σ) (f t : Nat) : (b.test i v f t).rest = b.rest := by
  unfold B.test; split <;> rfl

/-- A block that is being filled. -/
def Block.Fresh (x : Block σ) : Prop := x.j0 = none ∧ x.j1 = none ∧ x.ret = false

/-- From block `p`, only `p` was changed, by adding to it unless left open; `q` is the open block now.  A block that is open
has no jumps. -/
structure Grow (b : B σ) (p : Nat) (b' : B σ) (q : Nat) : Prop where
  n_le : b.n ≤ b'.n
  q_lt : q < b'.n
  q_new : q = p ∨ b.n ≤ q
  keep : ∀ x, x < b.n → x ≠ p → b'.blk x = b.blk x
  grow : (b.blk p).acts <+: (b'.blk p).acts
  fresh : (b.blk p).Fresh → (b'.blk q).Fresh

theorem Grow.ext {b b' : B σ} {p q : Nat} (h : Grow b p b' q) {O O' : Nat → Prop} {G : Nat → Block σ} (he : Ext b' O' G)
    (hp : O p) (hO : ∀ i, i < b.n → O' i → O i) : Ext b O G := by
  intro i hi
  obtain ⟨h1, h2⟩ := he i (by have := h.n_le; omega)
  by_cases hip : i = p
  · subst hip
    exact ⟨h.grow.trans h1, fun hn => absurd hp hn⟩
  · rw [h.keep i hi hip] at h1 h2
    exact ⟨h1, fun hn => h2 fun ho => hn (hO i hi ho)⟩

theorem Ext.mono {b : B σ} {O O' : Nat → Prop} {G : Nat → Block σ} (h : Ext b O' G) (hO : ∀ i, i < b.n → O' i → O i) : Ext b O G :=
  fun i hi => ⟨(h i hi).1, fun hn => (h i hi).2 fun ho => hn (hO i hi ho)⟩

theorem Ext.new {b : B σ} {O O' : Nat → Prop} {G : Nat → Block σ} (h : Ext b.new O' G) (hO : ∀ i, i < b.n → O' i → O i) :
    Ext b O G := by
  intro i hi
  have := h i (by simp; omega)
  rw [new_blk, if_neg (by omega)] at this
  exact ⟨this.1, fun hn => this.2 fun ho => hn (hO i hi ho)⟩

theorem Ext.upd {b : B σ} {p : Nat} {f : Block σ → Block σ} {O O' : Nat → Prop} {G : Nat → Block σ} (h : Ext (b.upd p f) O' G)
    (hf : (b.blk p).acts <+: (f (b.blk p)).acts) (hp : O p) (hO : ∀ i, i < b.n → O' i → O i) : Ext b O G := by
  intro i hi
  have := h i hi
  rw [upd_blk] at this
  by_cases hip : i = p
  · subst hip
    rw [if_pos rfl] at this
    exact ⟨hf.trans this.1, fun hn => absurd hp hn⟩
  · rw [if_neg hip] at this
    exact ⟨this.1, fun hn => this.2 fun ho => hn (hO i hi ho)⟩

theorem Ext.goto {b : B σ} {p t : Nat} {O O' : Nat → Prop} {G : Nat → Block σ} (h : Ext (b.goto p t) O' G)
    (hp : O p) (hO : ∀ i, i < b.n → O' i → O i) : Ext b O G := Ext.upd h (List.prefix_refl _) hp hO

theorem Ext.branch {b : B σ} {p : Nat} {v : V σ} {f t : Nat} {O O' : Nat → Prop} {G : Nat → Block σ} (h : Ext (b.branch p v f t) O' G)
    (hp : O p) (hO : ∀ i, i < b.n → O' i → O i) : Ext b O G := Ext.upd h (List.prefix_refl _) hp hO

theorem Ext.act {b : B σ} {p : Nat} {a : Act σ} {O O' : Nat → Prop} {G : Nat → Block σ} (h : Ext (b.act p a) O' G)
    (hp : O p) (hO : ∀ i, i < b.n → O' i → O i) : Ext b O G := Ext.upd h (List.prefix_append _ _) hp hO

theorem Ext.test {b : B σ} {p : Nat} {v : V σ} {f t : Nat} {O O' : Nat → Prop} {G : Nat → Block σ} (h : Ext (b.test p v t f) O' G)
    (hp : O p) (hO : ∀ i, i < b.n → O' i → O i) : Ext b O G := by
  unfold B.test at h
  split at h
  · exact Ext.goto h hp hO
  · exact Ext.goto h hp hO
  · exact Ext.branch h hp hO

theorem act_at {b : B σ} {p : Nat} {a : Act σ} {O : Nat → Prop} {G : Nat → Block σ} (h : Ext (b.act p a) O G) (hp : p < b.n) :
    (G p).acts[(b.blk p).acts.length]? = some a := by
  have := (h p hp).1
  rw [act_blk, if_pos rfl] at this
  obtain ⟨r, hr⟩ := this
  rw [← hr]; simp

theorem pos_act (b : B σ) (p : Nat) (a : Act σ) : (b.act p a).pos p = (p, (b.blk p).acts.length + 1) := by
  simp [B.pos, act_blk]

/-- The result of compiling an expression. -/
structure ExprOk (b : B σ) (p : Nat) (e : Expr σ) (r : B σ × Nat × V σ) : Prop where
  grow : Grow b p r.1 r.2.1
  rest : r.1.rest = b.rest
  run : ∀ (G : Nat → Block σ) (X : Nat → Prop), Ext r.1 (fun i => i = r.2.1 ∨ X i) G → (∀ x, X x → x < b.n ∧ x ≠ p) →
    ExecE G e (b.pos p) (r.1.pos r.2.1) r.2.2

theorem grow_refl (b : B σ) {p : Nat} (h : p < b.n) : Grow b p b p :=
  ⟨by omega, h, Or.inl rfl, fun _ _ _ => rfl, List.prefix_refl _, id⟩

theorem grow_act (b : B σ) {p : Nat} (a : Act σ) (h : p < b.n) : Grow b p (b.act p a) p :=
  ⟨by simp, by simpa, Or.inl rfl, fun x _ hx => by rw [act_blk, if_neg hx], by rw [act_blk, if_pos rfl]; exact List.prefix_append _ _,
    by intro h; rw [act_blk, if_pos rfl]; exact h⟩

theorem Grow.trans {b b1 b2 : B σ} {p q r : Nat} (h1 : Grow b p b1 q) (h2 : Grow b1 q b2 r) (hp : p < b.n) : Grow b p b2 r := by
  have hn := h1.n_le
  refine ⟨h1.n_le.trans h2.n_le, h2.q_lt, ?_, ?_, ?_, fun h => h2.fresh (h1.fresh h)⟩
  · rcases h2.q_new with h | h
    · rw [h]; exact h1.q_new
    · exact Or.inr (by omega)
  · intro x hx hxp
    rw [h2.keep x (by omega) (by rcases h1.q_new with h | h <;> omega), h1.keep x hx hxp]
  · by_cases hpq : p = q
    · subst hpq; exact h1.grow.trans h2.grow
    · rw [h2.keep p (by omega) hpq]; exact h1.grow

theorem truth_eq (P : Prop) [Decidable P] : truth (decide P) = if P then 1 else 0 := by simp [truth]

theorem notV_get (v : V σ) (m : Mem σ) : (notV v).get m = if v.get m = 0 then 1 else 0 := by
  cases v with
  | imm n => by_cases h : n = 0 <;> simp [notV, V.get, truth, h]
  | rd c g p => cases c <;> cases g <;> by_cases h : Prim.val p m.user = 0 <;> simp [notV, V.get, truth, h]
  | tmp k => by_cases h : m.tmp k = 0 <;> simp [notV, V.get, truth, h]
  | isZero v => by_cases h : v.get m = 0 <;> simp [notV, V.get, truth, h]
  | nonZero v => by_cases h : v.get m = 0 <;> simp [notV, V.get, truth, h]
  | eqc n v => by_cases h : v.get m = n <;> simp [notV, V.get, truth, h]

theorem isCmp_get (v : V σ) (h : v.isCmp = true) (m : Mem σ) : v.get m = 0 ∨ v.get m = 1 := by
  cases v with
  | imm n => simp [V.isCmp] at h
  | rd c g p =>
    cases c
    · simp [V.isCmp] at h
    · simp only [V.get, truth]; simp; tauto
  | tmp k => simp [V.isCmp] at h
  | isZero v => simp only [V.get, truth]; simp; tauto
  | nonZero v => simp only [V.get, truth]; simp; tauto
  | eqc n v => simp only [V.get, truth]; simp; tauto

theorem notV_ok {v : V σ} {m : Mem σ} (h : v.ok m) : (notV v).ok m := by
  cases v with
  | rd c g p => cases c <;> exact h
  | imm n => trivial
  | tmp k => trivial
  | isZero v => exact h
  | nonZero v => exact h
  | eqc n v => exact h

theorem toBool_ok {v : V σ} {m : Mem σ} (h : v.ok m) : (toBool v).ok m := by
  unfold toBool
  split
  · exact h
  · split
    · trivial
    · exact h

theorem toBool_get (v : V σ) (m : Mem σ) : (toBool v).get m = if v.get m = 0 then 0 else 1 := by
  unfold toBool
  split
  · rename_i h
    rcases isCmp_get v h m with h | h <;> simp [h]
  · split
    · rename_i n _
      by_cases h : n = 0 <;> simp [V.get, truth, h]
    · by_cases h : v.get m = 0 <;> simp [V.get, truth, h]

/-- `eval` of a value. -/
theorem eval_ok (b : B σ) {p : Nat} (v : V σ) (hp : p < b.n) :
    Grow b p (b.eval p v).1 p ∧ (b.eval p v).1.rest = b.rest ∧
    ∀ (G : Nat → Block σ) (O : Nat → Prop), Ext (b.eval p v).1 O G → ∀ m, v.ok m → ∃ m', Star G (at_ (b.pos p) m) (at_ ((b.eval p v).1.pos p) m') ∧
      m'.user = m.user ∧ (b.eval p v).2.get m' = v.get m ∧ (b.eval p v).2.ok m' := by
  unfold B.eval
  split
  · refine ⟨⟨(grow_act b (.set b.ntmp v) hp).n_le, (grow_act b (.set b.ntmp v) hp).q_lt, Or.inl rfl, (grow_act b (.set b.ntmp v) hp).keep,
      (grow_act b (.set b.ntmp v) hp).grow, (grow_act b (.set b.ntmp v) hp).fresh⟩, rfl, ?_⟩
    intro G O he m hv
    have he' : Ext (b.act p (.set b.ntmp v)) O G := he
    refine ⟨(Act.set b.ntmp v).run m, ?_, rfl, by simp [Act.run, V.get], trivial⟩
    have h := Star.one (step_act (p := b.pos p) (act_at he' hp) m hv)
    have e : (b.act p (.set b.ntmp v)).pos p = ((b.pos p).1, (b.pos p).2 + 1) := pos_act b p _
    rw [← e] at h
    exact h
  · exact ⟨grow_refl b hp, rfl, fun G O he m hv => ⟨m, Star.refl _, rfl, rfl, hv⟩⟩

theorem sealed {b : B σ} {O : Nat → Prop} {G : Nat → Block σ} (h : Ext b O G) {i : Nat} (hi : i < b.n) (ho : ¬ O i) : G i = b.blk i :=
  (h i hi).2 ho

theorem imm_of_bool {v : V σ} {x : Bool} (h : boolOf v = some x) : ∃ n, v = .imm n ∧ (n ≠ 0 ↔ x = true) := by
  cases v <;> simp [boolOf] at h
  refine ⟨_, rfl, ?_⟩
  rename_i n
  by_cases hn : n = 0
  · simp [hn] at h; simp [hn, h]
  · simp [hn] at h; simp [hn, h]

/-- One operand decides the value. -/
theorem decided_ok {b l r : B σ} {p lq rq top : Nat} {vl : V σ} {x e : Expr σ} {n : Int} (hp : p < b.n) (hj : (b.blk p).Fresh)
    (hl : ExprOk b p x (l, lq, vl)) (hr : Grow l.new top r rq) (hrest : r.rest = l.rest) (htop : top = l.n)
    (he : ∀ m : Mem σ, ∀ m', m'.user = (x.eval m.user).1 → vl.get m' = (x.eval m.user).2 → e.eval m.user = (m'.user, n)) :
    ExprOk b p e (r.decided lq top rq n) := by
  have hg := hl.grow
  have h1 := hg.n_le; have h2 := hg.q_lt; have h3 := hr.n_le; have h4 := hr.q_lt; have h5 := hg.q_new
  simp at h1 h2 h3 h4 h5
  have hk : r.blk lq = l.blk lq := by
    rw [hr.keep lq (by simp; omega) (by omega), new_blk, if_neg (by omega)]
  have hfr := hg.fresh hj
  simp only at hfr
  unfold B.decided
  split
  · refine ⟨⟨by simp; omega, by simp; omega, h5, ?_, ?_, ?_⟩, by rw [hrest]; exact hl.rest, ?_⟩
    · intro i hi hip
      simp only
      rw [hr.keep i (by simp; omega) (by omega), new_blk, if_neg (by omega)]
      exact hg.keep i hi hip
    · simp only
      rw [hr.keep p (by simp; omega) (by omega), new_blk, if_neg (by omega)]
      exact hg.grow
    · intro _; simp only; rw [hk]; exact hfr
    · intro G X hE hX m
      simp only at hE ⊢
      have hE1 : Ext l (fun i => i = lq ∨ X i) G := by
        have hE2 : Ext l.new (fun i => i = top ∨ i = lq ∨ X i) G := hr.ext hE (Or.inl rfl) (fun i _ h => Or.inr h)
        exact hE2.new fun i hi h => by rcases h with h | h; (· omega); exact h
      obtain ⟨m', s1, u1, v1, _⟩ := hl.run G X hE1 hX m
      refine ⟨m', ?_, ?_, ?_⟩
      · rw [show r.pos lq = l.pos lq by simp [B.pos, hk]]; exact s1
      · rw [he m m' u1 v1]
      · rw [he m m' u1 v1]; exact ⟨rfl, trivial⟩
  · have hb : ∀ i, i < r.n → i ≠ lq → (r.new.goto lq r.n).blk i = r.blk i := by
      intro i hi hil
      rw [goto_blk, if_neg hil, new_blk, if_neg (by omega)]
    refine ⟨⟨by simp; omega, by simp, Or.inr (by simp; omega), ?_, ?_, ?_⟩, by simp only [goto_rest, new_rest]; rw [hrest]; exact hl.rest, ?_⟩
    · intro i hi hip
      simp only
      rw [hb i (by omega) (by omega), hr.keep i (by simp; omega) (by omega), new_blk, if_neg (by omega)]
      exact hg.keep i hi hip
    · simp only
      by_cases hpl : p = lq
      · subst hpl
        rw [goto_blk, if_pos rfl, new_blk, if_neg (by omega)]
        simp only [hk]
        exact hg.grow
      · rw [hb p (by omega) hpl, hr.keep p (by simp; omega) (by omega), new_blk, if_neg (by omega)]
        exact hg.grow
    · intro _
      simp only
      rw [goto_blk, if_neg (by omega), new_blk, if_pos rfl]; exact ⟨rfl, rfl, rfl⟩
    · intro G X hE hX m
      simp only at hE ⊢
      have hX' : ∀ x, X x → x < r.n ∧ x ≠ lq := fun x hx => by have := hX x hx; omega
      have hE0 : Ext r (fun i => i = lq ∨ X i) G :=
        Ext.new (hE.goto (O := fun i => i = lq ∨ i = r.n ∨ X i) (Or.inl rfl) (fun i _ h => Or.inr h)) fun i hi h => by
          rcases h with h | h | h
          · exact Or.inl h
          · omega
          · exact Or.inr h
      have hE1 : Ext l (fun i => i = lq ∨ X i) G := by
        have hE2 : Ext l.new (fun i => i = top ∨ i = lq ∨ X i) G := hr.ext hE0 (Or.inl rfl) (fun i _ h => Or.inr h)
        exact hE2.new fun i hi h => by rcases h with h | h; (· omega); exact h
      obtain ⟨m', s1, u1, v1, _⟩ := hl.run G X hE1 hX m
      have hs : G lq = (r.new.goto lq r.n).blk lq := sealed hE (by simp; omega) (by
        rintro (h | h)
        · omega
        · exact (hX' _ h).2 rfl)
      have hgo : Goto G (l.pos lq) r.n := by
        rw [goto_blk, if_pos rfl, new_blk, if_neg (by omega), hk] at hs
        exact ⟨by simp [B.pos, hs], by simp [B.pos, hs], by simp [B.pos, hs, hfr.2.1]⟩
      refine ⟨m', s1.trans ?_, ?_, ?_⟩
      · have := Star.one (step_goto hgo m')
        have e : (r.new.goto lq r.n).pos r.n = (r.n, 0) := by
          simp [B.pos, goto_blk, new_blk, show r.n ≠ lq by omega]
        rw [e]; exact this
      · rw [he m m' u1 v1]
      · rw [he m m' u1 v1]; exact ⟨rfl, trivial⟩

/-- `t` and `f` set the temporary and go to the last block. -/
theorem set_ok {G : Nat → Block σ} {t k x : Nat} {v : V σ} (h : G t = { acts := [.set x v], j0 := some k }) (m : Mem σ) (hv : v.ok m) :
    ∃ m', Star G (at_ (t, 0) m) (at_ (k, 0) m') ∧ m'.user = m.user ∧ m'.tmp x = v.get m := by
  refine ⟨(Act.set x v).run m, (Star.one (step_act (p := (t, 0)) (by simp [h]) m hv)).trans (Star.one (step_goto ?_ _)), rfl, by simp [Act.run]⟩
  exact ⟨by simp [h], by simp [h], by simp [h]⟩

theorem join_ok {b l r : B σ} {p lq rq top : Nat} {vl vr : V σ} {x y e : Expr σ} {left : Nat → Nat → Nat × Nat} (hp : p < b.n)
    (hj : (b.blk p).Fresh)
    (hl : ExprOk b p x (l, lq, vl)) (hr : ExprOk l.new top y (r, rq, vr)) (htop : top = l.n)
    (he : (left = (fun _ f => (f, top)) ∧ e = .and x y) ∨ (left = (fun t _ => (top, t)) ∧ e = .or x y)) :
    ExprOk b p e (r.join lq vl rq vr left) := by
  have hg := hl.grow
  have hgr := hr.grow
  have h1 := hg.n_le; have h2 := hg.q_lt; have h3 := hgr.n_le; have h4 := hgr.q_lt; have h5 := hg.q_new; have h6 := hgr.q_new
  simp at h1 h2 h3 h4 h5 h6
  have hk : r.blk lq = l.blk lq := by
    have := hgr.keep lq (by simp; omega) (by omega)
    simp only at this
    rw [this, new_blk, if_neg (by omega)]
  have hfl := hg.fresh hj
  have hfr := hgr.fresh (by rw [new_blk, if_pos htop]; exact ⟨rfl, rfl, rfl⟩)
  simp only at hfl hfr
  have hlr : lq ≠ rq := by omega
  generalize hJ : r.join lq vl rq vr left = J
  have hJn : J.1.n = r.n + 3 := by rw [← hJ]; rfl
  have hJq : J.2.1 = r.n + 2 := by rw [← hJ]; rfl
  have hJv : J.2.2 = .tmp r.ntmp := by rw [← hJ]; rfl
  have hJr : J.1.rest = r.rest := by rw [← hJ]; rfl
  have bl : J.1.blk lq = { l.blk lq with expr := vl, j0 := some (left r.n (r.n + 1)).1, j1 := some (left r.n (r.n + 1)).2 } := by
    rw [← hJ]
    simp [B.join, act_blk, goto_blk, branch_blk, new_blk, hlr, show lq ≠ r.n by omega, show lq ≠ r.n + 1 by omega,
      show lq ≠ r.n + 2 by omega, hk]
  have br : J.1.blk rq = { r.blk rq with expr := vr, j0 := some (r.n + 1), j1 := some r.n } := by
    rw [← hJ]
    simp [B.join, act_blk, goto_blk, branch_blk, new_blk, hlr.symm, show rq ≠ r.n by omega, show rq ≠ r.n + 1 by omega,
      show rq ≠ r.n + 2 by omega]
  have bt : J.1.blk r.n = { acts := [.set r.ntmp (.imm 1)], j0 := some (r.n + 2) } := by
    rw [← hJ]
    simp [B.join, act_blk, goto_blk, branch_blk, new_blk, show r.n ≠ rq by omega, show r.n ≠ lq by omega]
    rfl
  have bf : J.1.blk (r.n + 1) = { acts := [.set r.ntmp (.imm 0)], j0 := some (r.n + 2) } := by
    rw [← hJ]
    simp [B.join, act_blk, goto_blk, branch_blk, new_blk, show r.n + 1 ≠ rq by omega, show r.n + 1 ≠ lq by omega]
    rfl
  have bk : J.1.blk (r.n + 2) = {} := by
    rw [← hJ]
    simp [B.join, act_blk, goto_blk, branch_blk, new_blk, show r.n + 2 ≠ rq by omega, show r.n + 2 ≠ lq by omega]
  have bo : ∀ i, i < r.n → i ≠ lq → i ≠ rq → J.1.blk i = r.blk i := by
    intro i hi hil hir
    rw [← hJ]
    simp [B.join, act_blk, goto_blk, branch_blk, new_blk, hil, hir, show i ≠ r.n by omega, show i ≠ r.n + 1 by omega,
      show i ≠ r.n + 2 by omega]
  have keep' : ∀ i, i < b.n → i ≠ p → J.1.blk i = b.blk i := by
    intro i hi hip
    have e1 := hgr.keep i (by simp; omega) (by omega)
    simp only at e1
    rw [bo i (by omega) (by omega) (by omega), e1, new_blk, if_neg (by omega)]
    exact hg.keep i hi hip
  refine ⟨⟨by omega, by omega, Or.inr (by omega), keep', ?_, by rw [hJq, bk]; exact fun _ => ⟨rfl, rfl, rfl⟩⟩, ?_, ?_⟩
  · by_cases hpl : p = lq
    · subst hpl
      rw [bl]; exact hg.grow
    · have e1 := hgr.keep p (by simp; omega) (by omega)
      simp only at e1
      rw [bo p (by omega) hpl (by omega), e1, new_blk, if_neg (by omega)]
      exact hg.grow
  · rw [hJr]; exact hr.rest.trans hl.rest
  · intro G X hE hX m
    rw [hJq] at hE
    have hX' : ∀ x, X x → x < l.n ∧ x ≠ lq := fun x hx => by have := hX x hx; omega
    have hE0 : Ext r (fun i => i = rq ∨ i = lq ∨ X i) G := by
      intro i hi
      have hh := hE i (by omega)
      by_cases hil : i = lq
      · refine ⟨?_, fun hn => absurd (Or.inr (Or.inl hil)) hn⟩
        rw [hil, bl] at hh; rw [hil, hk]; exact hh.1
      · by_cases hir : i = rq
        · refine ⟨?_, fun hn => absurd (Or.inl hir) hn⟩
          rw [hir, br] at hh; rw [hir]; exact hh.1
        · rw [bo i hi hil hir] at hh
          exact ⟨hh.1, fun hn => hh.2 fun ho => hn (by rcases ho with ho | ho; (· omega); exact Or.inr (Or.inr ho))⟩
    have hE1 : Ext l (fun i => i = lq ∨ X i) G := by
      have hE2 : Ext l.new (fun i => i = top ∨ i = lq ∨ X i) G := hgr.ext hE0 (Or.inl rfl) (fun i hi h => by
        simp at hi
        rcases h with h | h
        · left; omega
        · exact Or.inr h)
      exact hE2.new fun i hi h => by rcases h with h | h; (· omega); exact h
    have ny : ∀ i, i < r.n + 3 → i ≠ r.n + 2 → ¬ X i → G i = J.1.blk i := fun i h1 h2 h3 =>
      sealed hE (by omega) (by rintro (h | h); exacts [h2 h, h3 h])
    have gl := ny lq (by omega) (by omega) (fun h => (hX' _ h).2 rfl)
    have gr := ny rq (by omega) (by omega) (fun h => by have := hX' _ h; omega)
    have gt := ny r.n (by omega) (by omega) (fun h => by have := hX' _ h; omega)
    have gf := ny (r.n + 1) (by omega) (by omega) (fun h => by have := hX' _ h; omega)
    rw [bl] at gl; rw [br] at gr; rw [bt] at gt; rw [bf] at gf
    have brl : Br G (l.pos lq) vl (left r.n (r.n + 1)).1 (left r.n (r.n + 1)).2 :=
      ⟨by simp [B.pos, gl], by simp [B.pos, gl], by simp [B.pos, gl], by simp [B.pos, gl]⟩
    have brr : Br G (r.pos rq) vr (r.n + 1) r.n :=
      ⟨by simp [B.pos, gr], by simp [B.pos, gr], by simp [B.pos, gr], by simp [B.pos, gr]⟩
    have ep : J.1.pos (r.n + 2) = (r.n + 2, 0) := by simp [B.pos, bk]
    rw [hJq, hJv, ep]
    obtain ⟨m1, s1, u1, v1, w1⟩ := hl.run G X hE1 hX m
    have right : ∃ m', Star G (at_ (top, 0) m1) (at_ (r.n + 2, 0) m') ∧ m'.user = (y.eval m1.user).1 ∧
        m'.tmp r.ntmp = if (y.eval m1.user).2 = 0 then 0 else 1 := by
      obtain ⟨m2, s2, u2, v2, w2⟩ := hr.run G (fun i => i = lq ∨ X i) hE0 (by
        rintro i (h | h)
        · simp; omega
        · have := hX' i h; simp; omega) m1
      have et : l.new.pos top = (top, 0) := by simp [B.pos, new_blk, htop]
      rw [et] at s2
      have s3 := Star.one (step_br brr m2 w2)
      by_cases hz : (y.eval m1.user).2 = 0
      · rw [v2, if_neg (by simpa using hz)] at s3
        obtain ⟨m3, s4, u3, t3⟩ := set_ok gf m2 trivial
        exact ⟨m3, (s2.trans s3).trans s4, by rw [u3, u2], by rw [t3, if_pos hz]; rfl⟩
      · rw [v2, if_pos hz] at s3
        obtain ⟨m3, s4, u3, t3⟩ := set_ok gt m2 trivial
        exact ⟨m3, (s2.trans s3).trans s4, by rw [u3, u2], by rw [t3, if_neg hz]; rfl⟩
    have s2 := Star.one (step_br brl m1 w1)
    rw [v1] at s2
    rcases he with ⟨rfl, rfl⟩ | ⟨rfl, rfl⟩
    · by_cases hz : (x.eval m.user).2 = 0
      · rw [if_neg (by simpa using hz)] at s2
        obtain ⟨m3, s4, u3, t3⟩ := set_ok gf m1 trivial
        exact ⟨m3, (s1.trans s2).trans s4, by rw [u3, u1]; simp [Expr.eval, hz], by simp only [V.get, t3]; simp [Expr.eval, hz], trivial⟩
      · rw [if_pos hz] at s2
        obtain ⟨m3, s4, u3, t3⟩ := right
        refine ⟨m3, (s1.trans s2).trans s4, ?_, ?_, trivial⟩
        · rw [u3, u1]; simp [Expr.eval, hz]
        · simp only [V.get]; rw [t3, u1]; simp [Expr.eval, hz]
    · by_cases hz : (x.eval m.user).2 = 0
      · rw [if_neg (by simpa using hz)] at s2
        obtain ⟨m3, s4, u3, t3⟩ := right
        refine ⟨m3, (s1.trans s2).trans s4, ?_, ?_, trivial⟩
        · rw [u3, u1]; simp [Expr.eval, hz]
        · simp only [V.get]; rw [t3, u1]; simp [Expr.eval, hz]
      · rw [if_pos hz] at s2
        obtain ⟨m3, s4, u3, t3⟩ := set_ok gt m1 trivial
        exact ⟨m3, (s1.trans s2).trans s4, by rw [u3, u1]; simp [Expr.eval, hz], by simp only [V.get, t3]; simp [Expr.eval, hz], trivial⟩

/-- The left operand is a constant that leaves the value to the right one. -/
theorem through_ok {b l r : B σ} {p lq rq top : Nat} {vl vr : V σ} {x y e : Expr σ} (hp : p < b.n)
    (hj : (b.blk p).Fresh)
    (hl : ExprOk b p x (l, lq, vl)) (hr : ExprOk l.new top y (r, rq, vr)) (htop : top = l.n)
    (he : ∀ m : Mem σ, ∀ m', m'.user = (x.eval m.user).1 → vl.get m' = (x.eval m.user).2 →
      e.eval m.user = ((y.eval m'.user).1, if (y.eval m'.user).2 = 0 then 0 else 1)) :
    ExprOk b p e (r.goto lq top, rq, toBool vr) := by
  have hg := hl.grow
  have hgr := hr.grow
  have h1 := hg.n_le; have h2 := hg.q_lt; have h3 := hgr.n_le; have h4 := hgr.q_lt; have h5 := hg.q_new; have h6 := hgr.q_new
  simp at h1 h2 h3 h4 h5 h6
  have hk : r.blk lq = l.blk lq := by
    have := hgr.keep lq (by simp; omega) (by omega)
    simp only at this
    rw [this, new_blk, if_neg (by omega)]
  have hfl := hg.fresh hj
  have hfr := hgr.fresh (by rw [new_blk, if_pos htop]; exact ⟨rfl, rfl, rfl⟩)
  simp only at hfl hfr
  have hlr : rq ≠ lq := by omega
  refine ⟨⟨by simp; omega, by simp; omega, Or.inr (by simp; omega), ?_, ?_, ?_⟩, by simp only [goto_rest]; exact hr.rest.trans hl.rest, ?_⟩
  · intro i hi hip
    have e1 := hgr.keep i (by simp; omega) (by omega)
    simp only at e1 ⊢
    rw [goto_blk, if_neg (by omega), e1, new_blk, if_neg (by omega)]
    exact hg.keep i hi hip
  · simp only
    by_cases hpl : p = lq
    · subst hpl
      rw [goto_blk, if_pos rfl, hk]; exact hg.grow
    · have e1 := hgr.keep p (by simp; omega) (by omega)
      simp only at e1
      rw [goto_blk, if_neg hpl, e1, new_blk, if_neg (by omega)]
      exact hg.grow
  · intro _
    simp only
    rw [goto_blk, if_neg hlr]; exact hfr
  · intro G X hE hX m
    simp only at hE ⊢
    have hX' : ∀ x, X x → x < l.n ∧ x ≠ lq := fun x hx => by have := hX x hx; omega
    have hE0 : Ext r (fun i => i = rq ∨ i = lq ∨ X i) G := hE.goto (Or.inr (Or.inl rfl)) (fun i _ h => by tauto)
    have hE1 : Ext l (fun i => i = lq ∨ X i) G := by
      have hE2 : Ext l.new (fun i => i = top ∨ i = lq ∨ X i) G := hgr.ext hE0 (Or.inl rfl) (fun i hi h => by
        simp at hi
        rcases h with h | h
        · left; omega
        · exact Or.inr h)
      exact hE2.new fun i hi h => by rcases h with h | h; (· omega); exact h
    have gl := sealed hE (i := lq) (by simp; omega) (by rintro (h | h); exacts [hlr h.symm, (hX' _ h).2 rfl])
    rw [goto_blk, if_pos rfl, hk] at gl
    have hgo : Goto G (l.pos lq) top := ⟨by simp [B.pos, gl], by simp [B.pos, gl], by simp [B.pos, gl, hfl.2.1]⟩
    obtain ⟨m1, s1, u1, v1, w1⟩ := hl.run G X hE1 hX m
    obtain ⟨m2, s2, u2, v2, w2⟩ := hr.run G (fun i => i = lq ∨ X i) hE0 (by
      rintro i (h | h)
      · simp; omega
      · have := hX' i h; simp; omega) m1
    have et : l.new.pos top = (top, 0) := by simp [B.pos, new_blk, htop]
    rw [et] at s2
    refine ⟨m2, (s1.trans (Star.one (step_goto hgo m1))).trans ?_, ?_, ?_, toBool_ok w2⟩
    · rw [show (r.goto lq top).pos rq = r.pos rq by simp [B.pos, goto_blk, hlr]]; exact s2
    · rw [he m m1 u1 v1]; exact u2
    · rw [he m m1 u1 v1, toBool_get, v2]

/-- `?:` with a constant condition. -/
theorem pick_ok {b h l : B σ} {p q q' : Nat} {v w : V σ} {c x e : Expr σ} (hp : p < b.n)
    (hl : ExprOk b p c (h, q, v)) (hr : ExprOk h q x (l, q', w))
    (he : ∀ m : Mem σ, ∀ m', m'.user = (c.eval m.user).1 → v.get m' = (c.eval m.user).2 → e.eval m.user = x.eval m'.user) :
    ExprOk b p e ((l.eval q' w).1, q', (l.eval q' w).2) := by
  have hg := hl.grow
  have hgr := hr.grow
  have h1 := hg.n_le; have h2 := hg.q_lt; have h5 := hg.q_new; have h4 := hgr.q_lt; have h6 := hgr.q_new
  simp only at h1 h2 h5 h4 h6
  obtain ⟨e1, e2, e3⟩ := eval_ok l w hgr.q_lt
  simp only at e1 e2 e3
  refine ⟨(hg.trans hgr hp).trans e1 hp, by rw [e2]; exact hr.rest.trans hl.rest, ?_⟩
  intro G X hE hX m
  simp only at hE ⊢
  have hX' : ∀ i, X i → i < h.n ∧ i ≠ q := fun i hi => by have := hX i hi; omega
  have hE0 : Ext l (fun i => i = q' ∨ X i) G := e1.ext hE (Or.inl rfl) fun _ _ h => h
  have hE1 : Ext h (fun i => i = q ∨ X i) G := hgr.ext hE0 (Or.inl rfl) fun i hi h => by
    rcases h with h | h
    · left; omega
    · exact Or.inr h
  obtain ⟨m1, s1, u1, v1, w1⟩ := hl.run G X hE1 hX m
  obtain ⟨m2, s2, u2, v2, w2⟩ := hr.run G X hE0 hX' m1
  obtain ⟨m3, s3, u3, v3, w3⟩ := e3 G _ hE m2 w2
  refine ⟨m3, (s1.trans s2).trans s3, ?_, ?_, w3⟩
  · rw [he m m1 u1 v1, u3, u2]
  · rw [he m m1 u1 v1, v3, v2]

/-- The blocks of `?:`. -/
def condEnd (R : B σ) (lq rq k : Nat) (lv rv : V σ) : B σ :=
  ((((({ R with ntmp := R.ntmp + 1 } : B σ).act rq (.set R.ntmp rv)).new.goto lq R.n).act R.n (.set R.ntmp lv)).goto R.n k).goto rq k

theorem cond_ok {b h L R : B σ} {p hq lq rq : Nat} {vh vl vr lv rv : V σ} {c x y : Expr σ} {l r : B σ} (hp : p < b.n)
    (hj : (b.blk p).Fresh)
    (hh : ExprOk b p c (h, hq, vh))
    (hl : ExprOk (h.new.new.branch hq vh (h.n + 1) h.n).new h.n x (l, lq, vl)) (hL : l.eval lq vl = (L, lv))
    (hr : ExprOk L (h.n + 1) y (r, rq, vr)) (hR : r.eval rq vr = (R, rv)) :
    ExprOk b p (.cond c x y) (condEnd R lq rq (h.n + 2) lv rv, h.n + 2, .tmp R.ntmp) := by
  have hg := hh.grow
  have hgl := hl.grow
  have hgr := hr.grow
  have h1 := hg.n_le; have h2 := hg.q_lt; have h3 := hg.q_new
  simp only at h1 h2 h3
  obtain ⟨eL1, eL2, eL3⟩ := eval_ok l vl hgl.q_lt
  obtain ⟨eR1, eR2, eR3⟩ := eval_ok r vr hgr.q_lt
  simp only [hL, hR] at eL1 eL2 eL3 eR1 eR2 eR3
  have gL := hgl.trans eL1 (by simp; omega)
  have gR := hgr.trans eR1 (by have := gL.n_le; simp at this; omega)
  generalize hb1 : (h.new.new.branch hq vh (h.n + 1) h.n).new = b1 at *
  have b1n : b1.n = h.n + 3 := by rw [← hb1]; rfl
  have b1q : b1.blk hq = { h.blk hq with expr := vh, j0 := some (h.n + 1), j1 := some h.n } := by
    rw [← hb1]; simp [new_blk, branch_blk, show hq ≠ h.n by omega, show hq ≠ h.n + 1 by omega, show hq ≠ h.n + 1 + 1 by omega]
  have b1o : ∀ i, i < h.n → i ≠ hq → b1.blk i = h.blk i := by
    intro i hi hiq
    rw [← hb1]; simp [new_blk, branch_blk, hiq, show i ≠ h.n by omega, show i ≠ h.n + 1 by omega, show i ≠ h.n + 1 + 1 by omega]
  have b1e : ∀ i, h.n ≤ i → i < h.n + 3 → b1.blk i = {} := by
    intro i hi hi3
    rw [← hb1]
    rcases (by omega : i = h.n ∨ i = h.n + 1 ∨ i = h.n + 2) with rfl | rfl | rfl
    · simp [new_blk, branch_blk, show h.n ≠ hq by omega]
    · simp [new_blk, branch_blk, show h.n + 1 ≠ hq by omega]
    · simp [new_blk, branch_blk]
  have n1 := gL.n_le; have n2 := gR.n_le; have n3 := hgl.q_new; have n4 := gL.q_lt; have n5 := hgr.q_new; have n6 := gR.q_lt
  rw [b1n] at n1 n3
  simp only at n3 n4 n5 n6
  have kL : R.blk lq = L.blk lq := gR.keep lq (by omega) (by omega)
  have kk : R.blk (h.n + 2) = {} := by
    rw [gR.keep _ (by omega) (by omega), gL.keep _ (by omega) (by omega), b1e _ (by omega) (by omega)]
  have kq : R.blk hq = { h.blk hq with expr := vh, j0 := some (h.n + 1), j1 := some h.n } := by
    rw [gR.keep _ (by omega) (by omega), gL.keep _ (by omega) (by omega), b1q]
  have ko : ∀ i, i < h.n → i ≠ hq → R.blk i = h.blk i := by
    intro i hi hiq
    rw [gR.keep _ (by omega) (by omega), gL.keep _ (by omega) (by omega), b1o i hi hiq]
  have fl : (L.blk lq).Fresh := gL.fresh (by rw [b1e _ (by omega) (by omega)]; exact ⟨rfl, rfl, rfl⟩)
  have er : L.blk (h.n + 1) = {} := by rw [gL.keep _ (by omega) (by omega), b1e _ (by omega) (by omega)]
  have fr : (R.blk rq).Fresh := gR.fresh (by rw [er]; exact ⟨rfl, rfl, rfl⟩)
  generalize hJ : condEnd R lq rq (h.n + 2) lv rv = J
  have Jn : J.n = R.n + 1 := by rw [← hJ]; rfl
  have Jr : J.rest = R.rest := by rw [← hJ]; rfl
  have Jrq : J.blk rq = { R.blk rq with acts := (R.blk rq).acts ++ [.set R.ntmp rv], j0 := some (h.n + 2) } := by
    rw [← hJ]
    simp [condEnd, act_blk, goto_blk, new_blk, show rq ≠ lq by omega, show rq ≠ R.n by omega]
  have Jx : J.blk R.n = { acts := [.set R.ntmp lv], j0 := some (h.n + 2) } := by
    rw [← hJ]
    simp [condEnd, act_blk, goto_blk, new_blk, show R.n ≠ rq by omega, show R.n ≠ lq by omega]
  have Jlq : J.blk lq = { L.blk lq with j0 := some R.n } := by
    rw [← kL, ← hJ]
    simp [condEnd, act_blk, goto_blk, new_blk, show lq ≠ rq by omega, show lq ≠ R.n by omega]
  have Jo : ∀ i, i < R.n → i ≠ rq → i ≠ lq → J.blk i = R.blk i := by
    intro i hi h1 h2
    rw [← hJ]
    simp [condEnd, act_blk, goto_blk, new_blk, h1, h2, show i ≠ R.n by omega]
  have Jk : J.blk (h.n + 2) = {} := by rw [Jo _ (by omega) (by omega) (by omega), kk]
  refine ⟨⟨by simp only; omega, by simp only; omega, Or.inr (by simp only; omega), ?_, ?_, by simp only; rw [Jk]; exact fun _ => ⟨rfl, rfl, rfl⟩⟩, ?_, ?_⟩
  · intro i hi hip
    simp only
    rw [Jo i (by omega) (by omega) (by omega), ko i (by omega) (by omega)]
    exact hg.keep i hi hip
  · simp only
    rw [Jo p (by omega) (by omega) (by omega)]
    by_cases hpq : p = hq
    · subst hpq; rw [kq]; exact hg.grow
    · rw [ko p (by omega) hpq]; exact hg.grow
  · simp only
    rw [Jr, eR2, hr.rest, eL2, hl.rest, ← hb1]
    exact hh.rest
  · intro G X hE hX m
    simp only at hE ⊢
    have hX' : ∀ i, X i → i < h.n ∧ i ≠ hq := fun i hi => by have := hX i hi; omega
    have ER : Ext R (fun i => i = rq ∨ i = lq ∨ i = h.n + 2 ∨ X i) G := by
      intro i hi
      have hh := hE i (by omega)
      by_cases hir : i = rq
      · refine ⟨?_, fun hn => absurd (Or.inl hir) hn⟩
        rw [hir, Jrq] at hh; rw [hir]; exact (List.prefix_append _ _).trans hh.1
      · by_cases hil : i = lq
        · refine ⟨?_, fun hn => absurd (Or.inr (Or.inl hil)) hn⟩
          rw [hil, Jlq] at hh; rw [hil, kL]; exact hh.1
        · rw [Jo i hi hir hil] at hh
          exact ⟨hh.1, fun hn => hh.2 fun ho => hn (by tauto)⟩
    have Er : Ext r (fun i => i = rq ∨ i = lq ∨ i = h.n + 2 ∨ X i) G := eR1.ext ER (Or.inl rfl) fun _ _ h => h
    have EL : Ext L (fun i => i = lq ∨ i = h.n + 1 ∨ i = h.n + 2 ∨ X i) G := gR.ext ER (by tauto) fun i hi ho => by
      rcases ho with ho | ho | ho | ho
      · have := n5; omega
      · exact Or.inl ho
      · exact Or.inr (Or.inr (Or.inl ho))
      · exact Or.inr (Or.inr (Or.inr ho))
    have El : Ext l (fun i => i = lq ∨ i = h.n + 1 ∨ i = h.n + 2 ∨ X i) G := eL1.ext EL (Or.inl rfl) fun _ _ h => h
    have E1 : Ext b1 (fun i => i = h.n ∨ i = h.n + 1 ∨ i = h.n + 2 ∨ X i) G := gL.ext EL (by tauto) fun i hi ho => by
      rcases ho with ho | ho
      · left; omega
      · exact Or.inr ho
    have Eh : Ext h (fun i => i = hq ∨ X i) G := by
      intro i hi
      have hh := E1 i (by omega)
      by_cases hiq : i = hq
      · refine ⟨?_, fun hn => absurd (Or.inl hiq) hn⟩
        rw [hiq, b1q] at hh; rw [hiq]; exact hh.1
      · rw [b1o i hi hiq] at hh
        exact ⟨hh.1, fun hn => hh.2 fun ho => hn (by rcases ho with ho | ho | ho | ho; (· omega); (· omega); (· omega); exact Or.inr ho)⟩
    have ny : ∀ i, i < R.n + 1 → i ≠ h.n + 2 → ¬ X i → G i = J.blk i := fun i h1 h2 h3 =>
      sealed hE (by omega) (by rintro (h | h); exacts [h2 h, h3 h])
    have gq := ny hq (by omega) (by omega) (fun h => (hX' _ h).2 rfl)
    rw [Jo _ (by omega) (by omega) (by omega), kq] at gq
    have gl := ny lq (by omega) (by omega) (fun h => by have := hX' _ h; omega)
    have gr := ny rq (by omega) (by omega) (fun h => by have := hX' _ h; omega)
    have gx := ny R.n (by omega) (by omega) (fun h => by have := hX' _ h; omega)
    rw [Jlq] at gl; rw [Jrq] at gr; rw [Jx] at gx
    have hbr : Br G (h.pos hq) vh (h.n + 1) h.n := ⟨by simp [B.pos, gq], by simp [B.pos, gq], by simp [B.pos, gq], by simp [B.pos, gq]⟩
    obtain ⟨m1, s1, u1, v1, w1⟩ := hh.run G X Eh hX m
    have s2 := Star.one (step_br hbr m1 w1)
    rw [v1] at s2
    have ek : J.pos (h.n + 2) = (h.n + 2, 0) := by simp [B.pos, Jk]
    rw [ek]
    by_cases hz : (c.eval m.user).2 = 0
    · rw [if_neg (by simpa using hz)] at s2
      obtain ⟨m2, s3, u2, v2, w2⟩ := hr.run G (fun i => i = lq ∨ i = h.n + 2 ∨ X i) Er (by
        rintro i (hi | hi | hi)
        · omega
        · omega
        · have := hX' i hi; omega) m1
      simp only [show L.pos (h.n + 1) = (h.n + 1, 0) by simp [B.pos, er]] at s3
      obtain ⟨m3, s4, u3, v3, w3⟩ := eR3 G _ ER m2 w2
      have s5 := Star.one (step_act (G := G) (p := R.pos rq) (k := R.ntmp) (v := rv) (by simp [B.pos, gr]) m3 w3)
      have hgo : Goto G ((R.pos rq).1, (R.pos rq).2 + 1) (h.n + 2) :=
        ⟨by simp [B.pos, gr], by simp [B.pos, gr], by simp [B.pos, gr, fr.2.1]⟩
      refine ⟨_, ((((s1.trans s2).trans s3).trans s4).trans s5).trans (Star.one (step_goto hgo _)), ?_, ?_, trivial⟩
      · simp only [Act.run]
        rw [u3, u2, u1]; simp [Expr.eval, hz]
      · simp only [Act.run, V.get, if_pos]
        rw [v3, v2, u1]; simp [Expr.eval, hz]
    · rw [if_pos hz] at s2
      obtain ⟨m2, s3, u2, v2, w2⟩ := hl.run G (fun i => i = h.n + 1 ∨ i = h.n + 2 ∨ X i) El (by
        rintro i (hi | hi | hi)
        · omega
        · omega
        · have := hX' i hi; omega) m1
      simp only [show b1.pos h.n = (h.n, 0) by simp [B.pos, b1e h.n (Nat.le_refl _) (by omega)]] at s3
      obtain ⟨m3, s4, u3, v3, w3⟩ := eL3 G _ EL m2 w2
      have hgo : Goto G (L.pos lq) R.n := ⟨by simp [B.pos, gl], by simp [B.pos, gl], by simp [B.pos, gl, fl.2.1]⟩
      obtain ⟨m4, s5, u4, v4⟩ := set_ok gx m3 w3
      refine ⟨m4, ((((s1.trans s2).trans s3).trans s4).trans (Star.one (step_goto hgo _))).trans s5, ?_, ?_, trivial⟩
      · rw [u4, u3, u2, u1]; simp [Expr.eval, hz]
      · simp only [V.get]
        rw [v4, v3, v2, u1]; simp [Expr.eval, hz]

theorem expr_ok (e : Expr σ) : ∀ (b : B σ) (p : Nat), p < b.n → (b.blk p).Fresh → ExprOk b p e (b.expr p e) := by
  induction e with
  | imm n => exact fun b p hp _ => ⟨grow_refl b hp, rfl, fun G X _ _ m => ⟨m, Star.refl _, rfl, rfl, trivial⟩⟩
  | prim e c a =>
    intro b p hp _
    refine ⟨grow_act b _ hp, rfl, fun G X hE _ m => ⟨(Act.user e a).run m, ?_, rfl, ?_, Prim.ok_act _ _⟩⟩
    · have := Star.one (step_user (p := b.pos p) (act_at hE hp) m)
      rw [show ((b.pos p).1, (b.pos p).2 + 1) = (b.act p (.user e a)).pos p from (pos_act b p _).symm] at this
      exact this
    · cases c <;> simp [B.expr, V.get, Expr.eval, truth, Act.run]
  | app c a e ih =>
    intro b p hp hj
    have h := ih b p hp hj
    refine ⟨h.grow.trans (grow_act _ _ h.grow.q_lt) hp, h.rest, fun G X hE hX m => ?_⟩
    have hE' : Ext ((b.expr p e).1.act (b.expr p e).2.1 (.app a (b.expr p e).2.2)) (fun i => i = (b.expr p e).2.1 ∨ X i) G := hE
    obtain ⟨m', s, u, v, w⟩ := h.run G X (hE'.act (Or.inl rfl) fun _ _ h => h) hX m
    refine ⟨(Act.app a (b.expr p e).2.2).run m', s.trans ?_, ?_, ?_, Prim.ok_put _ _ _⟩
    · have := Star.one (step_app (p := (b.expr p e).1.pos (b.expr p e).2.1) (act_at hE' h.grow.q_lt) m' w)
      rw [show (((b.expr p e).1.pos (b.expr p e).2.1).1, ((b.expr p e).1.pos (b.expr p e).2.1).2 + 1) =
        ((b.expr p e).1.act (b.expr p e).2.1 (.app a (b.expr p e).2.2)).pos (b.expr p e).2.1 from (pos_act _ _ _).symm] at this
      exact this
    · simp only [Act.run, Expr.eval, v, u]
    · cases c <;> simp [B.expr, V.get, Expr.eval, truth, Act.run, v, u]
  | not e ih =>
    intro b p hp hj
    have h := ih b p hp hj
    refine ⟨h.grow, h.rest, fun G X hE hX m => ?_⟩
    obtain ⟨m', s, u, v, w⟩ := h.run G X hE hX m
    exact ⟨m', s, u, by simp only [B.expr]; rw [notV_get, v]; rfl, notV_ok w⟩
  | comma x y ihx ihy =>
    intro b p hp hj
    have h := ihx b p hp hj
    have h' := ihy _ _ h.grow.q_lt (h.grow.fresh hj)
    refine ⟨h.grow.trans h'.grow hp, h'.rest.trans h.rest, fun G X hE hX m => ?_⟩
    have n1 := h.grow.n_le; have n2 := h.grow.q_new; have n3 := h'.grow.q_new
    have hX' : ∀ i, X i → i < (b.expr p x).1.n ∧ i ≠ (b.expr p x).2.1 := fun i hi => by have := hX i hi; omega
    have hE' : Ext (b.expr p x).1 (fun i => i = (b.expr p x).2.1 ∨ X i) G := h'.grow.ext hE (Or.inl rfl) fun i hi ho => by
      rcases ho with ho | ho
      · left
        have : i = ((b.expr p x).1.expr (b.expr p x).2.1 y).2.1 := ho
        omega
      · exact Or.inr ho
    obtain ⟨m1, s1, u1, v1, _⟩ := h.run G X hE' hX m
    obtain ⟨m2, s2, u2, v2, w2⟩ := h'.run G X hE hX' m1
    exact ⟨m2, s1.trans s2, by rw [u2, u1]; rfl, by rw [show (Expr.comma x y).eval m.user = y.eval (x.eval m.user).1 from rfl, ← u1]; exact v2, w2⟩
  | and x y ihx ihy =>
    intro b p hp hj
    have h := ihx b p hp hj
    have h' := ihy (b.expr p x).1.new (b.expr p x).1.n (by simp) (by rw [new_blk, if_pos rfl]; exact ⟨rfl, rfl, rfl⟩)
    have g' := h'.grow
    rw [show b.expr p (.and x y) = (match boolOf (b.expr p x).2.2 with
      | some true => (((b.expr p x).1.new.expr (b.expr p x).1.n y).1.goto (b.expr p x).2.1 (b.expr p x).1.n,
          ((b.expr p x).1.new.expr (b.expr p x).1.n y).2.1, toBool ((b.expr p x).1.new.expr (b.expr p x).1.n y).2.2)
      | some false => ((b.expr p x).1.new.expr (b.expr p x).1.n y).1.decided (b.expr p x).2.1 (b.expr p x).1.n
          ((b.expr p x).1.new.expr (b.expr p x).1.n y).2.1 0
      | none => ((b.expr p x).1.new.expr (b.expr p x).1.n y).1.join (b.expr p x).2.1 (b.expr p x).2.2
          ((b.expr p x).1.new.expr (b.expr p x).1.n y).2.1 ((b.expr p x).1.new.expr (b.expr p x).1.n y).2.2 fun _ f => (f, (b.expr p x).1.n)) from rfl]
    split
    · rename_i hb
      obtain ⟨n, hn, hn0⟩ := imm_of_bool hb
      refine through_ok hp hj h h' rfl fun m m' hu hv => ?_
      rw [hn] at hv
      have : (x.eval m.user).2 ≠ 0 := by rw [← hv]; exact hn0.2 rfl
      simp [Expr.eval, this, hu]
    · rename_i hb
      obtain ⟨n, hn, hn0⟩ := imm_of_bool hb
      refine decided_ok hp hj h g' h'.rest rfl fun m m' hu hv => ?_
      rw [hn] at hv
      have : (x.eval m.user).2 = 0 := by rw [← hv]; simpa [V.get] using hn0
      simp [Expr.eval, this, hu]
    · exact join_ok hp hj h h' rfl (Or.inl ⟨rfl, rfl⟩)
  | or x y ihx ihy =>
    intro b p hp hj
    have h := ihx b p hp hj
    have h' := ihy (b.expr p x).1.new (b.expr p x).1.n (by simp) (by rw [new_blk, if_pos rfl]; exact ⟨rfl, rfl, rfl⟩)
    have g' := h'.grow
    rw [show b.expr p (.or x y) = (match boolOf (b.expr p x).2.2 with
      | some true => ((b.expr p x).1.new.expr (b.expr p x).1.n y).1.decided (b.expr p x).2.1 (b.expr p x).1.n
          ((b.expr p x).1.new.expr (b.expr p x).1.n y).2.1 1
      | some false => (((b.expr p x).1.new.expr (b.expr p x).1.n y).1.goto (b.expr p x).2.1 (b.expr p x).1.n,
          ((b.expr p x).1.new.expr (b.expr p x).1.n y).2.1, toBool ((b.expr p x).1.new.expr (b.expr p x).1.n y).2.2)
      | none => ((b.expr p x).1.new.expr (b.expr p x).1.n y).1.join (b.expr p x).2.1 (b.expr p x).2.2
          ((b.expr p x).1.new.expr (b.expr p x).1.n y).2.1 ((b.expr p x).1.new.expr (b.expr p x).1.n y).2.2 fun t _ => ((b.expr p x).1.n, t)) from rfl]
    split
    · rename_i hb
      obtain ⟨n, hn, hn0⟩ := imm_of_bool hb
      refine decided_ok hp hj h g' h'.rest rfl fun m m' hu hv => ?_
      rw [hn] at hv
      have : (x.eval m.user).2 ≠ 0 := by rw [← hv]; exact hn0.2 rfl
      simp [Expr.eval, this, hu]
    · rename_i hb
      obtain ⟨n, hn, hn0⟩ := imm_of_bool hb
      refine through_ok hp hj h h' rfl fun m m' hu hv => ?_
      rw [hn] at hv
      have : (x.eval m.user).2 = 0 := by rw [← hv]; simpa [V.get] using hn0
      simp [Expr.eval, this, hu]
    · exact join_ok hp hj h h' rfl (Or.inr ⟨rfl, rfl⟩)
  | cond c x y ihc ihx ihy =>
    intro b p hp hj
    have h := ihc b p hp hj
    have q1 := h.grow.q_lt
    have q2 := h.grow.fresh hj
    simp only [B.expr]
    split
    · rename_i hb
      obtain ⟨n, hn, hn0⟩ := imm_of_bool hb
      refine pick_ok hp h (ihx _ _ q1 q2) fun m m' hu hv => ?_
      rw [hn] at hv
      have : (c.eval m.user).2 ≠ 0 := by rw [← hv]; exact hn0.2 rfl
      simp [Expr.eval, this, hu]
    · rename_i hb
      obtain ⟨n, hn, hn0⟩ := imm_of_bool hb
      refine pick_ok hp h (ihy _ _ q1 q2) fun m m' hu hv => ?_
      rw [hn] at hv
      have : (c.eval m.user).2 = 0 := by rw [← hv]; simpa [V.get] using hn0
      simp [Expr.eval, this, hu]
    · generalize hh : b.expr p c = H at *
      obtain ⟨h0, hq, vh⟩ := H
      simp only at *
      have hl := ihx (h0.new.new.branch hq vh (h0.n + 1) h0.n).new h0.n (by simp; omega) (by
        simp [new_blk, branch_blk, show h0.n ≠ hq by omega, Block.Fresh])
      generalize hl' : (h0.new.new.branch hq vh (h0.n + 1) h0.n).new.expr h0.n x = L0 at *
      obtain ⟨l, lq, vl⟩ := L0
      simp only at *
      obtain ⟨e1, e2, e3⟩ := eval_ok l vl hl.grow.q_lt
      simp only at e1 e2 e3
      have gL := hl.grow.trans e1 (by simp; omega)
      generalize hL : l.eval lq vl = L1 at *
      obtain ⟨L, lv⟩ := L1
      simp only at *
      have nL := gL.n_le
      simp at nL
      have n3 := hl.grow.q_new
      have hr := ihy L (h0.n + 1) (by omega) (by
        rw [gL.keep _ (by simp) (by omega)]
        simp [new_blk, branch_blk, show h0.n + 1 ≠ hq by omega, Block.Fresh])
      generalize hr' : L.expr (h0.n + 1) y = R0 at *
      obtain ⟨r, rq, vr⟩ := R0
      simp only at *
      generalize hR : r.eval rq vr = R1 at *
      obtain ⟨R, rv⟩ := R1
      exact cond_ok hp hj h hl hL hr hR

end Verif.Cfg
