import Verif.Cfg.StmtLemmas4

/-! # Simulation of the abstract machine by the graph -/

namespace Verif.Cfg

set_option linter.unusedSectionVars false

variable {σ : Type} [Prim σ] {G : Nat → Block σ} {L : Nat → Option Nat} {P : Nat → Prop}

def Reach (G : Nat → Block σ) (q q' : Pos) : Prop := ∀ m : Mem σ, ∃ n, XRun G n (at_ q m) (at_ q' m)
def Reach1 (G : Nat → Block σ) (q q' : Pos) : Prop := ∀ m : Mem σ, ∃ n, XRun G (n + 1) (at_ q m) (at_ q' m)

theorem Reach.refl (q : Pos) : Reach G q q := fun _ => ⟨0, rfl⟩

theorem crun_one {s t : CState σ} (h : XStep G s t) : XRun G 1 s t := ⟨t, h, rfl⟩

theorem reach1_goto {p : Pos} {t : Nat} (h : Goto G p t) : Reach1 G p (t, 0) := fun m => ⟨0, crun_one (step_goto h m)⟩

theorem Reach1.reach {p q : Pos} (h : Reach1 G p q) : Reach G p q := fun m => by
  obtain ⟨n, h⟩ := h m; exact ⟨n + 1, h⟩

theorem Reach.trans {p q r : Pos} (h1 : Reach G p q) (h2 : Reach G q r) : Reach G p r := fun m => by
  obtain ⟨a, ha⟩ := h1 m
  obtain ⟨b, hb⟩ := h2 m
  exact ⟨a + b, crun_trans ha hb⟩

theorem Reach.trans1 {p q r : Pos} (h1 : Reach G p q) (h2 : Reach1 G q r) : Reach1 G p r := fun m => by
  obtain ⟨a, ha⟩ := h1 m
  obtain ⟨b, hb⟩ := h2 m
  exact ⟨a + b, by rw [Nat.add_assoc]; exact crun_trans ha hb⟩

/-- The loops in the graph; `t` is the loop-continuation point and `n` the block after the loop. -/
def WhileAt (G : Nat → Block σ) (L : Nat → Option Nat) (P : Nat → Prop) (c : Expr σ) (s : Stmt σ) (t n : Nat) : Prop :=
  ∃ m v body e cs d, ExecE G c (t, 0) m v ∧ Test G m v body n ∧ TrS G L P s (some n) (some t) cs d (body, 0) e ∧ Goto G e t

def DoAt (G : Nat → Block σ) (L : Nat → Option Nat) (P : Nat → Prop) (s : Stmt σ) (c : Expr σ) (t n : Nat) : Prop :=
  ∃ m v top e cs d, ExecE G c (t, 0) m v ∧ Test G m v top n ∧ TrS G L P s (some n) (some t) cs d (top, 0) e ∧ Goto G e t

def ForAt (G : Nat → Block σ) (L : Nat → Option Nat) (P : Nat → Prop) (c x : Option (Expr σ)) (s : Stmt σ) (top t n : Nat) : Prop :=
  ∃ body e cs d, (match c with | none => top = body | some a => ∃ m v, ExecE G a (top, 0) m v ∧ Test G m v body n) ∧
    (match x with | none => t = top | some a => ∃ m v, ExecE G a (t, 0) m v ∧ Goto G m top) ∧
    TrS G L P s (some n) (some t) cs d (body, 0) e ∧ Goto G e t

/-- What comes after `q`. -/
def MatchK (G : Nat → Block σ) (L : Nat → Option Nat) (P : Nat → Prop) : Cont σ → Pos → Option Nat → Option Nat → Prop
  | .stop, q, brk, cnt => brk = none ∧ cnt = none ∧ ∃ q', Reach G q q' ∧ (G q'.1).acts.length = q'.2 ∧ (G q'.1).Fresh
  | .seq t k, q, brk, cnt => ∃ q' m cs d, Reach G q q' ∧ TrS G L P t brk cnt cs d q' m ∧ MatchK G L P k m brk cnt
  | .whileK c s k, q, brk, cnt => ∃ t n, brk = some n ∧ cnt = some t ∧ Reach1 G q (t, 0) ∧ WhileAt G L P c s t n ∧
      ∃ b' c', MatchK G L P k (n, 0) b' c'
  | .doK s c k, q, brk, cnt => ∃ t n, brk = some n ∧ cnt = some t ∧ Reach1 G q (t, 0) ∧ DoAt G L P s c t n ∧
      ∃ b' c', MatchK G L P k (n, 0) b' c'
  | .forK c x s k, q, brk, cnt => ∃ t n, brk = some n ∧ cnt = some t ∧ Reach1 G q (t, 0) ∧ (∃ top, ForAt G L P c x s top t n) ∧
      ∃ b' c', MatchK G L P k (n, 0) b' c'
  | .switchK k, q, brk, cnt => ∃ n, brk = some n ∧ Reach G q (n, 0) ∧ ∃ b', MatchK G L P k (n, 0) b' cnt

theorem MatchK.pre {k : Cont σ} {q q' : Pos} {brk cnt : Option Nat} (hr : Reach G q q') (h : MatchK G L P k q' brk cnt) :
    MatchK G L P k q brk cnt := by
  cases k with
  | stop => obtain ⟨h1, h2, x, h3, h4⟩ := h; exact ⟨h1, h2, x, hr.trans h3, h4⟩
  | seq t k => obtain ⟨x, m, cs, d, h1, h2⟩ := h; exact ⟨x, m, cs, d, hr.trans h1, h2⟩
  | whileK c s k => obtain ⟨t, n, h1, h2, h3, h4⟩ := h; exact ⟨t, n, h1, h2, hr.trans1 h3, h4⟩
  | doK s c k => obtain ⟨t, n, h1, h2, h3, h4⟩ := h; exact ⟨t, n, h1, h2, hr.trans1 h3, h4⟩
  | forK c x s k => obtain ⟨t, n, h1, h2, h3, h4⟩ := h; exact ⟨t, n, h1, h2, hr.trans1 h3, h4⟩
  | switchK k => obtain ⟨n, h1, h2, h3⟩ := h; exact ⟨n, h1, hr.trans h2, h3⟩

/-- At the loop-continuation point. -/
def MatchAgain (G : Nat → Block σ) (L : Nat → Option Nat) (P : Nat → Prop) : Cont σ → Nat → Prop
  | .whileK c s k, t => ∃ n, WhileAt G L P c s t n ∧ ∃ b' c', MatchK G L P k (n, 0) b' c'
  | .doK s c k, t => ∃ n, DoAt G L P s c t n ∧ ∃ b' c', MatchK G L P k (n, 0) b' c'
  | .forK c x s k, t => ∃ n, (∃ top, ForAt G L P c x s top t n) ∧ ∃ b' c', MatchK G L P k (n, 0) b' c'
  | _, _ => False

theorem match_break : ∀ (k : Cont σ) {q : Pos} {n : Nat} {cnt : Option Nat}, MatchK G L P k q (some n) cnt →
    ∃ k' b' c', k.break = some k' ∧ MatchK G L P k' (n, 0) b' c'
  | .stop, _, _, _, h => by obtain ⟨h, _⟩ := h; cases h
  | .seq t k, _, _, _, h => by obtain ⟨_, _, _, _, _, _, h⟩ := h; exact match_break k h
  | .whileK c s k, _, _, _, h => by
    obtain ⟨t, n, h1, h2, h3, h4, b', c', h5⟩ := h; cases h1; exact ⟨k, b', c', rfl, h5⟩
  | .doK s c k, _, _, _, h => by
    obtain ⟨t, n, h1, h2, h3, h4, b', c', h5⟩ := h; cases h1; exact ⟨k, b', c', rfl, h5⟩
  | .forK c x s k, _, _, _, h => by
    obtain ⟨t, n, h1, h2, h3, h4, b', c', h5⟩ := h; cases h1; exact ⟨k, b', c', rfl, h5⟩
  | .switchK k, _, _, _, h => by
    obtain ⟨n, h1, h2, b', h5⟩ := h; cases h1; exact ⟨k, b', _, rfl, h5⟩

theorem match_continue : ∀ (k : Cont σ) {q : Pos} {t : Nat} {brk : Option Nat}, MatchK G L P k q brk (some t) →
    ∃ k', k.continue = some k' ∧ MatchAgain G L P k' t
  | .stop, _, _, _, h => by obtain ⟨_, h, _⟩ := h; cases h
  | .seq t k, _, _, _, h => by obtain ⟨_, _, _, _, _, _, h⟩ := h; exact match_continue k h
  | .whileK c s k, _, _, _, h => by
    obtain ⟨t, n, h1, h2, h3, h4, h5⟩ := h; cases h2; exact ⟨_, rfl, n, h4, h5⟩
  | .doK s c k, _, _, _, h => by
    obtain ⟨t, n, h1, h2, h3, h4, h5⟩ := h; cases h2; exact ⟨_, rfl, n, h4, h5⟩
  | .forK c x s k, _, _, _, h => by
    obtain ⟨t, n, h1, h2, h3, h4, h5⟩ := h; cases h2; exact ⟨_, rfl, n, h4, h5⟩
  | .switchK k, _, _, _, h => by
    obtain ⟨n, h1, h2, b', h5⟩ := h; exact match_continue k h5

/-- The statement `s` at block `t`, with what follows it. -/
def Here (G : Nat → Block σ) (L : Nat → Option Nat) (P : Nat → Prop) (r : Stmt σ × Cont σ) (t : Nat) : Prop :=
  ∃ q brk cnt cs d, TrS G L P r.1 brk cnt cs d (t, 0) q ∧ MatchK G L P r.2 q brk cnt

/-- Where a case label, the default label or a label leads. -/
def firstCase (n : Int) (cs : List (Int × Nat)) : Option Nat := (cs.find? fun x => x.1 = n).map (·.2)

theorem firstCase_append (n : Int) (a b : List (Int × Nat)) : firstCase n (a ++ b) = (firstCase n a).or (firstCase n b) := by
  unfold firstCase
  rw [List.find?_append]
  cases a.find? fun x => x.1 = n <;> simp

def SameCase (G : Nat → Block σ) (L : Nat → Option Nat) (P : Nat → Prop) : Option (Stmt σ × Cont σ) → Option Nat → Prop
  | some r, some t => Here G L P r t
  | none, none => True
  | _, _ => False

theorem same_or {a c : Option (Stmt σ × Cont σ)} {b d : Option Nat} (h1 : SameCase G L P a b) (h2 : SameCase G L P c d) :
    SameCase G L P (a.or c) (b.or d) := by
  cases a <;> cases b <;> first | exact h2 | exact h1 | exact h1.elim

theorem same_join {a c : Option (Stmt σ × Cont σ)} {b d e : Option Nat} (h1 : SameCase G L P a b) (h2 : SameCase G L P c d)
    (hj : Join b d e) : SameCase G L P (a.or c) e := by
  rcases hj with ⟨rfl, rfl⟩ | ⟨rfl, rfl⟩
  · cases a with
    | none => exact h2
    | some _ => exact h1.elim
  · cases c with
    | none => rw [Option.or_none]; exact h1
    | some _ => exact h2.elim

theorem match_while {k : Cont σ} {c : Expr σ} {s : Stmt σ} {m : Pos} {v : V σ} {top body n : Nat} {e : Pos} {cs : List (Int × Nat)}
    {d b' c' : Option Nat}
    (h2 : ExecE G c (top, 0) m v) (h3 : Test G m v body n) (h4 : TrS G L P s (some n) (some top) cs d (body, 0) e) (h5 : Goto G e top)
    (hk : MatchK G L P k (n, 0) b' c') : MatchK G L P (.whileK c s k) e (some n) (some top) :=
  ⟨top, n, rfl, rfl, reach1_goto h5, ⟨m, v, body, e, cs, d, h2, h3, h4, h5⟩, b', c', hk⟩

theorem match_do {k : Cont σ} {c : Expr σ} {s : Stmt σ} {m : Pos} {v : V σ} {top t n : Nat} {e : Pos} {cs : List (Int × Nat)}
    {d b' c' : Option Nat}
    (h2 : ExecE G c (t, 0) m v) (h3 : Test G m v top n) (h4 : TrS G L P s (some n) (some t) cs d (top, 0) e) (h5 : Goto G e t)
    (hk : MatchK G L P k (n, 0) b' c') : MatchK G L P (.doK s c k) e (some n) (some t) :=
  ⟨t, n, rfl, rfl, reach1_goto h5, ⟨m, v, top, e, cs, d, h2, h3, h4, h5⟩, b', c', hk⟩

theorem find_case (n : Int) (s : Stmt σ) : ∀ {k : Cont σ} {p q : Pos} {brk cnt : Option Nat} {cs : List (Int × Nat)} {d : Option Nat},
    TrS G L P s brk cnt cs d p q → MatchK G L P k q brk cnt → SameCase G L P (findCase n s k) (firstCase n cs) := by
  induction s with
  | skip => rintro k p q brk cnt cs d ⟨_, rfl, _⟩ _; trivial
  | expr => rintro k p q brk cnt cs d ⟨_, rfl, _⟩ _; trivial
  | brk => rintro k p q brk cnt cs d ⟨_, rfl, _⟩ _; trivial
  | cont => rintro k p q brk cnt cs d ⟨_, rfl, _⟩ _; trivial
  | ret e => cases e <;> (rintro k p q brk cnt cs d ⟨_, rfl, _⟩ _; trivial)
  | goto => rintro k p q brk cnt cs d ⟨_, rfl, _⟩ _; trivial
  | switch => rintro k p q brk cnt cs d ⟨_, _, _, _, _, _, _, _, _, _, _, _, _, _, rfl, _⟩ _; trivial
  | seq s t ih1 ih2 =>
    rintro k p q brk cnt cs d ⟨m, cs1, d1, cs2, d2, h1, h2, rfl, _⟩ hk
    rw [firstCase_append]
    exact same_or (ih1 h1 ⟨m, q, cs2, d2, Reach.refl _, h2, hk⟩) (ih2 h2 hk)
  | ite c s ih =>
    rintro k p q brk cnt cs d ⟨m, v, r, e, n', _, _, h1, h2, rfl⟩ hk
    exact ih h1 (hk.pre (reach1_goto h2).reach)
  | ifElse c s t ih1 ih2 =>
    rintro k p q brk cnt cs d ⟨m, v, r, e, l, e', n', cs1, d1, cs2, d2, _, _, h1, g1, h2, g2, rfl, rfl, _⟩ hk
    rw [firstCase_append]
    exact same_or (ih1 h1 (hk.pre (reach1_goto g1).reach)) (ih2 h2 (hk.pre (reach1_goto g2).reach))
  | «while» c s ih =>
    rintro k p q brk cnt cs d ⟨m, v, top, body, e, n', h1, h2, h3, h4, h5, rfl⟩ hk
    exact ih h4 (match_while h2 h3 h4 h5 hk)
  | doWhile s c ih =>
    rintro k p q brk cnt cs d ⟨m, v, top, cond, e, n', h1, h4, h5, h2, h3, rfl⟩ hk
    exact ih h4 (match_do h2 h3 h4 h5 hk)
  | «for» i c x s ih =>
    rintro k p q brk cnt cs d ⟨p', top, body, incr, e, n', h1, h2, h3, h4, h5, h6, rfl⟩ hk
    exact ih h5 ⟨incr, n', rfl, rfl, reach1_goto h6, ⟨top, body, e, cs, d, h3, h4, h5, h6⟩, brk, cnt, hk⟩
  | label l s ih =>
    rintro k p q brk cnt cs d ⟨t, _, _, h⟩ hk
    exact ih h hk
  | case m s ih =>
    rintro k p q brk cnt cs d ⟨t, cs', _, h, rfl⟩ hk
    by_cases hm : m = n
    · subst hm
      simp only [findCase, firstCase, if_true, List.find?_cons, decide_true, Option.map_some]
      exact ⟨q, brk, cnt, cs', d, h, hk⟩
    · have e : firstCase n ((m, t) :: cs') = firstCase n cs' := by simp [firstCase, hm]
      rw [e, findCase, if_neg hm]
      exact ih h hk
  | default s ih =>
    rintro k p q brk cnt cs d ⟨t, _, h, _⟩ hk
    exact ih h hk

theorem find_default (s : Stmt σ) : ∀ {k : Cont σ} {p q : Pos} {brk cnt : Option Nat} {cs : List (Int × Nat)} {d : Option Nat},
    TrS G L P s brk cnt cs d p q → MatchK G L P k q brk cnt → SameCase G L P (findDefault s k) d := by
  induction s with
  | skip => rintro k p q brk cnt cs d ⟨_, _, rfl⟩ _; trivial
  | expr => rintro k p q brk cnt cs d ⟨_, _, rfl⟩ _; trivial
  | brk => rintro k p q brk cnt cs d ⟨_, _, rfl⟩ _; trivial
  | cont => rintro k p q brk cnt cs d ⟨_, _, rfl⟩ _; trivial
  | ret e => cases e <;> (rintro k p q brk cnt cs d ⟨_, _, rfl⟩ _; trivial)
  | goto => rintro k p q brk cnt cs d ⟨_, _, rfl⟩ _; trivial
  | switch => rintro k p q brk cnt cs d ⟨_, _, _, _, _, _, _, _, _, _, _, _, _, _, _, rfl⟩ _; trivial
  | seq s t ih1 ih2 =>
    rintro k p q brk cnt cs d ⟨m, cs1, d1, cs2, d2, h1, h2, rfl, hj⟩ hk
    exact same_join (ih1 h1 ⟨m, q, cs2, d2, Reach.refl _, h2, hk⟩) (ih2 h2 hk) hj
  | ite c s ih =>
    rintro k p q brk cnt cs d ⟨m, v, r, e, n', _, _, h1, h2, rfl⟩ hk
    exact ih h1 (hk.pre (reach1_goto h2).reach)
  | ifElse c s t ih1 ih2 =>
    rintro k p q brk cnt cs d ⟨m, v, r, e, l, e', n', cs1, d1, cs2, d2, _, _, h1, g1, h2, g2, rfl, rfl, hj⟩ hk
    exact same_join (ih1 h1 (hk.pre (reach1_goto g1).reach)) (ih2 h2 (hk.pre (reach1_goto g2).reach)) hj
  | «while» c s ih =>
    rintro k p q brk cnt cs d ⟨m, v, top, body, e, n', h1, h2, h3, h4, h5, rfl⟩ hk
    exact ih h4 (match_while h2 h3 h4 h5 hk)
  | doWhile s c ih =>
    rintro k p q brk cnt cs d ⟨m, v, top, cond, e, n', h1, h4, h5, h2, h3, rfl⟩ hk
    exact ih h4 (match_do h2 h3 h4 h5 hk)
  | «for» i c x s ih =>
    rintro k p q brk cnt cs d ⟨p', top, body, incr, e, n', h1, h2, h3, h4, h5, h6, rfl⟩ hk
    exact ih h5 ⟨incr, n', rfl, rfl, reach1_goto h6, ⟨top, body, e, cs, d, h3, h4, h5, h6⟩, brk, cnt, hk⟩
  | label l s ih =>
    rintro k p q brk cnt cs d ⟨t, _, _, h⟩ hk
    exact ih h hk
  | case m s ih =>
    rintro k p q brk cnt cs d ⟨t, cs', _, h, rfl⟩ hk
    exact ih h hk
  | default s ih =>
    rintro k p q brk cnt cs d ⟨t, _, h, rfl⟩ hk
    exact ⟨q, brk, cnt, cs, none, h, hk⟩

theorem or_cases {α : Type} {a b : Option α} {x : α} (h : a.or b = some x) : a = some x ∨ b = some x := by
  cases a with
  | none => exact Or.inr h
  | some y => exact Or.inl h

theorem find_label (l : Nat) (s : Stmt σ) : ∀ {k : Cont σ} {p q : Pos} {brk cnt : Option Nat} {cs : List (Int × Nat)} {d : Option Nat}
    {r : Stmt σ × Cont σ}, TrS G L P s brk cnt cs d p q → MatchK G L P k q brk cnt → findLabel l s k = some r →
    ∃ t, L l = some t ∧ Here G L P r t := by
  induction s with
  | skip => intro k p q brk cnt cs d r _ _ h; cases h
  | expr => intro k p q brk cnt cs d r _ _ h; cases h
  | brk => intro k p q brk cnt cs d r _ _ h; cases h
  | cont => intro k p q brk cnt cs d r _ _ h; cases h
  | ret e => intro k p q brk cnt cs d r _ _ h; cases h
  | goto => intro k p q brk cnt cs d r _ _ h; cases h
  | switch e s ih =>
    rintro k p q brk cnt cs d r ⟨m, v, t0, body, last, n, cs', d', h1, h2, h3, h4, h5, rfl, _, _⟩ hk h
    exact ih (k := .switchK k) h4 ⟨n, rfl, (reach1_goto h5).reach, brk, hk⟩ h
  | seq s t ih1 ih2 =>
    rintro k p q brk cnt cs d r ⟨m, cs1, d1, cs2, d2, h1, h2, rfl, hj⟩ hk h
    rcases or_cases h with h | h
    · exact ih1 (k := .seq t k) h1 ⟨m, q, cs2, d2, Reach.refl _, h2, hk⟩ h
    · exact ih2 h2 hk h
  | ite c s ih =>
    rintro k p q brk cnt cs d r' ⟨m, v, r, e, n', _, _, h1, h2, rfl⟩ hk h
    exact ih h1 (hk.pre (reach1_goto h2).reach) h
  | ifElse c s t ih1 ih2 =>
    rintro k p q brk cnt cs d r' ⟨m, v, r, e, l, e', n', cs1, d1, cs2, d2, _, _, h1, g1, h2, g2, rfl, rfl, hj⟩ hk h
    rcases or_cases h with h | h
    · exact ih1 h1 (hk.pre (reach1_goto g1).reach) h
    · exact ih2 h2 (hk.pre (reach1_goto g2).reach) h
  | «while» c s ih =>
    rintro k p q brk cnt cs d r ⟨m, v, top, body, e, n', h1, h2, h3, h4, h5, rfl⟩ hk h
    exact ih h4 (match_while h2 h3 h4 h5 hk) h
  | doWhile s c ih =>
    rintro k p q brk cnt cs d r ⟨m, v, top, cond, e, n', h1, h4, h5, h2, h3, rfl⟩ hk h
    exact ih h4 (match_do h2 h3 h4 h5 hk) h
  | «for» i c x s ih =>
    rintro k p q brk cnt cs d r ⟨p', top, body, incr, e, n', h1, h2, h3, h4, h5, h6, rfl⟩ hk h
    exact ih (k := .forK c x s k) h5 ⟨incr, n', rfl, rfl, reach1_goto h6, ⟨top, body, e, cs, d, h3, h4, h5, h6⟩, brk, cnt, hk⟩ h
  | label m s ih =>
    rintro k p q brk cnt cs d r ⟨t, h1, _, h2⟩ hk h
    by_cases hm : m = l
    · subst hm
      rw [findLabel, if_pos rfl] at h
      cases h
      exact ⟨t, h1, q, brk, cnt, cs, d, h2, hk⟩
    · rw [findLabel, if_neg hm] at h
      exact ih h2 hk h
  | case m s ih =>
    rintro k p q brk cnt cs d r ⟨t, cs', _, h1, rfl⟩ hk h
    exact ih h1 hk h
  | default s ih =>
    rintro k p q brk cnt cs d r ⟨t, _, h1, rfl⟩ hk h
    exact ih h1 hk h

theorem chain_run {v : V σ} {d : Nat} {m : Mem σ} (hv : v.ok m) : ∀ {cs : List (Int × Nat)} {t : Nat}, TrChain G v t cs d →
    ∃ j, XRun G j (at_ (t, 0) m) (at_ ((firstCase (v.get m) cs).getD d, 0) m)
  | [], t, h => by
    have h : t = d := h
    subst h; exact ⟨0, rfl⟩
  | (n, c) :: r, t, h => by
    obtain ⟨t', g, h⟩ := h
    obtain ⟨j, hj⟩ := chain_run hv h
    have hb : Br G (t, 0) (.eqc n v) t' c := by
      unfold Br; simp [g]
    have hs := step_br hb m hv
    by_cases hn : v.get m = n
    · rw [if_pos (by simp [V.get, truth, hn])] at hs
      refine ⟨1, _, hs, ?_⟩
      simp [firstCase, hn, XRun]
    · rw [if_neg (by simp [V.get, truth, hn])] at hs
      refine ⟨j + 1, _, hs, ?_⟩
      have : firstCase (v.get m) ((n, c) :: r) = firstCase (v.get m) r := by
        simp [firstCase, show ¬ n = v.get m from fun h => hn h.symm]
      rw [this]; exact hj

/-- States of the abstract machine and of the graph that belong together. -/
def MS (G : Nat → Block σ) (L : Nat → Option Nat) (P : Nat → Prop) : SState σ (St σ) → CState σ → Prop
  | .exec s k u, c => ∃ p q brk cnt cs d m, c = at_ p m ∧ m.user = u ∧ TrS G L P s brk cnt cs d p q ∧ MatchK G L P k q brk cnt
  | .next k u, c => ∃ q brk cnt m, c = at_ q m ∧ m.user = u ∧ MatchK G L P k q brk cnt
  | .again k u, c => ∃ t m, c = at_ (t, 0) m ∧ m.user = u ∧ MatchAgain G L P k t
  | .test c x s k u, cc => ∃ top t n m, cc = at_ (top, 0) m ∧ m.user = u ∧ ForAt G L P c x s top t n ∧ ∃ b' c', MatchK G L P k (n, 0) b' c'
  | .done u r, c => cstep G c = none ∧ c.mem.user = u ∧ returned G c = r ∧ ((G c.blk).ret = true → (G c.blk).expr.ok c.mem)

def weight : Stmt σ → Nat
  | .seq s t => weight s + weight t + 2
  | _ => 1

def kweight : Cont σ → Nat
  | .seq t k => weight t + 1 + kweight k
  | .switchK k => 1 + kweight k
  | _ => 1

/-- Decreases when the graph makes no step. -/
def measure : SState σ (St σ) → Nat
  | .exec s k _ => weight s + kweight k
  | .next k _ => kweight k
  | .again (.forK _ _ s _) _ => weight s + 3
  | .again _ _ => 0
  | .test _ _ s _ _ => weight s + 2
  | .done _ _ => 0

theorem weight_pos (s : Stmt σ) : 0 < weight s := by cases s <;> simp [weight]
theorem kweight_pos (k : Cont σ) : 0 < kweight k := by cases k <;> simp [kweight] <;> omega

theorem end_step {q : Pos} {m : Mem σ} (h1 : (G q.1).acts.length = q.2) (h2 : (G q.1).j0 = none) (h3 : (G q.1).j1 = none) :
    cstep G (at_ q m) = none := by
  have : (G q.1).acts[q.2]? = none := by rw [List.getElem?_eq_none_iff]; omega
  simp [cstep, at_, this, h2, h3]

/-- One step. -/
theorem sim_step {body : Stmt σ} {cs0 : List (Int × Nat)} {d0 : Option Nat} {q0 : Pos}
    (hb : TrS G L (fun l => (findLabel l body .stop).isSome = true) body none none cs0 d0 (0, 0) q0)
    (hk0 : MatchK G L (fun l => (findLabel l body .stop).isSome = true) .stop q0 none none) {s : SState σ (St σ)} {c : CState σ}
    (h : MS G L (fun l => (findLabel l body .stop).isSome = true) s c) :
    (∃ u r, s = .done u r) ∨ ∃ s' j c', sstep body s = some s' ∧ XRun G j c c' ∧
      MS G L (fun l => (findLabel l body .stop).isSome = true) s' c' ∧ (0 < j ∨ measure s' < measure s) := by
  cases s with
  | done u r => exact Or.inl ⟨u, r, rfl⟩
  | next k u =>
    right
    obtain ⟨q, brk, cnt, m, rfl, rfl, hk⟩ := h
    cases k with
    | stop =>
      obtain ⟨_, _, q', hr, h1, h2⟩ := hk
      obtain ⟨j, hj⟩ := hr m
      exact ⟨_, j, _, rfl, hj, ⟨end_step h1 h2.1 h2.2.1, rfl, by simp [returned, at_, h2.2.2], by simp [at_, h2.2.2]⟩, Or.inr (by simp [measure, kweight])⟩
    | seq t k =>
      obtain ⟨q', e, cs, d, hr, ht, hk⟩ := hk
      obtain ⟨j, hj⟩ := hr m
      exact ⟨_, j, _, rfl, hj, ⟨q', e, brk, cnt, cs, d, m, rfl, rfl, ht, hk⟩, Or.inr (by simp [measure, kweight])⟩
    | whileK c s k =>
      obtain ⟨t, n, _, _, hr, h4, h5⟩ := hk
      obtain ⟨j, hj⟩ := hr m
      exact ⟨_, j + 1, _, rfl, hj, ⟨t, m, rfl, rfl, n, h4, h5⟩, Or.inl (by omega)⟩
    | doK s c k =>
      obtain ⟨t, n, _, _, hr, h4, h5⟩ := hk
      obtain ⟨j, hj⟩ := hr m
      exact ⟨_, j + 1, _, rfl, hj, ⟨t, m, rfl, rfl, n, h4, h5⟩, Or.inl (by omega)⟩
    | forK c x s k =>
      obtain ⟨t, n, _, _, hr, h4, h5⟩ := hk
      obtain ⟨j, hj⟩ := hr m
      exact ⟨_, j + 1, _, rfl, hj, ⟨t, m, rfl, rfl, n, h4, h5⟩, Or.inl (by omega)⟩
    | switchK k =>
      obtain ⟨n, _, hr, b', h5⟩ := hk
      obtain ⟨j, hj⟩ := hr m
      exact ⟨_, j, _, rfl, hj, ⟨_, b', cnt, m, rfl, rfl, h5⟩, Or.inr (by simp [measure, kweight])⟩
  | again k u =>
    right
    obtain ⟨t, m, rfl, rfl, h⟩ := h
    cases k with
    | stop => exact h.elim
    | seq => exact h.elim
    | switchK => exact h.elim
    | whileK c s k =>
      obtain ⟨n, ⟨m1, v, bd, e, cs, d, h1, h2, h3, h4⟩, b', c', hk⟩ := h
      obtain ⟨m', ⟨j, hj⟩, hu, hv, hw⟩ := h1 m
      have hs := step_test h2 m' hw
      refine ⟨_, j + 1, _, rfl, crun_trans hj (crun_one hs), ?_, Or.inl (by omega)⟩
      rw [hv]
      beta_reduce
      split
      · exact ⟨_, e, _, _, cs, d, m', rfl, hu, h3, match_while h1 h2 h3 h4 hk⟩
      · exact ⟨_, b', c', m', rfl, hu, hk⟩
    | doK s c k =>
      obtain ⟨n, ⟨m1, v, bd, e, cs, d, h1, h2, h3, h4⟩, b', c', hk⟩ := h
      obtain ⟨m', ⟨j, hj⟩, hu, hv, hw⟩ := h1 m
      have hs := step_test h2 m' hw
      refine ⟨_, j + 1, _, rfl, crun_trans hj (crun_one hs), ?_, Or.inl (by omega)⟩
      rw [hv]
      beta_reduce
      split
      · exact ⟨_, e, _, _, cs, d, m', rfl, hu, h3, match_do h1 h2 h3 h4 hk⟩
      · exact ⟨_, b', c', m', rfl, hu, hk⟩
    | forK c x s k =>
      obtain ⟨n, ⟨top, bd, e, cs, d, h1, h2, h3, h4⟩, b', c', hk⟩ := h
      cases x with
      | none =>
        have h2' : t = top := h2
        subst h2'
        exact ⟨_, 0, _, rfl, rfl, ⟨t, t, n, m, rfl, rfl, ⟨bd, e, cs, d, h1, h2, h3, h4⟩, b', c', hk⟩, Or.inr (by simp [measure])⟩
      | some a =>
        obtain ⟨m1, v, h5, h6⟩ := h2
        obtain ⟨m', ⟨j, hj⟩, hu, hv, hw⟩ := h5 m
        exact ⟨_, j + 1, _, rfl, crun_trans hj (crun_one (step_goto h6 m')),
          ⟨top, t, n, m', rfl, hu, ⟨bd, e, cs, d, h1, ⟨m1, v, h5, h6⟩, h3, h4⟩, b', c', hk⟩, Or.inl (by omega)⟩
  | test c x s k u =>
    right
    obtain ⟨top, t, n, m, rfl, rfl, ⟨bd, e, cs, d, h1, h2, h3, h4⟩, b', c', hk⟩ := h
    have hm : MatchK G L (fun l => (findLabel l body .stop).isSome = true) (.forK c x s k) e (some n) (some t) :=
      ⟨t, n, rfl, rfl, reach1_goto h4, ⟨top, bd, e, cs, d, h1, h2, h3, h4⟩, b', c', hk⟩
    cases c with
    | none =>
      have h1' : top = bd := h1
      subst h1'
      exact ⟨_, 0, _, rfl, rfl, ⟨_, e, _, _, cs, d, m, rfl, rfl, h3, hm⟩, Or.inr (by simp [measure, kweight])⟩
    | some a =>
      obtain ⟨m1, v, h5, h6⟩ := h1
      obtain ⟨m', ⟨j, hj⟩, hu, hv, hw⟩ := h5 m
      refine ⟨_, j + 1, _, rfl, crun_trans hj (crun_one (step_test h6 m' hw)), ?_, Or.inl (by omega)⟩
      rw [hv]
      beta_reduce
      split
      · exact ⟨_, e, _, _, cs, d, m', rfl, hu, h3, hm⟩
      · exact ⟨_, b', c', m', rfl, hu, hk⟩
  | exec s k u =>
    right
    obtain ⟨p, q, brk, cnt, cs, d, m, rfl, rfl, ht, hk⟩ := h
    cases s with
    | skip =>
      obtain ⟨rfl, _⟩ := ht
      exact ⟨_, 0, _, rfl, rfl, ⟨q, brk, cnt, m, rfl, rfl, hk⟩, Or.inr (by simp [measure, weight])⟩
    | expr e =>
      obtain ⟨⟨v, h1⟩, _⟩ := ht
      obtain ⟨m', ⟨j, hj⟩, hu, hv, hw⟩ := h1 m
      exact ⟨_, j, _, rfl, hj, ⟨q, brk, cnt, m', rfl, hu, hk⟩, Or.inr (by simp [measure, weight])⟩
    | seq s t =>
      obtain ⟨e, cs1, d1, cs2, d2, h1, h2, _, _⟩ := ht
      exact ⟨_, 0, _, rfl, rfl, ⟨p, e, brk, cnt, cs1, d1, m, rfl, rfl, h1, e, q, cs2, d2, Reach.refl _, h2, hk⟩,
        Or.inr (by simp [measure, weight, kweight]; omega)⟩
    | ite c s =>
      obtain ⟨m1, v, r, e, n, h1, h2, h3, h4, rfl⟩ := ht
      obtain ⟨m', ⟨j, hj⟩, hu, hv, hw⟩ := h1 m
      refine ⟨_, j + 1, _, rfl, crun_trans hj (crun_one (step_test h2 m' hw)), ?_, Or.inl (by omega)⟩
      rw [hv]
      beta_reduce
      split
      · exact ⟨_, e, _, _, cs, d, m', rfl, hu, h3, hk.pre (reach1_goto h4).reach⟩
      · exact ⟨_, brk, cnt, m', rfl, hu, hk⟩
    | ifElse c s t =>
      obtain ⟨m1, v, r, e, l, e', n, cs1, d1, cs2, d2, h1, h2, h3, h4, h5, h6, rfl, _, _⟩ := ht
      obtain ⟨m', ⟨j, hj⟩, hu, hv, hw⟩ := h1 m
      refine ⟨_, j + 1, _, rfl, crun_trans hj (crun_one (step_test h2 m' hw)), ?_, Or.inl (by omega)⟩
      rw [hv]
      beta_reduce
      split
      · exact ⟨_, e, _, _, cs1, d1, m', rfl, hu, h3, hk.pre (reach1_goto h4).reach⟩
      · exact ⟨_, e', _, _, cs2, d2, m', rfl, hu, h5, hk.pre (reach1_goto h6).reach⟩
    | «while» c s =>
      obtain ⟨m1, v, top, bd, e, n, h1, h2, h3, h4, h5, rfl⟩ := ht
      obtain ⟨m', ⟨j, hj⟩, hu, hv, hw⟩ := h2 m
      refine ⟨_, 1 + (j + 1), _, rfl, crun_trans (crun_one (step_goto h1 m)) (crun_trans hj (crun_one (step_test h3 m' hw))), ?_, Or.inl (by omega)⟩
      rw [hv]
      beta_reduce
      split
      · exact ⟨_, e, _, _, cs, d, m', rfl, hu, h4, match_while h2 h3 h4 h5 hk⟩
      · exact ⟨_, brk, cnt, m', rfl, hu, hk⟩
    | doWhile s c =>
      obtain ⟨m1, v, top, t, e, n, h1, h4, h5, h2, h3, rfl⟩ := ht
      exact ⟨_, 1, _, rfl, crun_one (step_goto h1 m), ⟨_, e, _, _, cs, d, m, rfl, rfl, h4, match_do h2 h3 h4 h5 hk⟩, Or.inl (by omega)⟩
    | «for» i c x s =>
      obtain ⟨p', top, bd, incr, e, n, h1, h2, h3, h4, h5, h6, rfl⟩ := ht
      cases i with
      | none =>
        have h1' : p' = p := h1
        subst h1'
        exact ⟨_, 1, _, rfl, crun_one (step_goto h2 m), ⟨top, incr, n, m, rfl, rfl, ⟨bd, e, cs, d, h3, h4, h5, h6⟩, brk, cnt, hk⟩, Or.inl (by omega)⟩
      | some a =>
        obtain ⟨v, h1⟩ := h1
        obtain ⟨m', ⟨j, hj⟩, hu, hv, hw⟩ := h1 m
        exact ⟨_, j + 1, _, rfl, crun_trans hj (crun_one (step_goto h2 m')), ⟨top, incr, n, m', rfl, hu, ⟨bd, e, cs, d, h3, h4, h5, h6⟩, brk, cnt, hk⟩,
          Or.inl (by omega)⟩
    | brk =>
      obtain ⟨⟨t, rfl, h1⟩, _⟩ := ht
      obtain ⟨k', b', c', e1, e2⟩ := match_break k hk
      exact ⟨.next k' m.user, 1, _, by simp only [sstep, sstepWith, e1, Option.map_some], crun_one (step_goto h1 m), ⟨_, b', c', m, rfl, rfl, e2⟩, Or.inl (by omega)⟩
    | cont =>
      obtain ⟨⟨t, rfl, h1⟩, _⟩ := ht
      obtain ⟨k', e1, e2⟩ := match_continue k hk
      exact ⟨.again k' m.user, 1, _, by simp only [sstep, sstepWith, e1, Option.map_some], crun_one (step_goto h1 m), ⟨t, m, rfl, rfl, e2⟩, Or.inl (by omega)⟩
    | ret e =>
      cases e with
      | none =>
        obtain ⟨⟨h1, h2⟩, _⟩ := ht
        exact ⟨_, 0, _, rfl, rfl, ⟨end_step h1 h2.1 h2.2.1, rfl, by simp [returned, at_, h2.2.2], by simp [at_, h2.2.2]⟩, Or.inr (by simp [measure, weight])⟩
      | some e =>
        obtain ⟨⟨m1, v, h1, h2, h3, h4, h5, h6⟩, _⟩ := ht
        obtain ⟨m', ⟨j, hj⟩, hu, hv, hw⟩ := h1 m
        exact ⟨_, j, _, rfl, hj, ⟨end_step h2 h3 h4, hu, by simp [returned, at_, h5, h6, hv], by simp only [at_, h6]; exact fun _ => hw⟩, Or.inr (by simp [measure, weight])⟩
    | goto l =>
      obtain ⟨⟨t, h1, h2, h3⟩, _⟩ := ht
      obtain ⟨r, hr⟩ := Option.isSome_iff_exists.1 h2
      obtain ⟨t', h4, q', brk', cnt', cs', d', h5, h6⟩ := find_label l body hb hk0 hr
      rw [h1] at h4; cases h4
      exact ⟨.exec r.1 r.2 m.user, 1, _, by simp only [sstep, sstepWith, hr, Option.map_some], crun_one (step_goto h3 m), ⟨_, q', brk', cnt', cs', d', m, rfl, rfl, h5, h6⟩,
        Or.inl (by omega)⟩
    | label l s =>
      obtain ⟨t, _, h1, h2⟩ := ht
      exact ⟨_, 1, _, rfl, crun_one (step_goto h1 m), ⟨_, q, brk, cnt, cs, d, m, rfl, rfl, h2, hk⟩, Or.inl (by omega)⟩
    | case n s =>
      obtain ⟨t, cs', h1, h2, _⟩ := ht
      exact ⟨_, 1, _, rfl, crun_one (step_goto h1 m), ⟨_, q, brk, cnt, cs', d, m, rfl, rfl, h2, hk⟩, Or.inl (by omega)⟩
    | default s =>
      obtain ⟨t, h1, h2, _⟩ := ht
      exact ⟨_, 1, _, rfl, crun_one (step_goto h1 m), ⟨_, q, brk, cnt, cs, none, m, rfl, rfl, h2, hk⟩, Or.inl (by omega)⟩
    | switch e s =>
      obtain ⟨m1, v, t0, bd, last, n, cs', d', h1, h2, h3, h4, h5, rfl, _, _⟩ := ht
      obtain ⟨m', ⟨j, hj⟩, hu, hv, hw⟩ := h1 m
      obtain ⟨i, hi⟩ := chain_run hw h3
      rw [hv] at hi
      have hm : MatchK G L (fun l => (findLabel l body .stop).isSome = true) (.switchK k) last (some n) cnt :=
        ⟨n, rfl, (reach1_goto h5).reach, brk, hk⟩
      have f1 := find_case (e.eval m.user).2 s h4 hm
      have f2 := find_default s h4 hm
      refine ⟨_, j + (1 + i), _, rfl, crun_trans hj (crun_trans (crun_one (step_goto h2 m')) hi), ?_, Or.inl (by omega)⟩
      beta_reduce
      unfold switchTo
      cases hc : findCase (e.eval m.user).2 s (.switchK k) with
      | some r =>
        rw [hc] at f1
        cases ht : firstCase (e.eval m.user).2 cs' with
        | none => rw [ht] at f1; exact f1.elim
        | some t =>
          rw [ht] at f1
          obtain ⟨q', brk', cnt', cs'', d'', g1, g2⟩ := f1
          exact ⟨_, q', brk', cnt', cs'', d'', m', rfl, hu, g1, g2⟩
      | none =>
        rw [hc] at f1
        cases ht : firstCase (e.eval m.user).2 cs' with
        | some t => rw [ht] at f1; exact f1.elim
        | none =>
          cases hd : findDefault s (.switchK k) with
          | some r =>
            rw [hd] at f2
            cases d' with
            | none => exact f2.elim
            | some t =>
              obtain ⟨q', brk', cnt', cs'', d'', g1, g2⟩ := f2
              exact ⟨_, q', brk', cnt', cs'', d'', m', rfl, hu, g1, g2⟩
          | none =>
            rw [hd] at f2
            cases d' with
            | some t => exact f2.elim
            | none => exact ⟨_, brk, cnt, m', rfl, hu, hk⟩

theorem crun_split {G : Nat → Block σ} : ∀ {j N : Nat} {s c t : CState σ}, CRun G j s c → CRun G N s t → cstep G t = none →
    ∃ N', N = j + N' ∧ CRun G N' c t
  | 0, N, s, c, t, h1, h2, _ => ⟨N, by omega, by rw [← show s = c from h1]; exact h2⟩
  | j + 1, 0, s, c, t, ⟨x, hx, _⟩, h2, h3 => by
    rw [← show s = t from h2, hx] at h3; cases h3
  | j + 1, N + 1, s, c, t, ⟨x, hx, h1⟩, ⟨y, hy, h2⟩, h3 => by
    rw [hx] at hy; cases hy
    obtain ⟨N', e, h⟩ := crun_split h1 h2 h3
    exact ⟨N', by omega, h⟩

theorem ms_user {s : SState σ (St σ)} {c : CState σ} (h : MS G L P s c) : c.mem.user = s.user := by
  cases s with
  | exec => obtain ⟨p, q, brk, cnt, cs, d, m, rfl, rfl, _⟩ := h; rfl
  | next => obtain ⟨q, brk, cnt, m, rfl, rfl, _⟩ := h; rfl
  | again => obtain ⟨t, m, rfl, rfl, _⟩ := h; rfl
  | test => obtain ⟨top, t, n, m, rfl, rfl, _⟩ := h; rfl
  | done => exact h.2.1

theorem wf_of_tr (s : Stmt σ) : ∀ {brk cnt : Option Nat} {cs : List (Int × Nat)} {d : Option Nat} {p q : Pos},
    TrS G L P s brk cnt cs d p q → s.wf (fun l => (L l).isSome = true) brk.isSome cnt.isSome := by
  induction s with
  | skip => intros; trivial
  | expr => intros; trivial
  | ret => intros; trivial
  | brk => rintro brk cnt cs d p q ⟨⟨t, rfl, _⟩, _⟩; rfl
  | cont => rintro brk cnt cs d p q ⟨⟨t, rfl, _⟩, _⟩; rfl
  | goto l =>
    rintro brk cnt cs d p q ⟨⟨t, h, _⟩, _⟩
    show (L l).isSome = true
    rw [h]; rfl
  | seq s t ih1 ih2 => rintro brk cnt cs d p q ⟨m, cs1, d1, cs2, d2, h1, h2, _⟩; exact ⟨ih1 h1, ih2 h2⟩
  | ite c s ih => rintro brk cnt cs d p q ⟨m, v, r, e, n', _, _, h1, _⟩; exact ih h1
  | ifElse c s t ih1 ih2 =>
    rintro brk cnt cs d p q ⟨m, v, r, e, l, e', n', cs1, d1, cs2, d2, _, _, h1, g1, h2, _⟩
    exact ⟨ih1 h1, ih2 h2⟩
  | «while» c s ih => rintro brk cnt cs d p q ⟨m, v, top, body, e, n', h1, h2, h3, h4, _⟩; exact ih h4
  | doWhile s c ih => rintro brk cnt cs d p q ⟨m, v, top, cond, e, n', h1, h4, _⟩; exact ih h4
  | «for» i c x s ih => rintro brk cnt cs d p q ⟨p', top, body, incr, e, n', h1, h2, h3, h4, h5, _⟩; exact ih h5
  | label m s ih => rintro brk cnt cs d p q ⟨t, h1, _, h2⟩; exact ih h2
  | switch e s ih => rintro brk cnt cs d p q ⟨m, v, t0, body, last, n, cs', d', h1, h2, h3, h4, _⟩; exact ih h4
  | case m s ih => rintro brk cnt cs d p q ⟨t, cs', _, h1, _⟩; exact ih h1
  | default s ih => rintro brk cnt cs d p q ⟨t, _, h1, _⟩; exact ih h1

theorem wf_mono {P Q : Nat → Prop} (hPQ : ∀ l, P l → Q l) (s : Stmt σ) : ∀ {x y x' y' : Bool}, (x = true → x' = true) → (y = true → y' = true) →
    s.wf P x y → s.wf Q x' y' := by
  induction s with
  | skip => intros; trivial
  | expr => intros; trivial
  | ret => intros; trivial
  | brk => intro x y x' y' hx hy h; exact hx h
  | cont => intro x y x' y' hx hy h; exact hy h
  | goto l => intro x y x' y' hx hy h; exact hPQ l h
  | seq s t ih1 ih2 => intro x y x' y' hx hy h; exact ⟨ih1 hx hy h.1, ih2 hx hy h.2⟩
  | ite c s ih => intro x y x' y' hx hy h; exact ih hx hy h
  | ifElse c s t ih1 ih2 => intro x y x' y' hx hy h; exact ⟨ih1 hx hy h.1, ih2 hx hy h.2⟩
  | «while» c s ih => intro x y x' y' hx hy h; exact ih id id h
  | doWhile s c ih => intro x y x' y' hx hy h; exact ih id id h
  | «for» i c x s ih => intro x y x' y' hx hy h; exact ih id id h
  | label m s ih => intro x y x' y' hx hy h; exact ih hx hy h
  | switch e s ih => intro x y x' y' hx hy h; exact ih id hy h
  | case m s ih => intro x y x' y' hx hy h; exact ih hx hy h
  | default s ih => intro x y x' y' hx hy h; exact ih hx hy h

theorem eval_rest (b : B σ) (p : Nat) (v : V σ) : (b.eval p v).1.rest = b.rest := by
  unfold B.eval; split <;> rfl

theorem decided_rest (b : B σ) (l t r : Nat) (n : Int) : (b.decided l t r n).1.rest = b.rest := by
  unfold B.decided; split <;> rfl

theorem expr_rest (e : Expr σ) : ∀ (b : B σ) (p : Nat), (b.expr p e).1.rest = b.rest := by
  induction e with
  | imm n => intros; rfl
  | prim => intros; rfl
  | app c a e ih => intro b p; exact ih b p
  | not e ih => intro b p; exact ih b p
  | comma x y ih1 ih2 => intro b p; exact (ih2 _ _).trans (ih1 _ _)
  | and x y ih1 ih2 =>
    intro b p
    have h : ((b.expr p x).1.new.expr (b.expr p x).1.n y).1.rest = b.rest := (ih2 _ _).trans (ih1 b p)
    simp only [B.expr]
    split
    · exact h
    · exact (decided_rest _ _ _ _ _).trans h
    · exact h
  | or x y ih1 ih2 =>
    intro b p
    have h : ((b.expr p x).1.new.expr (b.expr p x).1.n y).1.rest = b.rest := (ih2 _ _).trans (ih1 b p)
    simp only [B.expr]
    split
    · exact (decided_rest _ _ _ _ _).trans h
    · exact h
    · exact h
  | cond c x y ih1 ih2 ih3 =>
    intro b p
    simp only [B.expr]
    split
    · exact (eval_rest _ _ _).trans ((ih2 _ _).trans (ih1 b p))
    · exact (eval_rest _ _ _).trans ((ih3 _ _).trans (ih1 b p))
    · exact (eval_rest _ _ _).trans ((ih3 _ _).trans ((eval_rest _ _ _).trans ((ih2 _ _).trans (ih1 b p))))

theorem expr_defined (e : Expr σ) (b : B σ) (p : Nat) : (b.expr p e).1.defined = b.defined := (rest_eq (expr_rest e b p)).2.1
theorem test_defined (b : B σ) (p : Nat) (v : V σ) (t f : Nat) : (b.test p v t f).defined = b.defined := (rest_eq (test_rest b p v t f)).2.1
theorem eval_defined (b : B σ) (p : Nat) (v : V σ) : (b.eval p v).1.defined = b.defined := (rest_eq (eval_rest b p v)).2.1

theorem chain_defined (v : V σ) : ∀ (cs : List (Int × Nat)) (b : B σ) (m : Nat), (b.chain m v cs).1.defined = b.defined
  | [], _, _ => rfl
  | (n, c) :: r, b, m => chain_defined v r _ _

theorem labelBlock_defined (b : B σ) (l : Nat) : (b.labelBlock l).1.defined = b.defined := by
  unfold B.labelBlock; split <;> rfl

theorem or_left {α : Type} {a b : Option α} (h : a.isSome = true) : (a.or b).isSome = true := by cases a <;> simp_all
theorem or_right {α : Type} {a b : Option α} (h : b.isSome = true) : (a.or b).isSome = true := by cases a <;> simp_all

/-- Only labels of the statement are defined. -/
theorem defined_ok (l : Nat) (s : Stmt σ) : ∀ {brk cnt : Option Nat} {b : B σ} {p : Nat} {b' : B σ} {q : Nat}, b.stmt brk cnt p s = some (b', q) →
    l ∈ b'.defined → l ∈ b.defined ∨ ∀ k, (findLabel l s k).isSome = true := by
  induction s with
  | skip => intro brk cnt b p b' q h hl; cases h; exact Or.inl hl
  | expr e => intro brk cnt b p b' q h hl; cases h; rw [expr_defined] at hl; exact Or.inl hl
  | brk => intro brk cnt b p b' q h hl; cases h; exact Or.inl hl
  | cont => intro brk cnt b p b' q h hl; cases h; exact Or.inl hl
  | ret e =>
    intro brk cnt b p b' q h hl
    cases e with
    | none => cases h; exact Or.inl hl
    | some e => cases h; exact Or.inl (by rw [← expr_defined e b p]; exact hl)
  | goto l' => intro brk cnt b p b' q h hl; cases h; exact Or.inl (by rw [← labelBlock_defined b l']; exact hl)
  | seq s t ih1 ih2 =>
    intro brk cnt b p b' q h hl
    simp only [B.stmt] at h
    split at h
    · rename_i r hr
      rcases ih2 h hl with h2 | h2
      · rcases ih1 (b' := r.1) (q := r.2) hr h2 with h1 | h1
        · exact Or.inl h1
        · exact Or.inr fun k => or_left (h1 _)
      · exact Or.inr fun k => or_right (h2 _)
    · cases h
  | ite c s ih =>
    intro brk cnt b p b' q h hl
    simp only [B.stmt] at h
    split at h
    · rename_i r hr
      cases h
      rcases ih (b' := r.1) (q := r.2) hr hl with h1 | h1
      · rw [test_defined, expr_defined] at h1; exact Or.inl h1
      · exact Or.inr fun k => h1 k
    · cases h
  | ifElse c s t ih1 ih2 =>
    intro brk cnt b p b' q h hl
    simp only [B.stmt] at h
    split at h
    · cases h
    · rename_i r hr
      split at h
      · rename_i r' hr'
        cases h
        rcases ih2 (b' := r'.1) (q := r'.2) hr' hl with h1 | h1
        · have h1' : l ∈ r.1.defined := by split at h1 <;> exact h1
          rcases ih1 (b' := r.1) (q := r.2) hr h1' with h2 | h2
          · rw [test_defined, expr_defined] at h2; exact Or.inl h2
          · exact Or.inr fun k => or_left (h2 k)
        · exact Or.inr fun k => or_right (h1 k)
      · cases h
  | «while» c s ih =>
    intro brk cnt b p b' q h hl
    simp only [B.stmt] at h
    split at h
    · rename_i r hr
      cases h
      rcases ih (b' := r.1) (q := r.2) hr hl with h1 | h1
      · rw [test_defined, expr_defined] at h1; exact Or.inl h1
      · exact Or.inr fun k => h1 _
    · cases h
  | doWhile s c ih =>
    intro brk cnt b p b' q h hl
    simp only [B.stmt] at h
    split at h
    · rename_i r hr
      cases h
      rw [test_defined, expr_defined] at hl
      rcases ih (b' := r.1) (q := r.2) hr hl with h1 | h1
      · exact Or.inl h1
      · exact Or.inr fun k => h1 _
    · cases h
  | «for» i c x s ih =>
    intro brk cnt b p b' q h hl
    rw [for_stmt] at h
    split at h
    · rename_i r hr
      cases h
      rcases ih (b' := r.1) (q := r.2) hr hl with h1 | h1
      · have e1 : ∀ (b : B σ) (p t : Nat) (n : Option (Expr σ)), (forIncr b p t n).1.defined = b.defined := by
          intro b p t n; cases n
          · rfl
          · exact expr_defined _ _ _
        have e2 : ∀ (b : B σ) (p a c d : Nat) (n : Option (Expr σ)), (forTest b p a c d n).1.defined = b.defined := by
          intro b p a c d n; cases n
          · rfl
          · exact (test_defined _ _ _ _ _).trans (expr_defined _ _ _)
        have e3 : ∀ (b : B σ) (p : Nat) (n : Option (Expr σ)), (forInit b p n).1.defined = b.defined := by
          intro b p n; cases n
          · rfl
          · exact expr_defined _ _ _
        rw [e1, e2, e3] at h1; exact Or.inl h1
      · exact Or.inr fun k => h1 _
    · cases h
  | label l' s ih =>
    intro brk cnt b p b' q h hl
    simp only [B.stmt] at h
    split at h
    · cases h
    · rcases ih h hl with h1 | h1
      · have h1' : l ∈ l' :: (b.labelBlock l').1.defined := h1
        rw [labelBlock_defined] at h1'
        rcases List.mem_cons.1 h1' with rfl | h2
        · exact Or.inr fun k => by simp [findLabel]
        · exact Or.inl h2
      · refine Or.inr fun k => ?_
        rw [findLabel]; split
        · rfl
        · exact h1 k
  | switch e s ih =>
    intro brk cnt b p b' q h hl
    simp only [B.stmt] at h
    split at h
    · cases h
    · rename_i r hr
      cases h
      have hl' : l ∈ ((r.1.goto r.2 (b.n + 1)).chain (b.new.new.expr p e).2.1 ((b.new.new.expr p e).1.eval (b.new.new.expr p e).2.1 (b.new.new.expr p e).2.2).2 r.1.cases).1.defined := hl
      rw [chain_defined] at hl'
      rcases ih (b' := r.1) (q := r.2) hr hl' with h1 | h1
      · have h1' : l ∈ ((b.new.new.expr p e).1.eval (b.new.new.expr p e).2.1 (b.new.new.expr p e).2.2).1.defined := h1
        rw [eval_defined, expr_defined] at h1'
        exact Or.inl h1'
      · exact Or.inr fun k => h1 _
  | case n s ih =>
    intro brk cnt b p b' q h hl
    simp only [B.stmt] at h
    split at h
    · rcases ih h hl with h1 | h1
      · exact Or.inl h1
      · exact Or.inr fun k => h1 k
    · cases h
  | default s ih =>
    intro brk cnt b p b' q h hl
    simp only [B.stmt] at h
    split at h
    · split at h
      · cases h
      · rcases ih h hl with h1 | h1
        · exact Or.inl h1
        · exact Or.inr fun k => h1 k
    · cases h

/-- The compiler accepts only functions whose labels exist. -/
theorem labels_exist {body : Stmt σ} {b : B σ} (hw : WellFormed body) (h : build body = some b) :
    body.wf (fun l => (findLabel l body .stop).isSome = true) false false := by
  obtain ⟨r, hr, hall, rfl⟩ : ∃ r : B σ × Nat, ({} : B σ).new.stmt none none 0 body = some r ∧
      (r.1.labels.all fun l => r.1.defined.contains l.1) = true ∧ r.1 = b := by
    unfold build at h
    split at h
    · rename_i r hr
      split at h
      · rename_i hall
        simp only [Option.some.injEq] at h
        exact ⟨r, hr, hall, h⟩
      · cases h
    · cases h
  obtain ⟨q, cs, d, h1, _⟩ := build_tr hw hr
  refine wf_mono ?_ body id id (wf_of_tr body h1)
  intro l hl
  obtain ⟨c, hc⟩ := Option.isSome_iff_exists.1 hl
  have hm := lookup_mem hc
  have hd : l ∈ r.1.defined := by
    have := List.all_eq_true.1 hall (l, c) hm
    simpa using this
  rcases defined_ok l body (b' := r.1) (q := r.2) hr hd with h0 | h0
  · simp [B.new, B.upd] at h0
  · exact h0 _

/-- The abstract machine and the graph, from the start. -/
theorem sim_start {body : Stmt σ} {b : B σ} (hw : WellFormed body) (h : build body = some b) :
    ∃ (L : Nat → Option Nat) (cs : List (Int × Nat)) (d : Option Nat) (q : Pos),
      TrS b.blk L (fun l => (findLabel l body .stop).isSome = true) body none none cs d (0, 0) q ∧
      MatchK b.blk L (fun l => (findLabel l body .stop).isSome = true) .stop q none none := by
  obtain ⟨q, cs, d, L, h1, h2, h3⟩ := build_ok (labels_exist hw h) h
  exact ⟨L, cs, d, q, h1, rfl, rfl, q, Reach.refl _, h2, h3⟩

theorem forward {body : Stmt σ} {b : B σ} (hw : WellFormed body) (h : build body = some b) (u : St σ) (tmp : Nat → Int) :
    ∃ L, ∀ {n : Nat} {s : SState σ (St σ)}, SRun body n (.exec body .stop u) s →
      ∃ j c, XRun b.blk j ⟨0, 0, u, tmp⟩ c ∧ MS b.blk L (fun l => (findLabel l body .stop).isSome = true) s c := by
  obtain ⟨L, cs, d, q, h1, h2⟩ := sim_start hw h
  refine ⟨L, ?_⟩
  have key : ∀ n s0 s c0, SRun body n s0 s → MS b.blk L (fun l => (findLabel l body .stop).isSome = true) s0 c0 →
      ∃ j c, XRun b.blk j c0 c ∧ MS b.blk L (fun l => (findLabel l body .stop).isSome = true) s c := by
    intro n
    induction n with
    | zero => intro s0 s c0 hr hm; rw [← show s0 = s from hr]; exact ⟨0, c0, rfl, hm⟩
    | succ n ih =>
      rintro s0 s c0 ⟨x, hx, hr⟩ hm
      rcases sim_step h1 h2 hm with ⟨u, r, rfl⟩ | ⟨s', j, c', e1, e2, e3, _⟩
      · cases hx
      · rw [hx] at e1; cases e1
        obtain ⟨j', c, g1, g2⟩ := ih _ _ _ hr e3
        exact ⟨j + j', c, crun_trans e2 g1, g2⟩
  intro n s hr
  exact key n _ s ⟨0, 0, u, tmp⟩ hr ⟨(0, 0), q, none, none, cs, d, ⟨u, tmp⟩, rfl, rfl, h1, h2⟩

theorem backward {body : Stmt σ} {b : B σ} (hw : WellFormed body) (h : build body = some b) (u : St σ) (tmp : Nat → Int) {N : Nat} {t : CState σ}
    (hr : CRun b.blk N ⟨0, 0, u, tmp⟩ t) (ht : cstep b.blk t = none) : Ends body u t.mem.user (returned b.blk t) := by
  obtain ⟨L, cs, d, q, h1, h2⟩ := sim_start hw h
  have key : ∀ N μ s c, measure s = μ → CRun b.blk N c t → MS b.blk L (fun l => (findLabel l body .stop).isSome = true) s c →
      ∃ n, SRun body n s (.done t.mem.user (returned b.blk t)) := by
    intro N
    induction N using Nat.strongRecOn with
    | _ N ihN =>
      intro μ
      induction μ using Nat.strongRecOn with
      | _ μ ihμ =>
        intro s c hμ hc hm
        rcases sim_step h1 h2 hm with ⟨u, r, rfl⟩ | ⟨s', j, c', e1, e2, e3, e4⟩
        · obtain ⟨g1, g2, g3, _⟩ := hm
          cases N with
          | zero =>
            have : c = t := hc
            subst this
            exact ⟨0, by rw [g2, g3]; rfl⟩
          | succ N => obtain ⟨x, hx, _⟩ := hc; rw [g1] at hx; cases hx
        · obtain ⟨N', hN, hc'⟩ := crun_split e2.crun hc ht
          have : ∃ n, SRun body n s' (.done t.mem.user (returned b.blk t)) := by
            by_cases hj : j = 0
            · have hN' : N' = N := by omega
              subst hN'
              exact ihμ (measure s') (by omega) s' c' rfl hc' e3
            · exact ihN N' (by omega) _ s' c' rfl hc' e3
          obtain ⟨n, hn⟩ := this
          exact ⟨n + 1, s', e1, hn⟩
  exact key N _ _ _ rfl hr ⟨(0, 0), q, none, none, cs, d, ⟨u, tmp⟩, rfl, rfl, h1, h2⟩

end Verif.Cfg
