import Verif.Symtab.Model
import Verif.Symtab.Spec
import Verif.Tac

namespace Verif.Symtab
open Verif.Types Spec

/-- Events of an operation: a declaration that returns the symbol `p` makes the name denote `p`. -/
def stepEv (fuel : Nat) (s : State) : Op → Except Err (State × Event)
  | .push => .ok ({ s with ns := s.ns.push }, .enter)
  | .pop => do
    let ns ← s.ns.pop
    .ok ({ s with ns := ns }, .leave)
  | .add name t st l => do
    let r ← add fuel s name t st l
    .ok (r.1, .bind name r.2)

def runEv (fuel : Nat) : State → List Op → Except Err (State × List Event)
  | s, [] => .ok (s, [])
  | s, o :: os => do
    let r ← stepEv fuel s o
    let r' ← runEv fuel r.1 os
    .ok (r'.1, r.2 :: r'.2)

/-- The namespace after leaving `k` scopes. -/
def Ns.outer (ns : Ns) : Nat → Ns
  | 0 => ns
  | k + 1 => match ns.counts with
    | [] => ns
    | c :: cs => Ns.outer { ns with counts := cs, scope := ns.scope.drop c } k

/-- The table and the environment agree, also after leaving any number of scopes. -/
structure Agree (ns : Ns) (σ : Env) : Prop where
  len : σ.length = ns.counts.length + 1
  look : ∀ k name, k ≤ ns.counts.length → (ns.outer k).lookup name = Env.meaning (σ.drop k) name

/-- Pointers are valid and global names have symbols of depth 0. -/
structure Ok (s : State) : Prop where
  glob : ∀ n p, assoc s.ns.globals n = some p → ∃ sym, s.syms[p]? = some sym ∧ sym.depth = 0

theorem outer_push (ns : Ns) (k : Nat) : ns.push.outer (k + 1) = ns.outer k := by
  show Ns.outer { ns with counts := ns.counts, scope := ns.scope.drop 0 } k = _
  simp

theorem agree_push {ns : Ns} {σ : Env} (h : Agree ns σ) : Agree ns.push (Env.step σ .enter) := by
  constructor
  · simp [Env.step, Ns.push, h.len]
  · intro k name hk
    cases k with
    | zero =>
      have := h.look 0 name (by omega)
      exact this
    | succ k =>
      rw [outer_push]
      simp only [Ns.push, List.length_cons] at hk
      exact h.look k name (by omega)

theorem agree_pop {ns ns' : Ns} {σ : Env} (h : Agree ns σ) (hp : ns.pop = .ok ns') : Agree ns' (Env.step σ .leave) := by
  unfold Ns.pop at hp
  cases hc : ns.counts with
  | nil => simp [hc] at hp
  | cons c cs =>
    simp only [hc] at hp
    injection hp with hp
    have ho : ∀ k, ns.outer (k + 1) = ns'.outer k := by
      intro k
      rw [← hp]
      show (match ns.counts with | [] => ns | c :: cs => Ns.outer { ns with counts := cs, scope := ns.scope.drop c } k) = _
      rw [hc]
    have hl := h.len
    rw [hc] at hl
    have hcs : ns'.counts = cs := by rw [← hp]
    constructor
    · simp [Env.step, hcs, hl]
    · intro k name hk
      rw [← ho, h.look (k + 1) name (by rw [hc, ← hcs]; simp; omega)]
      cases σ with
      | nil => simp at hl
      | cons m rest => rfl

theorem lookup_visible {ns : Ns} {name n : Bytes} {p : Nat} (h : ns.counts = [] → ns.lookup name = none ∨ ns.lookup name = some p)
    (hs : ns.counts = [] → ns.scope = []) :
    (ns.makeVisible name p).lookup n = if n = name then some p else ns.lookup n := by
  unfold Ns.makeVisible
  cases hc : ns.counts with
  | nil =>
    have h0 := hs hc
    have h1 := h hc
    simp only [Ns.lookup, h0, List.find?_nil] at h1 ⊢
    unfold assocInsert
    cases ha : assoc ns.globals name with
    | some q =>
      rw [ha] at h1
      have hq : q = p := by simpa using h1
      subst hq
      by_cases hn : n = name
      · subst hn; simp [ha]
      · simp [hn]
    | none =>
      by_cases hn : n = name
      · subst hn; simp [assoc]
      · have : ¬ name = n := fun h => hn h.symm
        simp [assoc, hn, this]
  | cons c cs =>
    simp only [Ns.lookup]
    by_cases hn : n = name
    · subst hn; simp
    · have : ¬ name = n := fun h => hn h.symm
      simp [hn, this]

theorem outer_visible {ns : Ns} {name : Bytes} {p : Nat} {k : Nat} (hk : k + 1 ≤ ns.counts.length) :
    (ns.makeVisible name p).outer (k + 1) = ns.outer (k + 1) := by
  unfold Ns.makeVisible
  cases hc : ns.counts with
  | nil => rw [hc] at hk; simp at hk
  | cons c cs =>
    show Ns.outer { ns with counts := cs, scope := ((name, p) :: ns.scope).drop (c + 1) } k = _
    simp only [List.drop_succ_cons]
    conv => rhs; unfold Ns.outer
    rw [hc]

theorem meaning_bind (m : Bytes → Option Nat) (rest : Env) (name n : Bytes) (p : Nat) :
    Env.meaning (Env.step (m :: rest) (.bind name p)) n = if n = name then some p else Env.meaning (m :: rest) n := by
  simp only [Env.step, Env.meaning, List.findSome?_cons]
  by_cases h : n = name <;> simp [h]

theorem agree_visible {ns : Ns} {σ : Env} {name : Bytes} {p : Nat} (h : Agree ns σ)
    (hg : ns.counts = [] → ns.lookup name = none ∨ ns.lookup name = some p) (hs : ns.counts = [] → ns.scope = []) :
    Agree (ns.makeVisible name p) (Env.step σ (.bind name p)) := by
  have hl : (ns.makeVisible name p).counts.length = ns.counts.length := by
    unfold Ns.makeVisible; cases ns.counts <;> simp
  have hσ := h.len
  cases σ with
  | nil => simp at hσ
  | cons m rest =>
    constructor
    · rw [hl]; simpa [Env.step] using hσ
    · intro k n hk
      cases k with
      | zero =>
        show (ns.makeVisible name p).lookup n = Env.meaning (Env.step (m :: rest) (.bind name p)) n
        rw [meaning_bind, lookup_visible hg hs]
        have := h.look 0 n (by omega)
        rw [show ns.lookup n = Env.meaning (m :: rest) n from this]
      | succ k =>
        rw [outer_visible (by omega)]
        exact h.look (k + 1) n (by omega)

/-- A declaration that finds the name already denoting its symbol. -/
theorem agree_same {ns : Ns} {σ : Env} {name : Bytes} {p : Nat} (h : Agree ns σ) (hl : ns.lookup name = some p) :
    Agree ns (Env.step σ (.bind name p)) := by
  have hσ := h.len
  cases σ with
  | nil => simp at hσ
  | cons m rest =>
    constructor
    · simpa [Env.step] using hσ
    · intro k n hk
      cases k with
      | zero =>
        show ns.lookup n = Env.meaning (Env.step (m :: rest) (.bind name p)) n
        rw [meaning_bind]
        have h0 := h.look 0 n (by omega)
        rw [show ns.lookup n = Env.meaning (m :: rest) n from h0]
        split_ifs with hn
        · subst hn
          exact h0.symm.trans hl
        · rfl
      | succ k => exact h.look (k + 1) n hk

/-- Everything known between operations. -/
structure Inv (s : State) (σ : Env) : Prop where
  agree : Agree s.ns σ
  ok : Ok s
  sum : s.ns.scope.length = s.ns.counts.sum

theorem Inv.scope_nil {s : State} {σ : Env} (h : Inv s σ) (hc : s.ns.counts = []) : s.ns.scope = [] := by
  have := h.sum; rw [hc] at this; simpa using this

theorem visible_sum {ns : Ns} {name : Bytes} {p : Nat} (h : ns.scope.length = ns.counts.sum) :
    (ns.makeVisible name p).scope.length = (ns.makeVisible name p).counts.sum := by
  unfold Ns.makeVisible
  cases hc : ns.counts with
  | nil => rw [hc] at h; simpa [hc] using h
  | cons c cs => rw [hc] at h; simp at h ⊢; omega

theorem assocInsert_some {l : List (Bytes × Nat)} {n m : Bytes} {p q : Nat} (h : assoc (assocInsert l n p) m = some q) :
    assoc l m = some q ∨ (m = n ∧ q = p) := by
  unfold assocInsert at h
  cases ha : assoc l n with
  | some x => rw [ha] at h; exact Or.inl h
  | none =>
    rw [ha] at h
    by_cases hm : m = n
    · subst hm; simp [assoc] at h; exact Or.inr ⟨rfl, h.symm⟩
    · have : ¬ n = m := fun h => hm h.symm
      have hb : (n == m) = false := by simpa using this
      simp only [assoc, List.find?_cons, hb] at h
      exact Or.inl h

theorem globals_visible {ns : Ns} {name n : Bytes} {p q : Nat} (h : assoc (ns.makeVisible name p).globals n = some q) :
    assoc ns.globals n = some q ∨ (ns.counts = [] ∧ q = p) := by
  unfold Ns.makeVisible at h
  cases hc : ns.counts with
  | nil =>
    simp only [hc] at h
    rcases assocInsert_some h with h | ⟨_, h⟩
    · exact Or.inl h
    · exact Or.inr ⟨rfl, h⟩
  | cons c cs => simp only [hc] at h; exact Or.inl h

theorem newSymbol_inv {s : State} {σ : Env} {name : Bytes} {t : Ty} {st : Symtype} {l : Linkage} (h : Inv s σ)
    (hg : s.ns.counts = [] → s.ns.lookup name = none) :
    Inv (newSymbol s name t st l).1 (Env.step σ (.bind name (newSymbol s name t st l).2)) := by
  constructor
  · exact agree_visible h.agree (fun hc => Or.inl (hg hc)) h.scope_nil
  · constructor
    intro n p hp
    rcases globals_visible (show assoc (s.ns.makeVisible name s.syms.length).globals n = some p from hp) with hp | ⟨hc, hp⟩
    · obtain ⟨sym, h1, h2⟩ := h.ok.glob n p hp
      refine ⟨sym, ?_, h2⟩
      have := List.getElem?_eq_some_iff.1 h1
      simp only [newSymbol]
      rw [List.getElem?_append_left this.1, h1]
    · subst hp
      refine ⟨_, by simp only [newSymbol]; rw [List.getElem?_concat_length], ?_⟩
      simp [Ns.depth, hc]
  · exact visible_sum h.sum

theorem getElem?_set_some {s : List Sym} {p q : Nat} {a b : Sym} (h : s[q]? = some a) :
    (s.set p b)[q]? = some (if q = p then b else a) := by
  rw [List.getElem?_set]
  have := (List.getElem?_eq_some_iff.1 h).1
  by_cases hq : p = q
  · subst hq; simp [this]
  · have : ¬ q = p := fun h => hq h.symm
    simp [hq, this, h]

/-- Changing a symbol without increasing its depth. -/
theorem set_ok {s : State} {p : Nat} {sym b : Sym} (h : Ok s) (hp : s.syms[p]? = some sym) (hd : b.depth ≤ sym.depth) (T : Heap) :
    Ok { s with types := T, syms := s.syms.set p b } := by
  constructor
  intro n q hq
  obtain ⟨a, h1, h2⟩ := h.glob n q hq
  refine ⟨_, getElem?_set_some h1, ?_⟩
  split_ifs with he
  · subst he
    rw [hp] at h1
    injection h1 with h1
    subst h1
    omega
  · exact h2

/-- `redeclare` changes one symbol, not its depth, and the table of types. -/
theorem redeclare_shape {fuel : Nat} {s s' : State} {p : Nat} {sym : Sym} {t : Ty} {st : Symtype} {l : Linkage}
    (h : redeclare fuel s p sym t st l = .ok s') :
    ∃ T b, s' = { s with types := T, syms := s.syms.set p b } ∧ b.depth = sym.depth := by
  unfold redeclare at h
  simp only [bind, Except.bind] at h
  cases h1 : redeclareLinkage sym s.ns.depth st l with
  | error e => simp [h1] at h
  | ok link =>
    simp only [h1] at h
    cases st <;> simp only [] at h
    case tag | typedef | constant =>
      cases h2 : ofR (typeEqual s.types fuel sym.ty t) with
      | error e => simp [h2] at h
      | ok b =>
        simp only [h2] at h
        split_ifs at h
        injection h with h
        exact ⟨s.types, _, h.symm, rfl⟩
    case definition =>
      cases h2 : applyType fuel s.types sym.ty t with
      | error e => simp [h2] at h
      | ok r =>
        simp only [h2] at h
        injection h with h
        exact ⟨_, _, h.symm, rfl⟩
    case tentative | declaration =>
      generalize hs : makeTentative _ _ = sym' at h
      have hd : sym'.depth = sym.depth := by rw [← hs]; unfold makeTentative; split_ifs <;> rfl
      unfold mergeType at h
      simp only [bind, Except.bind] at h
      split at h
      · cases h2 : ofR (typeEqual s.types fuel sym'.ty t) with
        | error e => simp [h2] at h
        | ok b =>
          simp only [h2] at h
          split_ifs at h
          injection h with h
          exact ⟨s.types, _, h.symm, hd⟩
      · cases h2 : applyType fuel s.types sym'.ty t with
        | error e => simp [h2] at h
        | ok r =>
          simp only [h2] at h
          injection h with h
          exact ⟨_, _, h.symm, hd⟩
    case label | literal | builtin => cases h

theorem add_inv {fuel : Nat} {s s' : State} {σ : Env} {name : Bytes} {t : Ty} {st : Symtype} {l : Linkage} {p : Nat} (h : Inv s σ)
    (ha : add fuel s name t st l = .ok (s', p)) : Inv s' (Env.step σ (.bind name p)) := by
  unfold add at ha
  by_cases hlab : st = .label
  · rw [if_pos hlab] at ha; cases ha
  rw [if_neg hlab] at ha
  cases hl : s.ns.lookup name with
  | none =>
    simp only [hl] at ha
    have hnew : (newSymbol s name t st l) = (s', p) → Inv s' (Env.step σ (.bind name p)) := by
      intro he
      have := newSymbol_inv (t := t) (st := st) (l := l) h (fun _ => hl)
      rw [he] at this
      exact this
    split_ifs at ha with hf
    · cases hfn : assoc s.functions name with
      | none => simp only [hfn] at ha; injection ha with ha; exact hnew ha
      | some q =>
        simp only [hfn] at ha
        cases hq : s.syms[q]? with
        | none => simp [hq] at ha
        | some sym =>
          simp only [hq, addKnownFunction, bind, Except.bind] at ha
          cases hr : applyType fuel s.types sym.ty t with
          | error e => simp [hr] at ha
          | ok r =>
            simp only [hr] at ha
            injection ha with ha
            injection ha with h1 h2
            subst h2
            subst h1
            constructor
            · exact agree_visible h.agree (fun _ => Or.inl hl) h.scope_nil
            · constructor
              intro n x hx
              rcases globals_visible hx with hx | ⟨hc, hx⟩
              · exact (set_ok h.ok hq (b := { sym with ty := r.2, depth := if s.ns.depth < sym.depth then s.ns.depth else sym.depth })
                  (by dsimp only; split_ifs <;> omega) r.1).glob n x hx
              · subst hx
                refine ⟨_, getElem?_set_some hq, ?_⟩
                simp only [if_true, Ns.depth, hc, List.length_nil]
                split_ifs <;> omega
            · exact visible_sum h.sum
    · injection ha with ha; exact hnew ha
  | some q =>
    simp only [hl] at ha
    cases hq : s.syms[q]? with
    | none => simp [hq] at ha
    | some sym =>
      simp only [hq] at ha
      split_ifs at ha with hc
      · simp only [bind, Except.bind] at ha
        cases hr : redeclare fuel s q sym t st l with
        | error e => simp [hr] at ha
        | ok s1 =>
          simp only [hr] at ha
          injection ha with ha
          injection ha with h1 h2
          subst h2
          subst h1
          obtain ⟨T, b, e, hd⟩ := redeclare_shape hr
          subst e
          exact ⟨agree_same h.agree hl, set_ok h.ok hq (by omega) T, h.sum⟩
      · injection ha with ha
        have hg : s.ns.counts = [] → s.ns.lookup name = none := by
          intro h0
          exfalso
          have hz : sym.depth = 0 := by
            have h1 : s.ns.lookup name = assoc s.ns.globals name := by simp [Ns.lookup, h.scope_nil h0]
            rw [h1] at hl
            obtain ⟨a, e1, e2⟩ := h.ok.glob _ _ hl
            rw [hq] at e1
            injection e1 with e1
            subst e1
            exact e2
          exact hc ⟨Or.inl (by simp [Ns.depth, h0]), hz⟩
        have := newSymbol_inv (t := t) (st := st) (l := l) h hg
        rw [ha] at this
        exact this

theorem stepEv_inv {fuel : Nat} {s s' : State} {σ : Env} {o : Op} {e : Event} (h : Inv s σ) (hs : stepEv fuel s o = .ok (s', e)) :
    Inv s' (Env.step σ e) := by
  cases o with
  | push =>
    simp only [stepEv] at hs
    injection hs with hs
    injection hs with h1 h2
    subst h1; subst h2
    exact ⟨agree_push h.agree, ⟨h.ok.glob⟩, by simpa [Ns.push] using h.sum⟩
  | pop =>
    simp only [stepEv, bind, Except.bind] at hs
    cases hp : s.ns.pop with
    | error e => simp [hp] at hs
    | ok ns =>
      simp only [hp] at hs
      injection hs with hs
      injection hs with h1 h2
      subst h1; subst h2
      refine ⟨agree_pop h.agree hp, ⟨?_⟩, ?_⟩
      · intro n p hx
        refine h.ok.glob n p ?_
        unfold Ns.pop at hp
        cases hc : s.ns.counts with
        | nil => simp [hc] at hp
        | cons c cs => simp only [hc] at hp; injection hp with hp; subst hp; exact hx
      · unfold Ns.pop at hp
        have := h.sum
        cases hc : s.ns.counts with
        | nil => simp [hc] at hp
        | cons c cs =>
          simp only [hc] at hp; injection hp with hp; subst hp
          rw [hc] at this
          simp at this ⊢
          omega
  | add name t st l =>
    simp only [stepEv, bind, Except.bind] at hs
    cases ha : add fuel s name t st l with
    | error e => simp [ha] at hs
    | ok r =>
      simp only [ha] at hs
      injection hs with hs
      injection hs with h1 h2
      subst h1; subst h2
      exact add_inv h ha

theorem runEv_inv {fuel : Nat} : ∀ (ops : List Op) {s s' : State} {σ : Env} {es : List Event}, Inv s σ →
    runEv fuel s ops = .ok (s', es) → Inv s' (Env.after σ es)
  | [], s, s', σ, es, h, hr => by
    simp only [runEv] at hr
    injection hr with hr
    injection hr with h1 h2
    subst h1; subst h2
    exact h
  | o :: os, s, s', σ, es, h, hr => by
    simp only [runEv, bind, Except.bind] at hr
    cases h1 : stepEv fuel s o with
    | error e => simp [h1] at hr
    | ok r =>
      simp only [h1] at hr
      cases h2 : runEv fuel r.1 os with
      | error e => simp [h2] at hr
      | ok r' =>
        simp only [h2] at hr
        injection hr with hr
        injection hr with e1 e2
        subst e1; subst e2
        exact runEv_inv os (s := r.1) (es := r'.2) (stepEv_inv (e := r.2) h h1) h2

theorem inv_start : Inv {} Env.start := by
  refine ⟨⟨rfl, ?_⟩, ⟨?_⟩, rfl⟩
  · intro k name hk
    have : k = 0 := Nat.le_zero.1 hk
    subst this
    rfl
  · intro n p h; simp [assoc] at h

/-- `runEv` is `run` with the events recorded. -/
theorem runEv_run {fuel : Nat} : ∀ (ops : List Op) (s : State), run fuel s ops = (runEv fuel s ops).map (·.1)
  | [], s => rfl
  | o :: os, s => by
    simp only [run, runEv, bind, Except.bind]
    have h1 : step fuel s o = (stepEv fuel s o).map (·.1) := by
      cases o with
      | push => rfl
      | pop => simp only [step, stepEv, bind, Except.bind]; cases s.ns.pop <;> rfl
      | add name t st l => simp only [step, stepEv, bind, Except.bind]; cases add fuel s name t st l <;> rfl
    rw [h1]
    cases stepEv fuel s o with
    | error e => rfl
    | ok r =>
      simp only [Except.map]
      rw [runEv_run os r.1]
      cases runEv fuel r.1 os <;> rfl

/-- Events that leave no more scopes than they enter do not touch the outer scopes. -/
theorem after_nesting : ∀ (es : List Event) (d : Nat) (inner : List (Bytes → Option Nat)) (σ : Env), inner.length = d + 1 →
    ∀ d', nesting d es = some d' → ∃ inner', inner'.length = d' + 1 ∧ Env.after (inner ++ σ) es = inner' ++ σ
  | [], d, inner, σ, hl, d', h => by
    simp only [nesting] at h; injection h with h; subst h
    exact ⟨inner, hl, rfl⟩
  | .enter :: es, d, inner, σ, hl, d', h => by
    simp only [nesting] at h
    exact after_nesting es (d + 1) (noNames :: inner) σ (by simp [hl]) d' h
  | .leave :: es, d, inner, σ, hl, d', h => by
    cases d with
    | zero => simp [nesting] at h
    | succ d =>
      simp only [nesting] at h
      cases inner with
      | nil => simp at hl
      | cons m rest => exact after_nesting es d rest σ (by simpa using hl) d' h
  | .bind n p :: es, d, inner, σ, hl, d', h => by
    simp only [nesting] at h
    cases inner with
    | nil => simp at hl
    | cons m rest =>
      exact after_nesting es d ((fun x => if x = n then some p else m x) :: rest) σ (by simpa using hl) d' h

theorem add_valid {fuel : Nat} {s s' : State} {name : Bytes} {t : Ty} {st : Symtype} {l : Linkage} {p : Nat}
    (ha : add fuel s name t st l = .ok (s', p)) : p < s'.syms.length ∧ s.syms.length ≤ s'.syms.length := by
  have hnew : (newSymbol s name t st l) = (s', p) → p < s'.syms.length ∧ s.syms.length ≤ s'.syms.length := by
    intro he
    simp only [newSymbol] at he
    injection he with e1 e2
    subst e1; subst e2
    simp
  unfold add at ha
  by_cases hlab : st = .label
  · rw [if_pos hlab] at ha; cases ha
  rw [if_neg hlab] at ha
  cases hl : s.ns.lookup name with
  | none =>
    simp only [hl] at ha
    split_ifs at ha with hf
    · cases hfn : assoc s.functions name with
      | none => simp only [hfn] at ha; injection ha with ha; exact hnew ha
      | some q =>
        simp only [hfn] at ha
        cases hq : s.syms[q]? with
        | none => simp [hq] at ha
        | some sym =>
          simp only [hq, addKnownFunction, bind, Except.bind] at ha
          cases hr : applyType fuel s.types sym.ty t with
          | error e => simp [hr] at ha
          | ok r =>
            simp only [hr] at ha
            injection ha with ha
            injection ha with h1 h2
            subst h2
            subst h1
            simp [(List.getElem?_eq_some_iff.1 hq).1]
    · injection ha with ha; exact hnew ha
  | some q =>
    simp only [hl] at ha
    cases hq : s.syms[q]? with
    | none => simp [hq] at ha
    | some sym =>
      simp only [hq] at ha
      split_ifs at ha with hc
      · simp only [bind, Except.bind] at ha
        cases hr : redeclare fuel s q sym t st l with
        | error e => simp [hr] at ha
        | ok s1 =>
          simp only [hr] at ha
          injection ha with ha
          injection ha with h1 h2
          subst h2
          subst h1
          obtain ⟨T, b, e, hd⟩ := redeclare_shape hr
          subst e
          simp [(List.getElem?_eq_some_iff.1 hq).1]
      · injection ha with ha; exact hnew ha

/-- All names denote existing entities. -/
def Bounded (σ : Env) (n : Nat) : Prop := ∀ m ∈ σ, ∀ x p, m x = some p → p < n

theorem stepEv_bounded {fuel : Nat} {s s' : State} {σ : Env} {o : Op} {e : Event} (h : Bounded σ s.syms.length)
    (hs : stepEv fuel s o = .ok (s', e)) : Bounded (Env.step σ e) s'.syms.length := by
  cases o with
  | push =>
    simp only [stepEv] at hs; injection hs with hs; injection hs with e1 e2; subst e1; subst e2
    intro m hm x p hp
    simp only [Env.step, List.mem_cons] at hm
    rcases hm with rfl | hm
    · simp [noNames] at hp
    · exact h m hm x p hp
  | pop =>
    simp only [stepEv, bind, Except.bind] at hs
    cases h3 : s.ns.pop with
    | error e => simp [h3] at hs
    | ok ns =>
      simp only [h3] at hs; injection hs with hs; injection hs with e1 e2; subst e1; subst e2
      intro m hm x p hp
      exact h m (List.mem_of_mem_tail hm) x p hp
  | add name t st l =>
    simp only [stepEv, bind, Except.bind] at hs
    cases h3 : add fuel s name t st l with
    | error e => simp [h3] at hs
    | ok r =>
      simp only [h3] at hs; injection hs with hs; injection hs with e1 e2; subst e1; subst e2
      obtain ⟨v1, v2⟩ := add_valid (s' := r.1) (p := r.2) h3
      cases σ with
      | nil => intro m hm; simp [Env.step] at hm
      | cons m0 rest =>
        intro m hm x p hp
        simp only [Env.step, List.mem_cons] at hm
        rcases hm with rfl | hm
        · simp only at hp
          split_ifs at hp
          · injection hp with hp; omega
          · have := h m0 List.mem_cons_self x p hp; omega
        · have := h m (List.mem_cons_of_mem _ hm) x p hp; omega

theorem runEv_bounded {fuel : Nat} : ∀ (ops : List Op) {s s' : State} {σ : Env} {es : List Event}, Bounded σ s.syms.length →
    runEv fuel s ops = .ok (s', es) → Bounded (Env.after σ es) s'.syms.length
  | [], s, s', σ, es, h, hr => by
    simp only [runEv] at hr; injection hr with hr; injection hr with e1 e2; subst e1; subst e2; exact h
  | o :: os, s, s', σ, es, h, hr => by
    simp only [runEv, bind, Except.bind] at hr
    cases h1 : stepEv fuel s o with
    | error e => simp [h1] at hr
    | ok r =>
      simp only [h1] at hr
      cases h2 : runEv fuel r.1 os with
      | error e => simp [h2] at hr
      | ok r' =>
        simp only [h2] at hr
        injection hr with hr
        injection hr with e1 e2
        subst e1; subst e2
        exact runEv_bounded os (s := r.1) (es := r'.2) (stepEv_bounded (e := r.2) h h1) h2

theorem meaning_bounded {σ : Env} {n : Nat} (h : Bounded σ n) {x : Bytes} {p : Nat} (hp : Env.meaning σ x = some p) : p < n := by
  unfold Env.meaning at hp
  obtain ⟨m, hm, e⟩ := List.exists_of_findSome?_eq_some hp
  exact h m hm x p e

end Verif.Symtab
