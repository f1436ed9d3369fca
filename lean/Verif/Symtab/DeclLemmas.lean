import Verif.Symtab.Lemmas

namespace Verif.Symtab
open Verif.Types Spec

/-- A sequence of declarations of `name`, all with type `t`. -/
def declareAll (fuel : Nat) (name : Bytes) (t : Ty) : State → List (Storage × Form) → Except Err State
  | s, [] => .ok s
  | s, d :: ds => match declare fuel s name d.1 t d.2 with
    | .ok r => declareAll fuel name t r.1 ds
    | .error e => .error e

/-- A type that agrees with itself. -/
structure Stable (fuel : Nat) (H : Heap) (t : Ty) : Prop where
  apply : applyType fuel H t t = .ok (H, t)
  equal : typeEqual H fuel t t = .ok true

def storageOf : Spec.Storage → Storage
  | .none => .none
  | .extern => .extern
  | .static => .static

def linkOf : Spec.Linkage → Linkage
  | .internal => .intern
  | .external => .extern

def stOf : Spec.State → Symtype
  | .declared => .declaration
  | .tentative => .tentative
  | .defined => .definition

def objForm (d : Spec.Obj) : Storage × Form := (storageOf d.storage, if d.init then .init else .plain)

def funForm (d : Spec.Fun) : Storage × Form := (storageOf d.storage, if d.body then .body else .plain)

/-- The symbol of `name` after declarations with composite state `c`. -/
def Has (s : State) (name : Bytes) (t : Ty) (c : Spec.Linkage × Spec.State) : Prop :=
  s.ns.counts = [] ∧ ∃ p, s.ns.lookup name = some p ∧
    s.syms[p]? = some { name := name, ty := t, symtype := stOf c.2, linkage := linkOf c.1, depth := 0 }

/-- No declaration of `name` yet. -/
def Fresh (s : State) (name : Bytes) : Prop :=
  s.ns.counts = [] ∧ s.ns.scope = [] ∧ s.ns.lookup name = none ∧ assoc s.functions name = none

theorem Has.set {s : State} {name : Bytes} {t : Ty} {p : Nat} {c : Spec.Linkage × Spec.State} (hc : s.ns.counts = [])
    (hl : s.ns.lookup name = some p) (hp : p < s.syms.length) {sym : Sym}
    (hs : sym = { name := name, ty := t, symtype := stOf c.2, linkage := linkOf c.1, depth := 0 }) :
    Has { s with syms := s.syms.set p sym } name t c :=
  ⟨hc, p, hl, by simp [List.getElem?_set, hp, hs]⟩

theorem depth_zero {s : State} (h : s.ns.counts = []) : s.ns.depth = 0 := by simp [Ns.depth, h]

/-- The first declaration of a name at file scope. -/
theorem add_fresh {fuel : Nat} {s : State} {name : Bytes} {t : Ty} {st : Symtype} {l : Linkage} (hf : Fresh s name)
    (hst : st ≠ .label) : add fuel s name t st l = .ok (newSymbol s name t st l) ∧
    (newSymbol s name t st l).1.ns.counts = [] ∧ (newSymbol s name t st l).1.ns.lookup name = some s.syms.length ∧
    (newSymbol s name t st l).1.syms[s.syms.length]? = some { name := name, ty := t, symtype := st, linkage := l, depth := 0 } ∧
    (newSymbol s name t st l).2 = s.syms.length ∧ (newSymbol s name t st l).1.types = s.types := by
  obtain ⟨h1, h2, h3, h4⟩ := hf
  refine ⟨?_, ?_, ?_, ?_, rfl, rfl⟩
  · unfold add
    rw [if_neg hst, h3]
    simp only [h4]
    split_ifs <;> rfl
  · simp [newSymbol, Ns.makeVisible, h1]
  · have := lookup_visible (ns := s.ns) (name := name) (n := name) (p := s.syms.length) (fun _ => Or.inl h3) (fun _ => h2)
    rw [if_pos rfl] at this
    exact this
  · simp [newSymbol, depth_zero h1]

/-- A later declaration of a name at file scope. -/
theorem add_again {fuel : Nat} {s : State} {name : Bytes} {t : Ty} {sym : Sym} {p : Nat} {st : Symtype} {l : Linkage}
    (hc : s.ns.counts = []) (hl : s.ns.lookup name = some p) (hp : s.syms[p]? = some sym) (hd : sym.depth = 0)
    (hst : st = .tentative ∨ st = .declaration) (hll : l = .intern ∨ l = .extern) (ht : sym.ty = t) (hS : Stable fuel s.types t) :
    add fuel s name t st l =
      if (l = .intern ∧ sym.linkage = .extern) ∨ (l = .extern ∧ sym.linkage = .intern ∧ st = .tentative) then .error .diag
      else .ok ({ s with syms := s.syms.set p (makeTentative { sym with linkage := if l = .intern then .intern else sym.linkage } st) }, p) := by
  unfold add
  rw [if_neg (by rcases hst with h | h <;> rw [h] <;> decide), hl]
  simp only [hp]
  rw [if_pos ⟨Or.inl (depth_zero hc), hd⟩]
  unfold redeclare redeclareLinkage
  have hty : ∀ lk, (makeTentative { sym with linkage := lk } st).ty = t := by
    intro lk; unfold makeTentative; split_ifs <;> exact ht
  have hself : ∀ lk, { makeTentative { sym with linkage := lk } st with ty := t } = makeTentative { sym with linkage := lk } st := by
    intro lk
    have := hty lk
    generalize makeTentative { sym with linkage := lk } st = x at this ⊢
    cases x
    simp_all
  have fin : ∀ lk, mergeType fuel s p (makeTentative { sym with linkage := lk } st) t =
      .ok { s with syms := s.syms.set p (makeTentative { sym with linkage := lk } st) } := by
    intro lk
    unfold mergeType
    rw [hty lk, hS.apply, hS.equal]
    split_ifs
    · rfl
    · simp only [bind, Except.bind, hself lk]
  rcases hll with rfl | rfl <;> rcases hst with rfl | rfl <;> cases hk : sym.linkage <;>
    simp [bind, Except.bind, fin]

theorem symtype_zero {s : State} (h : s.ns.counts = []) (sc : Spec.Storage) : symtypeOf s.ns.depth (storageOf sc) =
    match sc with
    | .none => (.tentative, .extern)
    | .extern => (.declaration, .extern)
    | .static => (.tentative, .intern) := by
  cases sc <;> simp [symtypeOf, storageOf, depth_zero h]

theorem adjust_obj {d : Nat} {t : Ty} (ht : t.of ≠ .function) (sl : Symtype × Linkage) : adjust d t sl = .ok sl := by
  simp [adjust, ht]

theorem set_lt {α : Type} {l : List α} {p : Nat} {a : α} (h : l[p]? = some a) : p < l.length := (List.getElem?_eq_some_iff.1 h).1

theorem fresh_plain {fuel : Nat} {s : State} {name : Bytes} {t : Ty} {st : Symtype} {l : Linkage} {c : Spec.Linkage × Spec.State}
    (hf : Fresh s name) (h1 : stOf c.2 = st) (h2 : linkOf c.1 = l) :
    ∃ r, ((add fuel s name t st l).bind fun r => finishDecl r.1 r.2 .plain) = .ok r ∧ Has r.1 name t c ∧ r.1.types = s.types := by
  have hst : st ≠ .label := by rw [← h1]; cases c.2 <;> decide
  obtain ⟨a1, a2, a3, a4, a5, a6⟩ := add_fresh (fuel := fuel) (t := t) (l := l) hf hst
  rw [a1]
  refine ⟨((newSymbol s name t st l).1, s.syms.length), ?_, ⟨a2, _, a3, ?_⟩, a6⟩
  · simp only [Except.bind, finishDecl, a5, a4]
  · rw [a4, h1, h2]

theorem fresh_def {fuel : Nat} {s : State} {name : Bytes} {t : Ty} {st : Symtype} {l : Linkage} {c : Spec.Linkage × Spec.State} {f : Form}
    (hf : Fresh s name) (h1 : c.2 = .defined) (h2 : linkOf c.1 = l)
    (h : f = .init ∧ st = .tentative ∨ f = .body ∧ t.of = .function ∧ st = .declaration) :
    ∃ r, ((add fuel s name t st l).bind fun r => finishDecl r.1 r.2 f) = .ok r ∧ Has r.1 name t c ∧ r.1.types = s.types := by
  have hst : st ≠ .label := by rcases h with ⟨_, rfl⟩ | ⟨_, _, rfl⟩ <;> decide
  obtain ⟨a1, a2, a3, a4, a5, a6⟩ := add_fresh (fuel := fuel) (t := t) (l := l) hf hst
  have hl : l ≠ .none := by rw [← h2]; cases c.1 <;> decide
  rw [a1]
  have fin : finishDecl (newSymbol s name t st l).1 (newSymbol s name t st l).2 f =
      .ok ({ (newSymbol s name t st l).1 with
        syms := (newSymbol s name t st l).1.syms.set s.syms.length ⟨name, t, .definition, l, 0, 0⟩ }, s.syms.length) := by
    rcases h with ⟨rfl, rfl⟩ | ⟨rfl, ht, rfl⟩
    · simp [finishDecl, a5, a4]
    · simp [finishDecl, a5, a4, hl, ht]
  exact ⟨_, fin, Has.set a2 a3 (set_lt a4) (by rw [h1, h2]; rfl), a6⟩

/-- The first declaration of an object. -/
theorem obj_first {fuel : Nat} {s : State} {name : Bytes} {t : Ty} {d : Spec.Obj} (hf : Fresh s name) (ht : t.of ≠ .function)
    (hd : ¬ (d.storage = .extern ∧ d.init = true)) :
    ∃ c, stepObj none d = some c ∧ ∃ r, declare fuel s name (objForm d).1 t (objForm d).2 = .ok r ∧ Has r.1 name t c ∧
      r.1.types = s.types := by
  refine ⟨_, rfl, ?_⟩
  unfold declare
  simp only [objForm, symtype_zero hf.1, adjust_obj ht, bind]
  obtain ⟨sc, init⟩ := d
  cases sc <;> cases init <;> first
    | (exfalso; exact hd ⟨rfl, rfl⟩)
    | exact fresh_plain hf rfl rfl
    | exact fresh_def hf rfl rfl (Or.inl ⟨rfl, rfl⟩)

/-- A later declaration of an object. -/
theorem obj_again {fuel : Nat} {s : State} {name : Bytes} {t : Ty} {d : Spec.Obj} {c : Spec.Linkage × Spec.State}
    (hh : Has s name t c) (hS : Stable fuel s.types t) (ht : t.of ≠ .function)
    (hd : ¬ (d.storage = .extern ∧ d.init = true)) :
    match stepObj (some c) d with
    | none => declare fuel s name (objForm d).1 t (objForm d).2 = .error .diag
    | some c' => ∃ r, declare fuel s name (objForm d).1 t (objForm d).2 = .ok r ∧ Has r.1 name t c' ∧ r.1.types = s.types := by
  obtain ⟨hc, p, hl, hp⟩ := hh
  unfold declare
  simp only [objForm, symtype_zero hc, adjust_obj ht, bind]
  have A := fun st l h1 h2 => add_again (fuel := fuel) (st := st) (l := l) hc hl hp rfl h1 h2 rfl hS
  obtain ⟨sc, init⟩ := d
  obtain ⟨l, st⟩ := c
  have lt := set_lt hp
  cases sc <;> cases init <;> first
    | (exfalso; exact hd ⟨rfl, rfl⟩)
    | skip
  all_goals
    cases l <;> cases st <;>
    simp [A, linkOf, stOf, stepObj, linkageOf, Except.bind, finishDecl, makeTentative, lt, Has, hc, hl, List.getElem?_set]

theorem fun_storage {s : State} {t : Ty} (h : s.ns.counts = []) (ht : t.of = .function) (sc : Spec.Storage) :
    adjust s.ns.depth t (symtypeOf s.ns.depth (storageOf sc)) = .ok (.declaration, if sc = .static then .intern else .extern) := by
  cases sc <;> simp [symtypeOf, storageOf, depth_zero h, adjust, ht]

/-- The first declaration of a function. -/
theorem fun_first {fuel : Nat} {s : State} {name : Bytes} {t : Ty} {d : Spec.Fun} (hf : Fresh s name) (ht : t.of = .function) :
    ∃ c, stepFun none d = some c ∧ ∃ r, declare fuel s name (funForm d).1 t (funForm d).2 = .ok r ∧ Has r.1 name t c ∧
      r.1.types = s.types := by
  refine ⟨_, rfl, ?_⟩
  unfold declare
  simp only [funForm, fun_storage hf.1 ht, bind]
  obtain ⟨sc, body⟩ := d
  cases sc <;> cases body <;> first
    | exact fresh_plain hf rfl rfl
    | exact fresh_def hf rfl rfl (Or.inr ⟨rfl, ht, rfl⟩)

/-- A later declaration of a function, other than a second body. -/
theorem fun_again {fuel : Nat} {s : State} {name : Bytes} {t : Ty} {d : Spec.Fun} {c : Spec.Linkage × Spec.State}
    (hh : Has s name t c) (hS : Stable fuel s.types t) (ht : t.of = .function) (hd : ¬ (c.2 = .defined ∧ d.body = true))
    (hc2 : c.2 ≠ .tentative) :
    match stepFun (some c) d with
    | none => declare fuel s name (funForm d).1 t (funForm d).2 = .error .diag
    | some c' => ∃ r, declare fuel s name (funForm d).1 t (funForm d).2 = .ok r ∧ Has r.1 name t c' ∧ r.1.types = s.types := by
  obtain ⟨hc, p, hl, hp⟩ := hh
  unfold declare
  simp only [funForm, fun_storage hc ht, bind]
  have A := fun st l h1 h2 => add_again (fuel := fuel) (st := st) (l := l) hc hl hp rfl h1 h2 rfl hS
  obtain ⟨sc, body⟩ := d
  obtain ⟨l, st⟩ := c
  have lt := set_lt hp
  cases sc <;> cases body <;> cases l <;> cases st <;> first
    | (exfalso; exact hd ⟨rfl, rfl⟩)
    | (exfalso; exact hc2 rfl)
    | simp [A, linkOf, stOf, stepFun, linkageOf, Except.bind, finishDecl, makeTentative, lt, Has, hc, hl, List.getElem?_set, ht]

end Verif.Symtab
