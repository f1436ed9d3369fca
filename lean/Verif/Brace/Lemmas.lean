import Verif.Brace.Spec

/-!
# The place of the specification is where the parser is
-/

namespace Verif.Brace

set_option linter.unusedSimpArgs false

/-! ### Enough fuel -/

def Ev (P : Nat → Prop) : Prop := ∃ F, ∀ f, F ≤ f → P f

theorem Ev.all {P : Nat → Prop} (h : ∀ f, P f) : Ev P := ⟨0, fun f _ => h f⟩

theorem Ev.succ {P : Nat → Prop} (h : Ev fun f => P (f + 1)) : Ev P := by
  obtain ⟨F, h⟩ := h
  refine ⟨F + 1, fun f hf => ?_⟩
  cases f with
  | zero => omega
  | succ f => exact h f (by omega)

theorem Ev.mono {P Q : Nat → Prop} (h : Ev P) (i : ∀ f, P f → Q f) : Ev Q := by
  obtain ⟨F, h⟩ := h
  exact ⟨F, fun f hf => i f (h f hf)⟩

theorem Ev.and {P Q : Nat → Prop} (h : Ev P) (g : Ev Q) : Ev fun f => P f ∧ Q f := by
  obtain ⟨F, h⟩ := h
  obtain ⟨G, g⟩ := g
  exact ⟨max F G, fun f hf => ⟨h f (by omega), g f (by omega)⟩⟩

/-! ### Items and what follows -/

inductive Tail
  | stop (tr : Bool)
  | more (l : Items)

def Tail.toks : Tail → List Tok
  | .stop tr => if tr then [.comma] else []
  | .more l => .comma :: l.toks

def Tail.run (t : T) (p : Path) (cur : Option Path) : Tail → Option (List (Path × Ex))
  | .stop _ => some []
  | .more l => l.run t p cur

def Tail.Tame (t : T) (cur : Option Path) (shut : Bool) : Tail → Prop
  | .stop _ => True
  | .more l => l.Tame t cur shut

def Tail.dot : Tail → Bool
  | .stop _ => true
  | .more l => l.dot

def Tail.halts : Tail → Prop
  | .stop _ => True
  | .more l => l.des ≠ []

noncomputable def Tail.size : Tail → Nat
  | .stop _ => 0
  | .more l => sizeOf l

def Items.init : Items → I
  | .one _ i _ => i
  | .cons _ i _ => i

def Items.tail : Items → Tail
  | .one _ _ tr => .stop tr
  | .cons _ _ r => .more r

theorem Items.toks_eq (l : Items) : l.toks = desToks l.des ++ l.init.toks ++ l.tail.toks := by
  cases l <;> simp [Items.toks, Items.des, Items.init, Items.tail, Tail.toks]

theorem Items.run_eq (l : Items) (t : T) (p : Path) (cur : Option Path) : l.run t p cur = (place t cur l.des).bind fun c =>
    (l.init.run t p c).bind fun x => (l.tail.run t p (l.init.behind t c)).map fun o => x ++ o := by
  cases l with
  | one d i tr =>
    simp only [Items.run, Items.des, Items.init, Items.tail, Tail.run, Option.map_some, List.append_nil]
    cases place t cur d with
    | none => rfl
    | some c => simp
  | cons d i r => simp only [Items.run, Items.des, Items.init, Items.tail, Tail.run]

theorem Items.tame_eq (l : Items) (t : T) (cur : Option Path) (shut : Bool) : l.Tame t cur shut ↔ Allowed cur shut l.tail.dot l.des ∧
    ∀ c, place t cur l.des = some c → l.init.Tame t c l.tail.dot ∧ l.tail.Tame t (l.init.behind t c) (shutAfter t c l.des shut) := by
  cases l <;> simp [Items.Tame, Items.des, Items.init, Items.tail, Tail.dot, Tail.Tame]

theorem Items.tail_size (l : Items) : l.tail.size < sizeOf l := by
  cases l <;> simp [Items.tail, Tail.size] <;> omega

/-- Lists between braces in an initialiser are smaller. -/
def I.small (N : Nat) (i : I) : Prop := ∀ l, i = .list l → sizeOf l < N

theorem Items.init_small (l : Items) : l.init.small (sizeOf l) := by
  intro l' h
  cases l <;> simp only [Items.init] at h <;> subst h <;> simp <;> omega

theorem Tail.dot_halts {R : Tail} (h : R.dot = true) : R.halts := by
  cases R with
  | stop => trivial
  | more l =>
    intro e
    simp only [Tail.dot, Items.dot, e] at h
    cases h

theorem Tail.run_halts {R : Tail} {t : T} {p : Path} (h : R.halts) (c c' : Option Path) : R.run t p c = R.run t p c' := by
  cases R with
  | stop => rfl
  | more l =>
    have h : l.des ≠ [] := h
    show l.run t p c = l.run t p c'
    rw [Items.run_eq, Items.run_eq, place, place, if_neg h, if_neg h]

/-! ### Places -/

theorem at_append {c q : Path} : ∀ {t : T}, t.at (c ++ q) = (t.at c).bind fun u => u.at q := by
  induction c with
  | nil => intro t; simp [T.at]
  | cons i r ih =>
    intro t
    simp only [List.cons_append, T.at]
    cases t.child i with
    | none => rfl
    | some v => exact ih

theorem at_child {t u : T} {c : Path} {i : Nat} (h : t.at c = some u) : t.at (c ++ [i]) = u.child i := by
  rw [at_append, h]
  simp only [Option.bind_some, T.at]
  cases u.child i <;> rfl

theorem next_append {c q : Path} : ∀ {t u : T}, t.at c = some u →
    t.next (c ++ q) = match u.next q with
      | some q' => some (c ++ q')
      | none => t.next c := by
  induction c with
  | nil =>
    intro t u h
    cases h
    simp only [List.nil_append, T.next]
    cases t.next q <;> rfl
  | cons i r ih =>
    intro t u h
    simp only [T.at] at h
    simp only [List.cons_append, T.next]
    cases hv : t.child i with
    | none => rw [hv] at h; cases h
    | some v =>
      rw [hv] at h
      simp only [Option.bind_some] at h ⊢
      rw [ih h]
      cases u.next q <;> rfl

theorem next_one {u v : T} {i : Nat} (h : u.child i = some v) : u.next [i] = if u.isUnion then none else (u.child (i + 1)).map fun _ => [i + 1] := by
  simp only [T.next, h, Option.bind_some]

theorem next_child {t u v : T} {c : Path} {i : Nat} (h : t.at c = some u) (hv : u.child i = some v) :
    t.next (c ++ [i]) = if u.isUnion = false ∧ (u.child (i + 1)).isSome then some (c ++ [i + 1]) else t.next c := by
  rw [next_append h, next_one hv]
  cases u.isUnion
  · cases u.child (i + 1) <;> simp
  · simp

/-- An expression for an object that does not take it is for its first element. -/
theorem descend {t u v : T} {c p : Path} {e : Ex} (h : t.at c = some u) (hv : u.child 0 = some v) (hr : u.reach e = (v.reach e).map (0 :: ·)) :
    (I.ex e).run t p c = (I.ex e).run t p (c ++ [0]) ∧ (I.ex e).behind t c = (I.ex e).behind t (c ++ [0]) := by
  simp only [I.run, I.behind, at_child h, hv, h, hr, Option.bind_some]
  cases v.reach e with
  | none => exact ⟨rfl, rfl⟩
  | some q => simp

theorem reach_takes {u : T} {e : Ex} (h : u.takes e = true) : u.reach e = some [] := by
  cases u with
  | scalar => simp only [T.reach, h, if_true]
  | arr => simp only [T.reach, h, if_true]
  | struct k ms => cases ms <;> simp only [T.reach, h, if_true]
  | union k ms => cases ms <;> simp only [T.reach, h, if_true]

/-! ### Expressions may be read before -/

theorem record_read {f : Nat} {u : T} {p : Path} {cur : Bool} {e : Ex} {r : List Tok} {o : List (Path × Ex)} :
    record f u p cur ⟨.ex e :: r, none, o⟩ = record f u p cur ⟨r, some e, o⟩ := by
  cases f <;> simp [record, readFirst, readElement]

theorem array_read {f n : Nat} {u : T} {p : Path} {cur : Bool} {e : Ex} {r : List Tok} {o : List (Path × Ex)} :
    array f n u p cur ⟨.ex e :: r, none, o⟩ = array f n u p cur ⟨r, some e, o⟩ := by
  cases f <;> simp [array, readFirst, readElement]

theorem member_read {f : Nat} {u : T} {p : Path} {e : Ex} {r : List Tok} {o : List (Path × Ex)} :
    member f u p ⟨.ex e :: r, none, o⟩ = member f u p ⟨r, some e, o⟩ := by
  cases f with
  | zero => simp [member]
  | succ f =>
    cases u with
    | scalar c => simp [member, readElement, Res.bind]
    | arr n u => simp [member, array_read]
    | struct k ms => simp [member, record_read]
    | union k ms => simp [member, record_read]

theorem structLoop_read {f i : Nat} {ms : List T} {p : Path} {cur : Bool} {e : Ex} {r : List Tok} {o : List (Path × Ex)} :
    structLoop f ms p cur i ⟨.ex e :: r, none, o⟩ = structLoop f ms p cur i ⟨r, some e, o⟩ := by
  cases f with
  | zero => simp [structLoop]
  | succ f => simp only [structLoop, member_read]

theorem arrayLoop_read {f n i k : Nat} {u : T} {p : Path} {cur : Bool} {e : Ex} {r : List Tok} {o : List (Path × Ex)}
    (hr : ∀ k r', r ≠ .idx k :: r') : arrayLoop f n u p cur i k ⟨.ex e :: r, none, o⟩ = arrayLoop f n u p cur i k ⟨r, some e, o⟩ := by
  cases f with
  | zero => simp [arrayLoop]
  | succ f =>
    simp only [arrayLoop, member_read]

theorem unionLoop_read {f : Nat} {ms : List T} {p : Path} {cur done : Bool} {old : List (Path × Ex)} {e : Ex} {r : List Tok}
    (hd : done = false) (hr : ∀ k r', r ≠ .dot k :: r') :
    unionLoop f ms p cur done old ⟨.ex e :: r, none, old⟩ = unionLoop f ms p cur done old ⟨r, some e, old⟩ := by
  cases f with
  | zero => simp [unionLoop]
  | succ f =>
    subst hd
    simp only [unionLoop, member_read]
    split
    · rename_i h; cases h
    · rfl

/-! ### What follows an item -/

def fin (rest : List Tok) (R : Tail) (o : List (Path × Ex)) : S := ⟨R.toks ++ .rb :: rest, none, o⟩

theorem tail_idx {R : Tail} {rest : List Tok} : ∀ k r', R.toks ++ .rb :: rest ≠ .idx k :: r' := by
  intro k r' h
  cases R with
  | stop tr => cases tr <;> simp [Tail.toks] at h
  | more l => simp [Tail.toks] at h

theorem tail_dot {R : Tail} {rest : List Tok} : ∀ k r', R.toks ++ .rb :: rest ≠ .dot k :: r' := by
  intro k r' h
  cases R with
  | stop tr => cases tr <;> simp [Tail.toks] at h
  | more l => simp [Tail.toks] at h

theorem init_toks (i : I) : (∃ e, i = .ex e ∧ i.toks = [.ex e]) ∨ ∃ l, i = .list l ∧ i.toks = .lb :: l.toks ++ [.rb] := by
  cases i with
  | ex e => exact .inl ⟨e, rfl, by simp [I.toks]⟩
  | list l => exact .inr ⟨l, rfl, by simp [I.toks]⟩

theorem nextElement_stop {cur tr : Bool} {rest : List Tok} : nextElement cur ((Tail.stop tr).toks ++ .rb :: rest) = none := by
  cases tr <;> simp [Tail.toks, nextElement]

theorem nextArray_stop {cur tr : Bool} {n c : Nat} {rest : List Tok} : nextArray cur n c ((Tail.stop tr).toks ++ .rb :: rest) = none := by
  cases tr <;> simp [Tail.toks, nextArray]

theorem des_field {l : Items} {m : Nat} {ds : List D} (h : l.des = .field m :: ds) : ∃ r, l.toks = .dot m :: r := by
  rw [Items.toks_eq, h]
  exact ⟨_, by simp [desToks, D.tok]; rfl⟩

theorem des_index {l : Items} {m : Nat} {ds : List D} (h : l.des = .index m :: ds) : ∃ r, l.toks = .idx m :: r := by
  rw [Items.toks_eq, h]
  exact ⟨_, by simp [desToks, D.tok]; rfl⟩

theorem des_nil {l : Items} (h : l.des = []) : l.toks = l.init.toks ++ l.tail.toks := by
  rw [Items.toks_eq, h]
  simp [desToks]

theorem nextElement_nil {cur : Bool} {l : Items} {rest : List Tok} (h : l.des = []) :
    nextElement cur ((Tail.more l).toks ++ .rb :: rest) = some (l.toks ++ .rb :: rest) := by
  simp only [Tail.toks, List.cons_append, nextElement]
  rw [des_nil h]
  rcases init_toks l.init with ⟨e, _, h⟩ | ⟨l', _, h⟩ <;> rw [h] <;> simp

theorem nextArray_nil {cur : Bool} {n c : Nat} {l : Items} {rest : List Tok} (h : l.des = []) :
    nextArray cur n c ((Tail.more l).toks ++ .rb :: rest) = if n ≠ 0 ∧ n ≤ c then none else some (l.toks ++ .rb :: rest) := by
  simp only [Tail.toks, List.cons_append, nextArray]
  rw [des_nil h]
  rcases init_toks l.init with ⟨e, _, h⟩ | ⟨l', _, h⟩ <;> rw [h] <;> simp

theorem nextElement_field {cur : Bool} {l : Items} {rest : List Tok} {m : Nat} {ds : List D} (h : l.des = .field m :: ds) :
    nextElement cur ((Tail.more l).toks ++ .rb :: rest) = if cur then some (l.toks ++ .rb :: rest) else none := by
  obtain ⟨r, hr⟩ := des_field h
  simp only [Tail.toks, List.cons_append, nextElement, hr]

theorem nextArray_field {cur : Bool} {n c : Nat} {l : Items} {rest : List Tok} {m : Nat} {ds : List D} (h : l.des = .field m :: ds) :
    nextArray cur n c ((Tail.more l).toks ++ .rb :: rest) = none := by
  obtain ⟨r, hr⟩ := des_field h
  simp only [Tail.toks, List.cons_append, nextArray, hr]

theorem nextArray_index {cur : Bool} {n c : Nat} {l : Items} {rest : List Tok} {m : Nat} {ds : List D} (h : l.des = .index m :: ds) :
    nextArray cur n c ((Tail.more l).toks ++ .rb :: rest) = if cur then some (l.toks ++ .rb :: rest) else none := by
  obtain ⟨r, hr⟩ := des_index h
  simp only [Tail.toks, List.cons_append, nextArray, hr]

/-- Something with `.m` or nothing: elements without braces end here. -/
theorem nextElement_dot {R : Tail} {rest : List Tok} (h : R.dot = true) : nextElement false (R.toks ++ .rb :: rest) = none := by
  cases R with
  | stop tr => exact nextElement_stop
  | more l =>
    cases hd : l.des with
    | nil => simp only [Tail.dot, Items.dot, hd] at h; cases h
    | cons d ds =>
      cases d with
      | field m => rw [nextElement_field hd]; rfl
      | index k => simp only [Tail.dot, Items.dot, hd] at h; cases h

theorem nextArray_dot {R : Tail} {n c : Nat} {rest : List Tok} (h : R.dot = true) : nextArray false n c (R.toks ++ .rb :: rest) = none := by
  cases R with
  | stop tr => exact nextArray_stop
  | more l =>
    cases hd : l.des with
    | nil => simp only [Tail.dot, Items.dot, hd] at h; cases h
    | cons d ds =>
      cases d with
      | field m => exact nextArray_field hd
      | index k => simp only [Tail.dot, Items.dot, hd] at h; cases h

end Verif.Brace
