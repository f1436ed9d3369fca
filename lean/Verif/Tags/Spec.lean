import Verif.Tags.Model

/-!
# Tags in C

C99 6.7.2.3 and 6.2.1: which type a specifier with a tag is.  A declaration with a list, or `struct S;`
alone, is about the tag of this scope and declares it if there is none; other uses are about
the tag that is visible.  The content of a type is defined once.  The tags declared among the
parameters of a function definition have the scope of its body.
-/

namespace Verif.Tags

/-- `struct` and `union` are different. -/
def kindOf : Bool → Kind
  | true => .union
  | false => .struct

abbrev Env := Name → Option Tag

def Env.empty : Env := fun _ => none

/-- Inner declarations hide outer ones. -/
def Env.over (h o : Env) : Env := fun n => match h n with | some t => some t | none => o n

def Env.set (h : Env) (n : Name) (t : Tag) : Env := fun m => if m = n then some t else h m

/-- Types so far, those whose list has begun, and those whose list has ended. -/
structure St where
  next : Nat
  begun : List Nat
  done : List Nat
  deriving DecidableEq, Repr

/-- The tag `e` finds, or a new one of this scope. -/
def find (h e : Env) (st : St) (k : Kind) (n : Name) : Option (Env × St × Nat) :=
  match e n with
  | none => some (h.set n ⟨k, st.next⟩, { st with next := st.next + 1 }, st.next)
  | some t => if t.kind = k then some (h, st, t.id) else none

/-- `o` are the tags of outer scopes, `h` those of this scope. -/
def mean (o h : Env) (st : St) : Prog → Option (Env × St × List Out)
  | .nil => some (h, st, [])
  | .scope b r =>
    match mean (h.over o) .empty st b with
    | none => none
    | some (_, st1, o1) =>
      match mean o h st1 r with
      | none => none
      | some (h2, st2, o2) => some (h2, st2, o1 ++ o2)
  | .func ps b r =>
    match mean (h.over o) .empty st ps with
    | none => none
    | some (hp, st1, o1) =>
      match mean (h.over o) hp st1 b with
      | none => none
      | some (_, st2, o2) =>
        match mean o h st2 r with
        | none => none
        | some (h3, st3, o3) => some (h3, st3, o1 ++ o2 ++ o3)
  | .ref u n alone r =>
    match find h (if alone then h else h.over o) st (kindOf u) n with
    | none => none
    | some (h1, st1, i) =>
      match mean o h1 st1 r with
      | none => none
      | some (h2, st2, os) => some (h2, st2, ⟨i, decide (i ∈ st1.done)⟩ :: os)
  | .defn u n m r =>
    match find h h st (kindOf u) n with
    | none => none
    | some (h1, st1, i) =>
      if i ∈ st1.begun then none
      else
        match mean o h1 { st1 with begun := i :: st1.begun } m with
        | none => none
        | some (h2, st2, o1) =>
          match mean o h2 { st2 with done := i :: st2.done } r with
          | none => none
          | some (h3, st3, o2) => some (h3, st3, ⟨i, false⟩ :: (o1 ++ o2))
  | .enumDef n r =>
    match find h h st .enum n with
    | none => none
    | some (h1, st1, i) =>
      if i ∈ st1.begun then none
      else mean o h1 { st1 with begun := i :: st1.begun, done := i :: st1.done } r

/-- No structure or union is declared with a tag that is visible from an outer scope, parameters of function
definitions declare no tags, and no type is defined within its own list. -/
def Plain (o h : Env) (st : St) : Prog → Prop
  | .nil => True
  | .scope b r =>
    Plain (h.over o) .empty st b ∧
    ∀ h1 st1 o1, mean (h.over o) .empty st b = some (h1, st1, o1) → Plain o h st1 r
  | .func ps b r =>
    Plain (h.over o) .empty st ps ∧
    ∀ hp st1 o1, mean (h.over o) .empty st ps = some (hp, st1, o1) →
      hp = .empty ∧ Plain (h.over o) .empty st1 b ∧
      ∀ h2 st2 o2, mean (h.over o) .empty st1 b = some (h2, st2, o2) → Plain o h st2 r
  | .ref u n alone r =>
    (alone = true → h n = none → o n = none) ∧
    ∀ h1 st1 i, find h (if alone then h else h.over o) st (kindOf u) n = some (h1, st1, i) →
      Plain o h1 st1 r
  | .defn u n m r =>
    (h n = none → o n = none) ∧
    ∀ h1 st1 i, find h h st (kindOf u) n = some (h1, st1, i) →
      (i ∈ st1.begun → i ∈ st1.done) ∧
      Plain o h1 { st1 with begun := i :: st1.begun } m ∧
      ∀ h2 st2 o1, mean o h1 { st1 with begun := i :: st1.begun } m = some (h2, st2, o1) →
        Plain o h2 { st2 with done := i :: st2.done } r
  | .enumDef n r =>
    ∀ h1 st1 i, find h h st .enum n = some (h1, st1, i) →
      (i ∈ st1.begun → i ∈ st1.done) ∧
      Plain o h1 { st1 with begun := i :: st1.begun, done := i :: st1.done } r

/-- What is seen of a program, if it is accepted. -/
def meaning (p : Prog) : Option (List Out) :=
  (mean .empty .empty ⟨0, [], []⟩ p).map (·.2.2)

end Verif.Tags
