import Verif.Brace.Model

/-!
# Initialisers, as C99 6.7.8 has them

Each list between braces has a current object, and a place in it that goes from one element to the next.  A designator sets the place.  An expression
is for the element at the place, or for the first element in that, or in that again, until it is something that can be assigned the value.
-/

namespace Verif.Brace

inductive D
  | field (m : Nat)
  | index (k : Nat)
  deriving DecidableEq, Repr

mutual
/-- Initialisers; `trail` is a comma before the closing brace. -/
inductive I
  | ex (e : Ex)
  | list (l : Items)

inductive Items
  | one (d : List D) (i : I) (trail : Bool)
  | cons (d : List D) (i : I) (r : Items)
end

/-! ### As text -/

def D.tok : D → Tok
  | .field m => .dot m
  | .index k => .idx k

def desToks (d : List D) : List Tok := if d = [] then [] else d.map D.tok ++ [.eq]

mutual
def I.toks : I → List Tok
  | .ex e => [.ex e]
  | .list l => .lb :: l.toks ++ [.rb]

def Items.toks : Items → List Tok
  | .one d i trail => desToks d ++ i.toks ++ if trail then [.comma] else []
  | .cons d i r => desToks d ++ i.toks ++ .comma :: r.toks
end

/-! ### Meaning -/

/-- Elements of an object. -/
def T.child : T → Nat → Option T
  | .scalar _, _ => none
  | .arr n e, i => if n = 0 ∨ i < n then some e else none
  | .struct _ ms, i => ms[i]?
  | .union _ ms, i => ms[i]?

def T.isUnion : T → Bool
  | .union _ _ => true
  | _ => false

/-- A designator names an element. -/
def T.select : T → D → Option Nat
  | .arr n e, .index k => ((T.arr n e).child k).map fun _ => k
  | .struct a ms, .field m => ((T.struct a ms).child m).map fun _ => m
  | .union a ms, .field m => ((T.union a ms).child m).map fun _ => m
  | _, _ => none

def T.at : T → Path → Option T
  | t, [] => some t
  | t, i :: r => (t.child i).bind fun u => u.at r

/-- Where designators lead. -/
def T.go : T → List D → Option Path
  | _, [] => some []
  | t, d :: r => (t.select d).bind fun i => (t.child i).bind fun u => (u.go r).map (i :: ·)

/-- The place behind another, if there is one; of a union only one element is initialised. -/
def T.next : T → Path → Option Path
  | _, [] => none
  | t, i :: r =>
    (t.child i).bind fun u =>
      match u.next r with
      | some q => some (i :: q)
      | none => if t.isUnion then none else (t.child (i + 1)).map fun _ => [i + 1]

/-- From an object to the element in it that an expression is for. -/
def T.reach : T → Ex → Option Path
  | .scalar c, e => if (T.scalar c).takes e then some [] else none
  | .arr n t, e => if (T.arr n t).takes e then some [] else (t.reach e).map (0 :: ·)
  | .struct k [], e => if (T.struct k []).takes e then some [] else none
  | .struct k (t :: r), e => if (T.struct k (t :: r)).takes e then some [] else (t.reach e).map (0 :: ·)
  | .union k [], e => if (T.union k []).takes e then some [] else none
  | .union k (t :: r), e => if (T.union k (t :: r)).takes e then some [] else (t.reach e).map (0 :: ·)

/-- Where an item is for, with the place before it. -/
def place (t : T) (cur : Option Path) (d : List D) : Option Path := if d = [] then cur else t.go d

def T.isScalar : T → Bool
  | .scalar _ => true
  | _ => false

/-- A list with only an expression, for a scalar or an array of characters, is the expression (C99 6.7.8p11 and p14). -/
def T.whole (t : T) (e : Ex) : Bool :=
  match t with
  | .scalar _ | .arr _ _ => t.takes e
  | _ => false

/-- The place behind an initialiser for the element at `c`. -/
def I.behind (t : T) (c : Path) : I → Option Path
  | .ex e => (t.at c).bind fun u => (u.reach e).bind fun q => t.next (c ++ q)
  | .list _ => t.next c

mutual
/-- What an initialiser for the element at `c` of the current object `t`, which is at `p`, assigns. -/
def I.run (t : T) (p c : Path) : I → Option (List (Path × Ex))
  | .ex e => (t.at c).bind fun u => (u.reach e).map fun q => [(p ++ c ++ q, e)]
  | .list l => (t.at c).bind fun u => l.fill u (p ++ c)

/-- What a list between braces assigns to an object. -/
def Items.fill (t : T) (p : Path) : Items → Option (List (Path × Ex))
  | .one [] (.ex e) _ => if t.whole e then some [(p, e)] else (I.ex e).run t p [0]
  | .one d i _ => if t.isScalar then none else (place t (some [0]) d).bind fun c => i.run t p c
  | .cons d i r => if t.isScalar then none else
    (place t (some [0]) d).bind fun c => (i.run t p c).bind fun x => (r.run t p (i.behind t c)).map fun o => x ++ o

/-- What a list assigns to the current object, from a place on. -/
def Items.run (t : T) (p : Path) (cur : Option Path) : Items → Option (List (Path × Ex))
  | .one d i _ => (place t cur d).bind fun c => i.run t p c
  | .cons d i r => (place t cur d).bind fun c => (i.run t p c).bind fun x => (r.run t p (i.behind t c)).map fun o => x ++ o
end

/-! ### Where the code does this -/

/-- Types that there are: structures and unions have members, none is inside itself, and only the outermost array may have no length. -/
inductive T.Ok : T → Prop
  | scalar {c} : T.Ok (.scalar c)
  | arr {n e} (h : e.Ok) (hn : ∀ u, e ≠ .arr 0 u) : T.Ok (.arr n e)
  | struct {k ms} (h : ∀ u ∈ ms, u.Ok) (hn : ∀ u ∈ ms, ∀ v, u ≠ .arr 0 v) (h0 : ms ≠ []) (hk : ∀ u ∈ ms, ∀ v, u.reach (.record k v) = none) :
    T.Ok (.struct k ms)
  | union {k ms} (h : ∀ u ∈ ms, u.Ok) (hn : ∀ u ∈ ms, ∀ v, u ≠ .arr 0 v) (h0 : ms ≠ []) (hk : ∀ u ∈ ms, ∀ v, u.reach (.record k v) = none) :
    T.Ok (.union k ms)

/-- On the way to the element that an expression is for there is no union without braces. -/
def T.clear : T → Ex → Bool
  | .scalar _, _ => true
  | .arr n t, e => (T.arr n t).takes e || t.clear e
  | .struct _ [], _ => true
  | .struct k (t :: r), e => (T.struct k (t :: r)).takes e || t.clear e
  | .union k ms, e => (T.union k ms).takes e

/-- Designators. -/
def Items.des : Items → List D
  | .one d _ _ => d
  | .cons d _ _ => d

/-- The item has a designator that begins with `.m`. -/
def Items.dot (l : Items) : Bool :=
  match l.des with
  | .field _ :: _ => true
  | _ => false

/-- What is allowed of designators.  `shut`: the last member has been initialised without a designator.  `stop`: nothing follows, or something with
`.m`. -/
def Allowed (cur : Option Path) (shut stop : Bool) (d : List D) : Prop :=
  match d with
  | [] => True
  | .field _ :: r => shut = false ∧ (r = [] ∨ stop = true)
  | .index k :: r => (∃ j, cur = some [j] ∧ j ≤ k) ∧ (r = [] ∨ stop = true)

/-- `shut` after an item for `c`. -/
def shutAfter (t : T) (c : Path) (d : List D) (shut : Bool) : Bool :=
  match t with
  | .union _ _ => true
  | .struct _ ms =>
    match d, c with
    | [], [i] => decide (ms.length ≤ i + 1)
    | [], _ => shut
    | _, _ => false
  | _ => false

mutual
def I.Tame (t : T) (c : Path) (stop : Bool) : I → Prop
  | .ex e => ∀ u, t.at c = some u → u.clear e = true ∨ stop = true
  | .list l => ∀ u, t.at c = some u → l.Good u

/-- A list between braces: that of a scalar has no comma at its end. -/
def Items.Good (t : T) : Items → Prop
  | .one d i tr => (t.isScalar = true → tr = false) ∧ (t.isScalar = false → Allowed (some [0]) false true d ∧
      ∀ c, place t (some [0]) d = some c → i.Tame t c true)
  | .cons d i r => Allowed (some [0]) false r.dot d ∧ ∀ c, place t (some [0]) d = some c →
      i.Tame t c r.dot ∧ r.Tame t (i.behind t c) (shutAfter t c d false)

def Items.Tame (t : T) (cur : Option Path) (shut : Bool) : Items → Prop
  | .one d i _ => Allowed cur shut true d ∧ ∀ c, place t cur d = some c → i.Tame t c true
  | .cons d i r => Allowed cur shut r.dot d ∧ ∀ c, place t cur d = some c →
      i.Tame t c r.dot ∧ r.Tame t (i.behind t c) (shutAfter t c d shut)
end

end Verif.Brace
