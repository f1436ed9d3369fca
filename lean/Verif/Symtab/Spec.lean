import Verif.Bytes

/-!
# Block scoping (C99 6.2.1) and redeclaration (6.2.2, 6.7, 6.9, 6.9.2)
-/

namespace Verif.Symtab.Spec

/-- What happens in a program: entering and leaving scopes, and declarations, which make a name denote an entity. -/
inductive Event
  | enter
  | leave
  | bind (name : Bytes) (entity : Nat)

/-- The declarations of the open scopes, innermost first. -/
abbrev Env := List (Bytes → Option Nat)

def noNames : Bytes → Option Nat := fun _ => none

def Env.step (σ : Env) : Event → Env
  | .enter => noNames :: σ
  | .leave => σ.tail
  | .bind n p => match σ with
    | [] => []
    | m :: rest => (fun x => if x = n then some p else m x) :: rest

/-- File scope is open at the beginning. -/
def Env.start : Env := [noNames]

def Env.after (σ : Env) (es : List Event) : Env := es.foldl Env.step σ

/-- A name denotes the entity of the innermost scope that declares it. -/
def Env.meaning (σ : Env) (n : Bytes) : Option Nat := σ.findSome? fun m => m n

/-- Number of scopes open after the events, `none` if one is left that was not entered. -/
def nesting : Nat → List Event → Option Nat
  | d, [] => some d
  | d, .enter :: es => nesting (d + 1) es
  | d, .leave :: es => match d with
    | 0 => none
    | d + 1 => nesting d es
  | d, .bind _ _ :: es => nesting d es

/-! ## Redeclaration of an identifier at file scope -/

inductive Storage
  | none | extern | static
  deriving DecidableEq

inductive Linkage
  | internal | external
  deriving DecidableEq

/-- Definition state of an object or function: declared only, tentatively defined, defined. -/
inductive State
  | declared | tentative | defined
  deriving DecidableEq

/-- A declaration of an object: storage class and whether it has an initialiser. -/
structure Obj where
  storage : Storage
  init : Bool

/-- Linkage of a declaration given the linkage of a prior one, 6.2.2. -/
def linkageOf (prior : Option Linkage) : Storage → Linkage
  | .static => .internal
  | .none => .external
  | .extern => prior.getD .external

/-- One more object declaration, `none` if it must not follow the prior ones: linkages disagree (6.2.2p7) or there are two
definitions (6.9p5). -/
def stepObj (prior : Option (Linkage × State)) (d : Obj) : Option (Linkage × State) :=
  let l := linkageOf (prior.map (·.1)) d.storage
  let st : State := if d.init then .defined else if d.storage = .extern then .declared else .tentative
  match prior with
  | none => some (l, st)
  | some (l', st') =>
    if l ≠ l' then none
    else if st' = .defined ∧ st = .defined then none
    else some (l, if st' = .defined ∨ st = .defined then .defined
      else if st' = .tentative ∨ st = .tentative then .tentative else .declared)

def objects : Option (Linkage × State) → List Obj → Option (Option (Linkage × State))
  | p, [] => some p
  | p, d :: ds => match stepObj p d with
    | none => none
    | some p' => objects (some p') ds

/-- A declaration of a function: storage class and whether it has a body. -/
structure Fun where
  storage : Storage
  body : Bool

/-- Functions without storage class are as if `extern`, 6.2.2p5. -/
def stepFun (prior : Option (Linkage × State)) (d : Fun) : Option (Linkage × State) :=
  let l := linkageOf (prior.map (·.1)) (if d.storage = .none then .extern else d.storage)
  let st : State := if d.body then .defined else .declared
  match prior with
  | none => some (l, st)
  | some (l', st') =>
    if l ≠ l' then none
    else if st' = .defined ∧ st = .defined then none
    else some (l, if st' = .defined ∨ st = .defined then .defined else .declared)

def functions : Option (Linkage × State) → List Fun → Option (Option (Linkage × State))
  | p, [] => some p
  | p, d :: ds => match stepFun p d with
    | none => none
    | some p' => functions (some p') ds

end Verif.Symtab.Spec
