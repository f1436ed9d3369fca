import Verif.Enums.Model

/-!
# Enumeration constants in C

C99 6.7.2.2 and 6.2.1: a constant has the value of its expression, or one more than the one
before it, or 0 for the first; the value is representable as `int`; the scope of a constant begins right
behind its enumerator; a name is declared once in a scope.
-/

namespace Verif.Enums

abbrev Env := Name → Option Int

def Env.empty : Env := fun _ => none
def Env.over (h o : Env) : Env := fun n => match h n with | some t => some t | none => o n
def Env.set (h : Env) (n : Name) (v : Int) : Env := fun m => if m = n then some v else h m

/-- The value of an enumerator: `prev` is that of the one before. -/
def valueOf (prev : Option Int) (e : Option Ex) (env : Env) : Option Int :=
  match e, prev with
  | some e, _ => e env
  | none, some p => some (p + 1)
  | none, none => some 0

def constants (o h : Env) (prev : Option Int) : List (Name × Option Ex) → Option (Env × List Out)
  | [] => some (h, [])
  | (n, e) :: r => do
    let v ← valueOf prev e (h.over o)
    if -2147483648 ≤ v ∧ v ≤ 2147483647 ∧ h n = none then do
      let (h, os) ← constants o (h.set n v) (some v) r
      some (h, .const n v :: os)
    else none

/-- `o` are the constants of outer scopes, `h` those of this scope. -/
def mean (o h : Env) : Prog → Option (Env × List Out)
  | .nil => some (h, [])
  | .scope b r => do
    let (_, o1) ← mean (h.over o) .empty b
    let (h2, o2) ← mean o h r
    some (h2, o1 ++ o2)
  | .enum l r => do
    let (h1, o1) ← constants o h none l
    let (h2, o2) ← mean o h1 r
    some (h2, o1 ++ o2)
  | .use e r => do
    let v ← e (h.over o)
    let (h1, o1) ← mean o h r
    some (h1, .value v :: o1)

def meaning (p : Prog) : Option (List Out) := (mean .empty .empty p).map (·.2)

end Verif.Enums
