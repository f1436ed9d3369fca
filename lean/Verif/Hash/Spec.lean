import Verif.Hash.Model
/-!
# Specification of the hash table: a finite map where insertion never replaces

The specification only uses the operation names `Op`, none of the model's functions.
-/
namespace Verif.Hash.Spec

variable {K V : Type} [DecidableEq K]

/-- Abstract map after one operation and the value the operation returns. -/
def step (m : K → Option V) : Op K V → (K → Option V) × Option V
  | .insert k v =>
    match m k with
    | some old => (m, some old)
    | none => (fun k' => if k' = k then some v else m k', some v)
  | .lookup k => (m, m k)
  | .remove k => (fun k' => if k' = k then none else m k', none)
  | .clear => (fun _ => none, none)
  | .destroy => (fun _ => none, none)

/-- Answers required for a history. -/
def answers (m : K → Option V) : List (Op K V) → List (Option V)
  | [] => []
  | op :: ops => (step m op).2 :: answers (step m op).1 ops

end Verif.Hash.Spec
