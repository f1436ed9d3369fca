import Verif.Sizeof.Model

/-!
# Complete types and their sizes

C99 6.2.5 and 6.5.3.4.
-/

namespace Verif.Sizeof

/-- A complete object type and its size in bytes -/
inductive HasSize : Ty → Nat → Prop
  | scalar {s : Nat} : HasSize (.scalar s) s
  | record {s : Nat} : HasSize (.record (some s)) s
  | array {n s : Nat} {e : Ty} : HasSize e s → HasSize (.array (some n) e) (n * s)

def Complete (t : Ty) : Prop := ∃ s, HasSize t s

end Verif.Sizeof
