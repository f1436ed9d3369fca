import Verif.Expr.Model
import Verif.Abi.Code

/-!
# Where variables and temporaries of a function are
-/

namespace Verif.Expr

open Verif.Abi (Place tempInt)

/-- An element of `def->locals`, ir.h:262-300, that is an integer: a declared variable, or a temporary made by
`create_var` (eval.c:90-102). -/
inductive Local
  | var (i : Nat)
  | tmp (k : Nat)
  deriving DecidableEq, Repr

/-- `allocate_registers`, src/backend/x86_64/compile.c:1683-1699, of a function without inline assembly; `a` is
`int_regs_alloc`. -/
def registers : Nat → List Local → List (Local × Option Nat)
  | _, [] => []
  | a, .var i :: r => (.var i, none) :: registers a r
  | a, .tmp k :: r => if a < tempInt.length then (.tmp k, some a) :: registers (a + 1) r else (.tmp k, none) :: registers a r

/-- How many there are: `int_regs_alloc` at the end. -/
def used (l : List (Local × Option Nat)) : Nat := (l.filter (·.2.isSome)).length

/-- `allocate_locals`, compile.c:1535-1552, and `allocated_register`, 283-295; no local is larger than an eightbyte. -/
def locals (reg : Int) : Int → List (Local × Option Nat) → List (Local × Place)
  | _, [] => []
  | so, (l, some a) :: r => (l, .temp (tempInt.getD a 0)) :: locals reg so r
  | so, (l, none) :: r => (l, .frame (so - 8 - reg)) :: locals reg (so - 8) r

/-- The places of the locals, where `so` is what the parameters and the save area take: `enter`, compile.c:1748-1812. -/
def places (so : Int) (l : List Local) : List (Local × Place) :=
  let r := registers 0 l
  locals (8 * used r) so r

def placeOf (p : List (Local × Place)) (l : Local) : Place := ((p.find? (·.1 == l)).map (·.2)).getD (.frame 0)

def allocate (so : Int) (l : List Local) : Layout :=
  ⟨fun i => placeOf (places so l) (.var i), fun k => placeOf (places so l) (.tmp k)⟩

end Verif.Expr
