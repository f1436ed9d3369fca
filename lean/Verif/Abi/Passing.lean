import Verif.Abi.Code

/-!
# What it means to pass an argument

The bytes an argument has when a call is executed.
-/

namespace Verif.Abi

/-- Address of an object; a register has none. -/
def Place.address (s : M) : Place → Int
  | .frame o => s.reg BP + o
  | .global a => a
  | .temp _ => 0

/-- Byte `j` of what is stored in a place. -/
def Place.byte (s : M) (j : Nat) : Place → UInt8
  | .temp r => byteAt (s.reg r) j
  | p => s.mem (p.address s + j)

/-- The pointer stored in a place. -/
def Place.word (s : M) (p : Place) : Int := val ((List.range 8).map fun j => p.byte s j)

/-- Byte `j` of the value of an operand. -/
def Src.byte (s : M) (j : Nat) : Src → UInt8
  | .place p => p.byte s j
  | .deref p o => s.mem (p.word s + o + j)
  | .imm v => byteAt v j
  | .addr p => byteAt (p.address s) j

/-- The object representation of an argument. -/
def Arg.bytes (s : M) (a : Arg) : List UInt8 := (List.range a.ty.size).map fun j => a.src.byte s j

/-- A register for temporaries of integer or pointer type. -/
def isTempInt (r : Nat) : Prop := r = BX ∨ r = R12 ∨ r = R13 ∨ r = R14 ∨ r = R15
/-- A register for temporaries of type float or double. -/
def isTempSse (r : Nat) : Prop := 25 ≤ r ∧ r ≤ 32

instance (r : Nat) : Decidable (isTempInt r) := by unfold isTempInt; infer_instance
instance (r : Nat) : Decidable (isTempSse r) := by unfold isTempSse; infer_instance

/-- `n` bytes at an address are not in the stack below `hi` which is about to be used. -/
def Clear (lo hi a : Int) (n : Nat) : Prop := a + n ≤ lo ∨ hi ≤ a

/-- A pointer variable which is there for the whole call. -/
def Place.Pointer (s : M) (lo hi : Int) : Place → Prop
  | .temp r => isTempInt r ∧ 0 ≤ s.reg r ∧ s.reg r < 256 ^ 8
  | p => Clear lo hi (p.address s) 8

/-- An argument of type `t` which is there for the whole call: an object is not in the part
of the stack, from `lo` to `hi`, where the call puts its arguments, and a register is one of
those for temporaries. -/
def Src.Ok (s : M) (lo hi : Int) (t : Ty) : Src → Prop
  | .place (.temp r) => ∃ sz k, t.scalar = some (sz, k) ∧ if k = .real then isTempSse r else isTempInt r
  | .place p => Clear lo hi (p.address s) t.size
  | .deref p o => p.Pointer s lo hi ∧ Clear lo hi (p.word s + o) t.size
  | .imm _ => ∃ sz k, t.scalar = some (sz, k) ∧ k ≠ .real
  | .addr p => t = .ptr ∧ ∀ r, p ≠ .temp r

/-- `struct { long a[3]; }`, for examples. -/
def big : Ty := .agg 24 8 false (.cons 0 (.array 3 (.int 8 true)) .nil)

end Verif.Abi
