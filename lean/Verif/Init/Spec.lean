import Verif.Init.Model

/-!
# Meaning of assignments: memory as bits
-/

namespace Verif.Init

/-- Bits of an object; bit `i` is bit `i % 8` of byte `i / 8`. -/
abbrev Mem := Nat → Bool

def Val.bit : Val → Nat → Bool
  | .imm v, i => v.getLsbD i
  | .data f, i => f i

/-- First bit and number of bits written; only a field has a field offset. -/
def Asg.start (a : Asg) : Nat := if a.fw = 0 then a.off * 8 else a.off * 8 + a.fo

def Asg.len (a : Asg) : Nat := if a.fw = 0 then a.size * 8 else a.fw

/-- First bit not written. -/
def Asg.stop (a : Asg) : Nat := a.start + a.len

/-- A store: the bits of the target get the low bits of the value, other bits keep their value. -/
def Asg.write (a : Asg) (m : Mem) : Mem := fun i => if a.start ≤ i ∧ i < a.start + a.len then a.val.bit (i - a.start) else m i

/-- The assignments in order. -/
def run (as : List Asg) (m : Mem) : Mem := as.foldl (fun m a => a.write m) m

/-- The assignments write consecutive bits, from `p` to `q`. -/
def Contiguous : Nat → List Asg → Nat → Prop
  | p, [], q => p = q
  | p, a :: as, q => a.start = p ∧ Contiguous (p + a.len) as q

/-- `a` lies before `b`: every bit of `a` is below every bit of `b`, even below the unit of `b` if that is another one; only
two fields can share an offset. -/
def Before (a b : Asg) : Prop :=
  a.stop ≤ b.start ∧ a.off ≤ b.off ∧ (a.off = b.off → a.fw ≠ 0 ∧ b.fw ≠ 0) ∧ (a.off < b.off → a.stop ≤ b.off * 8)

/-- Both initialise the same scalar, array element, member or field. -/
def Same (a b : Asg) : Prop := a.off = b.off ∧ a.fo = b.fo ∧ a.fw = b.fw ∧ a.size = b.size

/-- `a` written before `b`: for the same place, or for separate places; fields of one storage unit in order. -/
def Compat (a b : Asg) : Prop := Same a b ∨ Before a b ∨ (Before b a ∧ a.off ≠ b.off)

/-- An assignment to a part of an object of `size` bytes. -/
def Inside (size : Nat) (a : Asg) : Prop := 1 ≤ a.size ∧ (a.fw = 0 → a.fo = 0) ∧ a.off < size ∧ a.stop ≤ size * 8

/-- The value an initialised object must have: the initialisers in the order written, on an object that is all zero
(6.7.8p19, p21). -/
def wanted (vs : List Asg) : Mem := run vs fun _ => false

end Verif.Init
