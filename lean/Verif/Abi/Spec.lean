import Verif.Abi.Model

/-!
# The System V ABI, section 3.2.3

Classification of objects into eightbytes, from the text of the ABI (AMD64 Architecture
Processor Supplement, "Parameter Passing").  Only `Ty` and `Cls`, which are data, are
shared with the model.
-/

namespace Verif.Abi.SysV

open Abi (Ty Mems Cls)

mutual
  /-- The basic objects a type consists of, with their offsets, in order. -/
  def leaves : Ty → Nat → List (Nat × Ty)
    | .array n t, o => (List.range n).flatMap fun i => leaves t (i * t.size + o)
    | .agg _ _ _ ms, o => leavesOf ms o
    | t, o => [(o, t)]
  def leavesOf : Mems → Nat → List (Nat × Ty)
    | .nil, _ => []
    | .cons p t ms, o => leaves t (p + o) ++ leavesOf ms o
end

/-- "The classes of the basic types": what an object at an offset makes of eightbyte `k`.
INTEGER for integers, booleans and pointers, SSE for float and double; the mantissa of a
long double is X87 and the rest X87UP. -/
def contribution (k : Nat) : Nat × Ty → Option Cls
  | (o, .bool) | (o, .int _ _) | (o, .ptr) => if o / 8 = k then some .integer else none
  | (o, .float) | (o, .double) => if o / 8 = k then some .sse else none
  | (o, .ldouble) => if o / 8 = k then some .x87 else if o / 8 + 1 = k then some .x87up else none
  | _ => none

/-- Rule 4 of "aggregate types": two fields in the same eightbyte. -/
def mergeTwo : Cls → Cls → Cls
  -- (a) If both classes are equal, this is the resulting class.
  -- (b) If one of the classes is NO_CLASS, the resulting class is the other class.
  | .no, c => c
  | c, .no => c
  -- (c) If one of the classes is MEMORY, the result is the MEMORY class.
  | .memory, _ => .memory
  | _, .memory => .memory
  -- (d) If one of the classes is INTEGER, the result is the INTEGER.
  | .integer, _ => .integer
  | _, .integer => .integer
  -- (e) If one of the classes is X87, X87UP, COMPLEX_X87 class, MEMORY is used as class.
  | .x87, .x87 => .x87
  | .x87, _ => .memory
  | _, .x87 => .memory
  | .x87up, .x87up => .x87up
  | .x87up, _ => .memory
  | _, .x87up => .memory
  -- (f) Otherwise class SSE is used.
  | .sseup, .sseup => .sseup
  | _, _ => .sse

/-- Class of eightbyte `k` before the clean-up. -/
def eightbyte (t : Ty) (k : Nat) : Cls :=
  ((leaves t 0).filterMap (contribution k)).foldl mergeTwo .no

/-- How an object is passed: in memory, or by eightbytes of the given classes. -/
inductive Passing
  | memory
  | eightbytes (cs : List Cls)
  deriving DecidableEq, Repr

/-- Natural alignment of a basic type. -/
def natural : Ty → Nat
  | .bool => 1
  | .int n _ => n
  | .ptr => 8
  | .float => 4
  | .double => 8
  | .ldouble => 16
  | _ => 1

/-- The number of eightbytes of an object. -/
def count (t : Ty) : Nat := (t.size + 7) / 8

/-- Objects of variable size: a structure with a flexible array member. -/
def variablySized : Ty → Bool
  | .agg _ _ f _ => f
  | _ => false

/-- The classification.  Rule 1: "If the size of an object is larger than four eightbytes,
or it contains unaligned fields, it has class MEMORY."  Rule 5, the post merger clean-up:
(a) one eightbyte MEMORY: all; (b) X87UP not preceded by X87: all in memory; (c) the size
exceeds two eightbytes and the first one is not SSE or any other is not SSEUP: memory. -/
def passing (t : Ty) : Passing :=
  let cs := (List.range (count t)).map (eightbyte t)
  if variablySized t ∨ count t > 4 ∨ (leaves t 0).any (fun p => p.1 % natural p.2 ≠ 0) then .memory
  else if .memory ∈ cs then .memory
  else if (List.range (count t)).any (fun k => eightbyte t k = .x87up ∧ ¬ (k ≠ 0 ∧ eightbyte t (k - 1) = .x87)) then .memory
  else if count t > 2 ∧ ¬ (eightbyte t 0 = .sse ∧ ∀ k ∈ List.range (count t), k ≠ 0 → eightbyte t k = .sseup) then .memory
  else .eightbytes cs

mutual
  /-- Types a C implementation lays out: members are inside of the object and aligned, and
  an array has elements at multiples of their alignment. -/
  def laidOut : Ty → Bool
    | .int n _ => n == 1 || n == 2 || n == 4 || n == 8
    | .array n t => decide (0 < n) && laidOut t && t.size % t.align == 0
    | .agg n a _ ms => decide (0 < n) && decide (0 < a) && laidOutIn n a ms
    | _ => true
  def laidOutIn (n a : Nat) : Mems → Bool
    | .nil => true
    | .cons o t ms => decide (o + t.size ≤ n) && a % t.align == 0 && o % t.align == 0 && laidOut t &&
        laidOutIn n a ms
end

mutual
  /-- No `_Bool` inside. -/
  def boolFree : Ty → Bool
    | .bool => false
    | .array _ t => boolFree t
    | .agg _ _ _ ms => boolFreeIn ms
    | _ => true
  def boolFreeIn : Mems → Bool
    | .nil => true
    | .cons _ t ms => boolFree t && boolFreeIn ms
end

/-- Each direct member starts at a multiple of its own size. -/
def sizeAligned : Mems → Bool
  | .nil => true
  | .cons o t ms => o % t.size == 0 && sizeAligned ms

/-- A classification as the code represents it says what the ABI says. -/
def Agrees (pc : List Cls) : Passing → Prop
  | .memory => pc.head? = some .memory
  | .eightbytes cs => pc = cs ++ List.replicate (4 - cs.length) .no

instance (pc : List Cls) (p : Passing) : Decidable (Agrees pc p) := by
  cases p <;> simp only [Agrees] <;> infer_instance

end Verif.Abi.SysV

/-!
## Where arguments go

Section 3.2.3, "Passing".
-/

namespace Verif.Abi.SysV

open Abi (Ty Cls)

/-- `%rdi`, `%rsi`, `%rdx`, `%rcx`, `%r8`, `%r9`. -/
def general : List Nat := [8, 7, 3, 2, 9, 10]
/-- `%xmm0` to `%xmm7`. -/
def vector : List Nat := [17, 18, 19, 20, 21, 22, 23, 24]

/-- A register for each eightbyte, or a place on the stack, at an offset from where the
arguments on the stack begin. -/
inductive Loc
  | regs (rs : List Nat)
  | stack (offset : Nat)
  deriving DecidableEq, Repr

/-- "If the class is INTEGER, the next available register of the sequence %rdi, %rsi, %rdx,
%rcx, %r8 and %r9 is used.  If the class is SSE, the next available vector register is
used."  "If there are no registers available for any eightbyte of an argument, the whole
argument is passed on the stack."  The result is the registers, and those which are left. -/
def assign : List Cls → List Nat → List Nat → Option (List Nat × List Nat × List Nat)
  | [], g, v => some ([], g, v)
  | .integer :: cs, r :: g, v => (assign cs g v).map fun (rs, g, v) => (r :: rs, g, v)
  | .sse :: cs, g, r :: v => (assign cs g v).map fun (rs, g, v) => (r :: rs, g, v)
  | _, _, _ => none

/-- The smallest multiple of `a` from `n` on. -/
def roundUp (n a : Nat) : Nat := (n + a - 1) / a * a

/-- Locations of the arguments, of which those on the stack begin at `off`.  "The size of
each argument gets rounded up to eightbytes"; an argument is at a multiple of its own
alignment. -/
def locate : List Ty → List Nat → List Nat → Nat → List Loc
  | [], _, _, _ => []
  | t :: ts, g, v, off =>
    let here := roundUp off (max 8 t.align)
    let onStack := .stack here :: locate ts g v (here + roundUp t.size 8)
    match passing t with
    | .memory => onStack
    | .eightbytes cs =>
      match assign cs g v with
      | some (rs, g', v') => .regs rs :: locate ts g' v' off
      | none => onStack

/-- Locations of arguments of a call.  If the result is of class MEMORY, its address is
passed in `%rdi` "as if it were the first argument". -/
def locations (ts : List Ty) (resultInMemory : Bool) : List Loc :=
  locate ts (if resultInMemory then general.tail else general) vector 0

end Verif.Abi.SysV
