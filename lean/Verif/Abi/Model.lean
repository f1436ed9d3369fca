import Verif.Tac

/-!
# Classification of types for passing arguments

Transcription of `src/backend/x86_64/abi.c`.

Types are what the functions ask about: the basic types, arrays, and structures and
unions with their size, alignment and members at offsets.  Members of a union have offset
zero.  A bit-field is a member of its declared type at the offset of its storage unit.
`none` is a failing assertion, or an access outside of the array of four classes.
-/

namespace Verif.Abi

mutual
  /-- A type of an object. -/
  inductive Ty
    | bool
    | int (size : Nat) (signed : Bool)
    | ptr
    | float
    | double
    | ldouble
    | array (n : Nat) (elem : Ty)
    | agg (size align : Nat) (flexible : Bool) (members : Mems)
  /-- Members, each with its offset. -/
  inductive Mems
    | nil
    | cons (offset : Nat) (t : Ty) (rest : Mems)
end

/-- `size_of`, src/parser/typetree.c:1146-1176. -/
def Ty.size : Ty → Nat
  | .bool => 1
  | .int n _ => n
  | .ptr => 8
  | .float => 4
  | .double => 8
  | .ldouble => 16
  | .array n t => n * t.size
  | .agg n _ _ _ => n

/-- `type_alignment`, src/parser/typetree.c:580-600. -/
def Ty.align : Ty → Nat
  | .bool => 1
  | .int n _ => n
  | .ptr => 8
  | .float => 4
  | .double => 8
  | .ldouble => 16
  | .array _ t => t.align
  | .agg _ a _ _ => a

/-- `PC_*`, src/backend/x86_64/abi.h. -/
inductive Cls
  | no | integer | sse | sseup | x87 | x87up | memory
  deriving DecidableEq, Repr

/-- `struct param_class`: four classes. -/
abbrev PC := List Cls

def noClass : PC := [.no, .no, .no, .no]

/-- `EIGHTBYTES`, src/backend/x86_64/abi.h. -/
def eightbytes (t : Ty) : Nat := (t.size + 7) / 8

/-- src/backend/x86_64/abi.c:11-26, `has_unaligned_fields`; the size of a member must not
be zero. -/
def hasUnalignedFields : Mems → Option Bool
  | .nil => some false
  | .cons o t ms =>
    if t.size = 0 then none
    else if o % t.size ≠ 0 then some true
    else hasUnalignedFields ms

/-- src/backend/x86_64/abi.c:28-38, `combine`. -/
def combine (a b : Cls) : Cls :=
  if a = b then a
  else if a = .no then b
  else if b = .no then a
  else if a = .memory ∨ b = .memory then .memory
  else if a = .integer ∨ b = .integer then .integer
  else if a = .x87 ∨ b = .x87 then .memory
  else if a = .x87up ∨ b = .x87up then .memory
  else .sse

/-- `pc.eightbyte[i] = combine(pc.eightbyte[i], c)`. -/
def put (pc : PC) (i : Nat) (c : Cls) : Option PC :=
  if i < pc.length then some (pc.modify i (combine · c)) else none

mutual
  /-- src/backend/x86_64/abi.c:40-84, `flatten`.  There is no case for `T_BOOL`. -/
  def flatten (pc : PC) : Ty → Nat → Option PC
    | .bool, _ => none
    | .int _ _, o => put pc (o / 8) .integer
    | .ptr, o => put pc (o / 8) .integer
    | .float, o => put pc (o / 8) .sse
    | .double, o => put pc (o / 8) .sse
    | .ldouble, o => do
      let pc ← put pc (o / 8) .x87
      if o / 8 < 3 then put pc (o / 8 + 1) .x87up else some pc
    | .array n t, o => (List.range n).foldlM (fun pc i => flatten pc t (i * t.size + o)) pc
    | .agg _ _ _ ms, o => flattenMems pc ms o
  def flattenMems (pc : PC) : Mems → Nat → Option PC
    | .nil, _ => some pc
    | .cons o t ms, off => do
      let pc ← flatten pc t (o + off)
      flattenMems pc ms off
end

/-- The loop in `merge`: whether an eightbyte forces the object into memory. -/
def forced (pc : PC) (i : Nat) : Bool :=
  match pc.getD i .no with
  | .x87up => !(i != 0 && pc.getD (i - 1) .no == .x87)
  | .memory => true
  | _ => false

/-- src/backend/x86_64/abi.c:86-111, `merge`. -/
def merge (pc : PC) (n : Nat) : PC :=
  let memory := (List.range n).any (forced pc)
  let sseup := (List.range n).any fun i => pc.getD i .no == .sseup
  if memory || (decide (n > 2) && (pc.getD 0 .no != .sse || !sseup)) then pc.set 0 .memory else pc

/-- src/backend/x86_64/abi.c:113-137, `classify`, for types other than void and functions. -/
def classify (t : Ty) : Option PC :=
  match t with
  | .bool | .int _ _ | .ptr => some (noClass.set 0 .integer)
  | .float | .double => some (noClass.set 0 .sse)
  | .ldouble => some ((noClass.set 0 .x87).set 1 .x87up)
  | .array _ _ => some (noClass.set 0 .memory)
  | .agg n _ flexible ms =>
    if (n + 7) / 8 ≤ 4 ∧ flexible = false then do
      let u ← hasUnalignedFields ms
      if u then some (noClass.set 0 .memory)
      else do
        let pc ← flatten noClass t 0
        some (merge pc (eightbytes t))
    else some (noClass.set 0 .memory)

end Verif.Abi
