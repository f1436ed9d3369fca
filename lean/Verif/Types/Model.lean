import Verif.Bytes

/-!
# Type representation and comparison (src/parser/typetree.c, include/lacc/type.h)

A `Type` is a 32-bit value with a kind, flags, one folded level of pointer and a reference to an entry of a global
growing table of `struct typetree`.  The table is the parameter `H`.  Outcomes of the comparison functions:
`.error .crash` for a failed assertion or an invalid reference, `.error .more` when the recursion needs more fuel.
Not modelled: tags and VLA length symbols (not read by these functions), `fprinttype`.
-/

namespace Verif.Types

/-- `enum type`, type.h:12-27. -/
inductive Kind
  | void | bool | char | short | int | long | float | double | ldouble | pointer | function | array | struct | union
  deriving DecidableEq, Repr

/-- The three qualifier bits. -/
structure Quals where
  const : Bool := false
  volatile : Bool := false
  restrict : Bool := false
  deriving DecidableEq, Repr

/-- `Type`, type.h:43-54: `q` are is_const, is_volatile, is_restrict; `pq` the is_pointer_ variants. -/
structure Ty where
  kind : Kind
  uns : Bool := false
  q : Quals := {}
  isPtr : Bool := false
  pq : Quals := {}
  ref : Int := 0
  deriving DecidableEq, Repr

/-- `struct member`, type.h:125-133, the fields read here. -/
structure Member where
  name : Bytes
  ty : Ty
  offset : Nat := 0
  deriving DecidableEq, Repr

/-- `struct typetree`, typetree.c:37-81. -/
structure Tree where
  kind : Kind
  uns : Bool := false
  q : Quals := {}
  vararg : Bool := false
  flexible : Bool := false
  vla : Bool := false
  incomplete : Bool := false
  size : Nat := 0
  members : List Member := []
  next : Ty := { kind := .void }
  deriving DecidableEq, Repr

/-- The table `types`, typetree.c:87. -/
abbrev Heap := List Tree

/-- Why a function does not return. -/
inductive Stop | crash | more
  deriving DecidableEq, Repr

abbrev R := Except Stop

/-- `type_of`, type.h:57. -/
def Ty.of (t : Ty) : Kind := if t.isPtr then .pointer else t.kind

/-- `is_const`, `is_volatile`, `is_restrict`, type.h:80-84. -/
def Ty.quals (t : Ty) : Quals := if t.isPtr then t.pq else t.q

/-- `get_typetree_handle`, typetree.c:89-95. -/
def handle (H : Heap) (ref : Int) : R Tree :=
  if 0 < ref then
    match H[(ref - 1).toNat]? with
    | some t => .ok t
    | none => .error .crash
  else .error .crash

/-- `get_type_handle`, typetree.c:97-133. -/
def typeHandle (H : Heap) (ref : Int) : R Ty := do
  let t ← handle H ref
  if t.kind = .pointer then
    if t.next.isPtr then .error .crash
    else .ok { t.next with isPtr := true, pq := t.q }
  else if t.kind = .function ∨ t.kind = .array ∨ t.kind = .struct ∨ t.kind = .union then
    .ok { kind := t.kind, uns := t.uns, q := t.q, ref := ref }
  else .ok { kind := t.kind, uns := t.uns, q := t.q }

/-- Conversion of an `int` to the 16-bit member `ref`, type.h:53. -/
def short (n : Nat) : Int := (BitVec.ofNat 16 n).toInt

/-- `type_create`, typetree.c:135-145, with the assignments its callers make to the new entry. -/
def create (H : Heap) (t : Tree) : Heap × Ty :=
  (H ++ [t], { kind := t.kind, ref := short (H.length + 1) })

/-- `type_unqualified`, typetree.c:181-194. -/
def Ty.unqualified (t : Ty) : Ty := if t.isPtr then { t with pq := {} } else { t with q := {} }

/-- `type_create_pointer`, typetree.c:374-392.  The restrict flag of `next` is not stored. -/
def createPointer (H : Heap) (next : Ty) : Heap × Ty :=
  if next.isPtr then
    create H { kind := .pointer, q := { const := next.quals.const, volatile := next.quals.volatile },
               next := { next.unqualified with isPtr := false } }
  else (H, { next with isPtr := true })

/-- `type_create_function`, typetree.c:394-404. -/
def createFunction (H : Heap) (next : Ty) : Heap × Ty := create H { kind := .function, next := next, incomplete := true }

/-- `type_create_array`, typetree.c:406-422, without the size check (see `Verif.Layout.createArray`). -/
def createArray (H : Heap) (next : Ty) (count : Nat) : Heap × Ty := create H { kind := .array, size := count, next := next }

/-- `type_create_incomplete`, typetree.c:424-434. -/
def createIncomplete (H : Heap) (next : Ty) : Heap × Ty := create H { kind := .array, next := next, incomplete := true }

/-- `type_set_const`, `type_set_volatile`, `type_set_restrict` applied by `type_apply_qualifiers`, typetree.c:449-499:
`other`'s qualifiers are added.  (`restrict` on a non-pointer is an error, not modelled here.) -/
def Ty.addQuals (t : Ty) (o : Quals) : Ty :=
  let f (q : Quals) : Quals := ⟨q.const || o.const, q.volatile || o.volatile, q.restrict || o.restrict⟩
  if t.isPtr then { t with pq := f t.pq } else { t with q := f t.q }

/-- `type_deref`, typetree.c:1197-1209. -/
def deref (H : Heap) (t : Ty) : R Ty :=
  if t.isPtr then .ok { t.unqualified with isPtr := false }
  else if t.kind = .pointer then typeHandle H t.ref
  else .error .crash

/-- `type_next`, typetree.c:1211-1222. -/
def next (H : Heap) (t : Ty) : R Ty :=
  if t.of = .pointer then deref H t
  else if t.of = .function ∨ t.of = .array then do
    let n ← handle H t.ref
    .ok n.next
  else .error .crash

/-- `size_of`, typetree.c:1146-1178, for the types it handles without a table. -/
def scalarSize (t : Ty) : Nat :=
  match t.of with
  | .bool | .char => 1
  | .short => 2
  | .int | .float => 4
  | .long | .double | .pointer => 8
  | .ldouble => 16
  | _ => 0

/-- `is_unsigned`, type.h:68. -/
def Ty.isUnsigned (t : Ty) : Bool := (!t.isPtr && t.uns) || t.of == .bool

/-- `is_integer`, type.h:66. -/
def Ty.isInteger (t : Ty) : Bool :=
  match t.of with
  | .bool | .char | .short | .int | .long => true
  | _ => false

/-- `is_arithmetic`, type.h:75. -/
def Ty.isArithmetic (t : Ty) : Bool :=
  match t.of with
  | .bool | .char | .short | .int | .long | .float | .double | .ldouble => true
  | _ => false

/-- `promote_integer`, typetree.c:1032-1040. -/
def promoteInteger (t : Ty) : R Ty :=
  if t.isInteger then
    .ok (if scalarSize t < 4 then { kind := .int } else t)
  else .error .crash

/-- `default_argument_promotion`, typetree.c:1042-1053. -/
def defaultPromotion (t : Ty) : R Ty :=
  if t.of = .float then .ok { kind := .double }
  else if t.isInteger then promoteInteger t
  else .ok t

/-- `usual_arithmetic_conversion`, typetree.c:1055-1080. -/
def usualConversion (t1 t2 : Ty) : R Ty :=
  if t1.isArithmetic && t2.isArithmetic then
    if t1.of = .ldouble ∨ t2.of = .ldouble then .ok { kind := .ldouble }
    else if t1.of = .double ∨ t2.of = .double then .ok { kind := .double }
    else if t1.of = .float ∨ t2.of = .float then .ok { kind := .float }
    else do
      let p1 ← promoteInteger t1
      let p2 ← promoteInteger t2
      .ok (if scalarSize p1 > scalarSize p2 then p1
        else if scalarSize p2 > scalarSize p1 then p2
        else if p1.isUnsigned then p1 else p2).unqualified
  else .error .crash

/-- The members loop of `typetree_equal`, typetree.c:912-923: the comparison of member types is a parameter. -/
def membersEqual (eq : Ty → Ty → R Bool) (function : Bool) : List Member → List Member → R Bool
  | [], [] => .ok true
  | a :: as, b :: bs => do
    if ← eq a.ty b.ty then
      if function then membersEqual eq function as bs
      else if a.offset = b.offset then
        if a.name = b.name then membersEqual eq function as bs else .ok false
      else .error .crash
    else .ok false
  | _, _ => .ok false

/-- The test at typetree.c:889-907. -/
def Tree.differ (a b : Tree) : Bool :=
  decide (a.kind ≠ b.kind ∨ a.size ≠ b.size ∨ a.q ≠ b.q ∨ a.uns ≠ b.uns ∨ a.vararg ≠ b.vararg ∨ a.flexible ≠ b.flexible ∨
    a.vla ≠ b.vla ∨ a.incomplete ≠ b.incomplete ∨ a.members.length ≠ b.members.length)

/-- The flags compared at typetree.c:981-988. -/
def Ty.sameFlags (a b : Ty) : Bool :=
  decide (a.kind = b.kind ∧ a.uns = b.uns ∧ a.q = b.q ∧ a.isPtr = b.isPtr ∧ a.pq = b.pq)

/-- `type_equal`, typetree.c:971-998, with `typetree_equal`, 884-926. -/
def typeEqual (H : Heap) : Nat → Ty → Ty → R Bool
  | 0, _, _ => .error .more
  | fuel + 1, a, b =>
    if !a.sameFlags b then .ok false
    else if a.ref = b.ref then .ok true
    else if a.ref = 0 ∨ b.ref = 0 then .ok false
    else do
      let ta ← handle H a.ref
      let tb ← handle H b.ref
      if ta.differ tb then .ok false
      else if ← typeEqual H fuel ta.next tb.next then
        membersEqual (typeEqual H fuel) (ta.kind == .function) ta.members tb.members
      else .ok false

/-- The parameter loop of `is_compatible`, typetree.c:1124-1130. -/
def paramsCompatible (cmp : Ty → Ty → R Bool) : List Member → List Member → R Bool
  | [], [] => .ok true
  | a :: as, b :: bs => do
    if ← cmp a.ty.unqualified b.ty.unqualified then paramsCompatible cmp as bs else .ok false
  | _, _ => .ok false

/-- `is_compatible`, typetree.c:1082-1137, and `is_compatible_unqualified`, 1139-1144. -/
def isCompatible (H : Heap) : Nat → Ty → Ty → R Bool
  | 0, _, _ => .error .more
  | fuel + 1, l, r =>
    if l.of ≠ r.of ∨ l.quals ≠ r.quals then .ok false
    else match l.of with
    | .bool | .char | .short | .int | .long | .float | .double | .ldouble => .ok true
    | .pointer => do
      let l' ← next H l
      let r' ← next H r
      isCompatible H fuel l' r'
    | .array => do
      let tl ← handle H l.ref
      let tr ← handle H r.ref
      if tl.size = 0 ∨ tr.size = 0 ∨ tl.size = tr.size then isCompatible H fuel tl.next tr.next else .ok false
    | .function => do
      let tl ← handle H l.ref
      let tr ← handle H r.ref
      if ← typeEqual H fuel tl.next tr.next then
        if tl.incomplete ∨ tr.incomplete then .ok true
        else if tl.members.length ≠ tr.members.length then .ok false
        else paramsCompatible (isCompatible H fuel) tl.members tr.members
      else .ok false
    | _ => typeEqual H fuel l r

end Verif.Types
