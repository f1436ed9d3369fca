import Verif.Bytes

/-!
# Completion of initialisers (src/parser/initializer.c 582-946)

The assignments collected from an initialiser are sorted, gaps are filled with zeros, and bit-field assignments to one
storage unit are merged.  An assignment is reduced to its target (offset, field offset, field width, size of the type) and
its value: an integer constant, or something else given by its bits (addresses, strings, floating point values, objects,
values computed at run time).  Failed assertions, and shifts by 64 or more, are `crash`.
-/

namespace Verif.Init

inductive Val
  | imm (v : BitVec 64)
  | data (bits : Nat → Bool)

/-- `struct statement` with `st = IR_ASSIGN`, the parts used here.  `fw = 0`: not a field. -/
structure Asg where
  off : Nat
  fo : Nat := 0
  fw : Nat := 0
  size : Nat
  val : Val

inductive Fail
  | crash
  deriving DecidableEq, Repr

abbrev R := Except Fail

/-- The constant zero of `zero_initialize`, initializer.c:592-638, for scalar types. -/
def zero (off fo fw size : Nat) : Asg := { off := off, fo := fo, fw := fw, size := size, val := .imm 0 }

/-- Number of bytes chosen in `zero_initialize_bytes`, initializer.c:651-672. -/
def chunk (bytes : Nat) : Nat :=
  let size := if bytes % 8 = 0 then 8 else bytes % 8
  if size = 1 ∨ size = 2 ∨ size = 4 ∨ size = 8 then size else 1

/-- `zero_initialize_bytes`, initializer.c:640-679; `bytes` decreases by at least one in every round. -/
def zeroBytes : Nat → Nat → Nat → List Asg
  | 0, _, _ => []
  | fuel + 1, off, bytes =>
    if bytes = 0 then [] else zero off 0 0 (chunk bytes) :: zeroBytes fuel (off + chunk bytes) (bytes - chunk bytes)

/-- The end of `initialize_padding`: both at the same offset, initializer.c:703-722. -/
def fieldPad (off fo nfo : Nat) : R (List Asg) :=
  if nfo < fo then .error .crash
  else if nfo = fo then .ok []
  else if nfo ≥ 64 then .error .crash
  else .ok [zero off fo (nfo - fo) (if nfo > 32 then 8 else if nfo > 16 then 4 else if nfo > 8 then 2 else 1)]

/-- Completing a started unit, initializer.c:725-753: the assignment and the new offset. -/
def closeUnit (off fo noff : Nat) : R (List Asg × Nat) :=
  if fo = 8 ∨ fo = 16 ∨ fo = 32 ∨ fo = 64 then .ok ([], off + fo / 8)
  else if fo = 0 then .ok ([], off)
  else if fo ≥ 64 then .error .crash
  else
    let size := if fo < 32 then 4 else 8
    let over := off + size - noff
    let w := size * 8 - fo
    if over > 0 ∧ ¬ w * 8 > over then .error .crash
    else
      let w := w - over * 8
      if (fo + w) % 8 ≠ 0 then .error .crash
      else .ok ([zero off fo w size], off + (fo + w) / 8)

/-- `initialize_padding`, initializer.c:690-759.  The loop runs once or twice. -/
def padding (off fo noff nfo : Nat) : R (List Asg) :=
  if off > noff ∨ off * 8 + fo > noff * 8 + nfo then .error .crash
  else if off = noff then fieldPad off fo nfo
  else do
    let c ← closeUnit off fo noff
    if c.2 > noff then .error .crash
    else do
      let p ← fieldPad noff 0 nfo
      .ok (c.1 ++ zeroBytes (noff - c.2) c.2 (noff - c.2) ++ p)

/-- `is_constant_assignment`, initializer.c:762-769. -/
def Asg.const? (a : Asg) : Option (BitVec 64) :=
  match a.val with
  | .imm v => some v
  | .data _ => none

/-- Result of `merge_assignments`. -/
inductive Merge
  | no
  | yes (a : Asg)

/-- `merge_assignments`, initializer.c:771-798.  The usual arithmetic conversions give a type of the larger size, at least
that of `int`. -/
def mergeAsg (a b : Asg) : R Merge :=
  match a.const?, b.const? with
  | some va, some vb =>
    if a.off ≠ b.off then .ok .no
    else if a.fw = 0 ∨ b.fw = 0 then .error .crash
    else if a.fw ≥ 64 ∨ b.fw ≥ 64 then .error .crash
    else
      let m1 : BitVec 64 := (1#64 <<< a.fw) - 1#64
      let m2 : BitVec 64 := (1#64 <<< b.fw) - 1#64
      let size := max 4 (max a.size b.size)
      let fw := a.fw + b.fw
      let v := ((va &&& m1) <<< a.fo) ||| ((vb &&& m2) <<< b.fo)
      .ok (.yes { a with size := size, val := .imm v, fw := if a.fo = 0 ∧ fw = size * 8 then 0 else fw })
  | _, _ => .ok .no

/-- The loop of `normalize_field_assignment`, initializer.c:816-826, with `a` the current assignment. -/
def mergeAll : Asg → List Asg → R (List Asg)
  | a, [] => .ok [a]
  | a, b :: bs => do
    match ← mergeAsg a b with
    | .yes c => mergeAll c bs
    | .no => do
      let r ← mergeAll b bs
      .ok (a :: r)

/-- `normalize_field_assignment`, initializer.c:807-827. -/
def normalize : List Asg → R (List Asg)
  | a :: b :: bs => mergeAll a (b :: bs)
  | _ => .error .crash

/-- One round of `sort_and_trim`, initializer.c:876-898: the assignments already sorted, last one first. -/
def insertRev : List Asg → Asg → R (List Asg)
  | [], x => .ok [x]
  | y :: ys, x =>
    if y.off > x.off then do
      let r ← insertRev ys x
      .ok (y :: r)
    else if y.off = x.off ∧ y.fo = x.fo then
      if y.fw = x.fw then .ok (x :: ys) else .error .crash
    else .ok (x :: y :: ys)

/-- `sort_and_trim`, initializer.c:870-900, on the part not yet sorted. -/
def sortFrom : List Asg → List Asg → R (List Asg)
  | rev, [] => .ok rev.reverse
  | rev, x :: xs => do
    let r ← insertRev rev x
    sortFrom r xs

def sortAndTrim (vs : List Asg) : R (List Asg) := sortFrom [] vs

/-- The loop of `postprocess_object_initialization`, initializer.c:922-942, and the final padding. -/
def fill (size : Nat) : Nat → Nat → List Asg → R (List Asg)
  | off, fo, [] => padding off fo size 0
  | off, fo, a :: as => do
    let p ← padding off fo a.off a.fo
    let r ← if a.fw = 0 then fill size (a.off + a.size) a.fo as else fill size a.off (a.fo + a.fw) as
    .ok (p ++ a :: r)

/-- `validate_contiguous_initialization`, initializer.c:835-863: the number of bits. -/
def validate : Option Nat → Nat → List Asg → R Nat
  | _, bits, [] => if bits % 8 = 0 then .ok (bits / 8) else .error .crash
  | prev, bits, a :: as =>
    if a.fw ≠ 0 then
      if ¬ (a.fo = 0 ∨ prev = some a.off) then .error .crash
      else if a.off * 8 + a.fo ≠ bits then .error .crash
      else validate (some a.off) (bits + a.fw) as
    else if a.off * 8 ≠ bits then .error .crash
    else validate (some a.off) (bits + a.size * 8) as

/-- Fields are merged when there are any, initializer.c:934-944. -/
def normalizeIf (vs b : List Asg) : R (List Asg) := if vs.any fun a => a.fw ≠ 0 then normalize b else .ok b

/-- `postprocess_object_initialization`, initializer.c:906-948. -/
def postprocess (size : Nat) (vs : List Asg) : R (List Asg) := do
  let vs ← sortAndTrim vs
  let b ← fill size 0 0 vs
  let b ← normalizeIf vs b
  let n ← validate none 0 b
  if n = size then .ok b else .error .crash

end Verif.Init
