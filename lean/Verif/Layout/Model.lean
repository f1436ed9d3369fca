import Verif.Bytes
/-!
# Layout of structs, unions and arrays (src/parser/typetree.c)

A member type is represented by what the layout code asks about it: `size_of` (1146-1176),
`type_alignment` (580-600), `is_array`, `is_flexible` and `is_bool`.  `size_t` arithmetic is modulo 2^64;
`short` members (`field_width`, `field_offset`, `field_backing`) are natural numbers.
A diagnosed error ends the compiler (`exit(1)`); a failed `assert` or a division by zero is a
separate outcome.
-/
namespace Verif.Layout

/-- `LONG_MAX`. -/
def longMax : Nat := 2 ^ 63 - 1

/-- What layout code asks about a type. -/
structure MTy where
  size : Nat
  align : Nat
  isArray : Bool := false
  isFlexible : Bool := false
  isBool : Bool := false
  deriving DecidableEq, Repr

/-- `struct member` (include/lacc/type.h 125-133) without the symbol. -/
structure Member where
  name : Bytes
  ty : MTy
  offset : Nat
  width : Nat := 0
  fieldOffset : Nat := 0
  backing : Nat := 0
  deriving DecidableEq, Repr

/-- A struct or union under construction (`struct typetree`, 33-81): kind, size, members, flexible. -/
structure Agg where
  isUnion : Bool
  size : Nat := 0
  members : List Member := []
  flexible : Bool := false
  deriving DecidableEq, Repr

inductive Fail
  | diagnosed
  | crash
  deriving DecidableEq, Repr

abbrev R := Except Fail

/-- add_member (204-254) for structs and unions. -/
def addMember (a : Agg) (m : Member) : R Agg :=
  if m.name ≠ [] ∧ (a.members.any fun x => x.name == m.name) then .error .diagnosed
  else if m.ty.size = 0 ∧ ¬ (m.ty.isArray ∧ ¬ a.flexible) then .error .diagnosed
  else if m.ty.isFlexible ∧ ¬ a.isUnion then .error .diagnosed
  else if (longMax + 2 ^ 64 - m.offset) % 2 ^ 64 < m.ty.size then .error .diagnosed
  else .ok { a with
    members := a.members ++ [m]
    flexible := a.flexible || m.ty.size == 0 || m.ty.isFlexible
    size := if a.size < (m.offset + m.ty.size) % 2 ^ 64 then (m.offset + m.ty.size) % 2 ^ 64 else a.size }

/-- The loop in adjust_member_alignment (352-359) on the members in reverse order. -/
def shrink (offset bits : Nat) : List Member → List Member
  | [] => []
  | m :: ms => if m.offset = offset then { m with backing := m.backing - bits } :: shrink offset bits ms
    else m :: ms

/-- First part of adjust_member_alignment (342-362): give back unused bytes of the last field. -/
def release (a : Agg) : R Agg :=
  match a.members.getLast? with
  | none => .ok a
  | some m =>
    if m.backing = 0 then .ok a
    else if m.backing < m.fieldOffset + m.width then .error .crash
    else
      let bytes := (m.backing - (m.fieldOffset + m.width)) / 8
      if bytes = 0 then .ok a
      else if a.size < bytes then .error .crash
      else .ok { a with size := a.size - bytes
                        members := (shrink m.offset (bytes * 8) a.members.reverse).reverse }

/-- `if (size % align) size += align - size % align`. -/
def alignTo (size align : Nat) : Nat :=
  if size % align ≠ 0 then (size + (align - size % align)) % 2 ^ 64 else size

/-- adjust_member_alignment (333-371). Alignment zero is a division by zero. -/
def adjust (a : Agg) (ty : MTy) : R (Agg × Nat) :=
  if a.isUnion then .ok (a, 0)
  else do
    let a ← release a
    if ty.align = 0 then .error .crash
    else
      let size := alignTo a.size ty.align
      pure ({ a with size := size }, size)

/-- type_add_member (618-631) for structs and unions. -/
def typeAddMember (a : Agg) (name : Bytes) (ty : MTy) : R Agg := do
  let (a, offset) ← adjust a ty
  addMember a { name := name, ty := ty, offset := offset }

/-- The loop in pack_field_member (678-683) on the members in reverse order. -/
def widen (offset backing : Nat) : List Member → List Member
  | [] => []
  | m :: ms => if m.width ≠ 0 ∧ m.offset = offset then { m with backing := backing } :: widen offset backing ms
    else m :: ms

/-- pack_field_member (649-690). -/
def pack (a : Agg) (f : Member) : Option (Agg × Member) :=
  match a.members.getLast? with
  | none => none
  | some last =>
    if last.width = 0 then none
    else
      let bits := last.fieldOffset + last.width + f.width
      if bits ≤ last.backing then
        some (a, { f with offset := last.offset, fieldOffset := last.fieldOffset + last.width
                          backing := last.backing })
      else if bits ≤ f.backing then
        some ({ a with members := (widen last.offset f.backing a.members.reverse).reverse },
          { f with offset := last.offset, fieldOffset := last.fieldOffset + last.width })
      else none

/-- backing_type_from_bits (256-269). -/
def backingType : Nat → R MTy
  | 8 => .ok { size := 1, align := 1 }
  | 16 => .ok { size := 2, align := 2 }
  | 32 => .ok { size := 4, align := 4 }
  | 64 => .ok { size := 8, align := 8 }
  | _ => .error .crash

mutual
/-- type_add_field (698-738). The first argument bounds the mutual recursion with
reset_field_alignment; three is enough. -/
def typeAddField : Nat → Agg → Bytes → MTy → Nat → R Agg
  | 0, _, _, _, _ => .error .crash
  | n + 1, a, name, ty, width =>
    if width > ty.size * 8 ∨ (ty.isBool ∧ width > 1) then .error .diagnosed
    else if name ≠ [] ∧ width = 0 then .error .diagnosed
    else if a.isUnion ∧ name = [] then .ok a
    else
      let m : Member := { name := name, ty := ty, offset := 0, width := width, backing := ty.size * 8 }
      let placed : R (Agg × Member) :=
        if a.isUnion then .ok (a, m)
        else match pack a m with
          | some r => .ok r
          | none => match adjust a ty with
            | .ok (a, offset) => .ok (a, { m with offset := offset, fieldOffset := 0 })
            | .error e => .error e
      match placed with
      | .error e => .error e
      | .ok (a, m) => if width = 0 then resetField n a ty else addMember a m

/-- reset_field_alignment (282-325). -/
def resetField : Nat → Agg → MTy → R Agg
  | 0, _, _ => .error .crash
  | n + 1, a, clear =>
    match a.members.getLast? with
    | none => .ok a
    | some m =>
      let clearBits := clear.size * 8
      let padded : R Agg :=
        if m.width ≠ 0 then
          let bits := m.fieldOffset + m.width
          match backingType m.backing with
          | .error e => .error e
          | .ok backing =>
            if clearBits ≥ m.backing then
              if bits > m.backing then .error .crash
              else if bits ≠ m.backing then typeAddField n a [] backing (m.backing - bits) else .ok a
            else if bits > clearBits then
              if bits % clearBits ≠ 0 then typeAddField n a [] backing (bits % clearBits) else .ok a
            else typeAddField n a [] backing (clearBits - bits)
        else .ok a
      match padded with
      | .error e => .error e
      | .ok a =>
        if a.size < clear.size then .ok { a with size := clear.size }
        else if a.size % clear.size ≠ 0 then .ok { a with size := (a.size + a.size % clear.size) % 2 ^ 64 }
        else .ok a
end

/-- type_add_anonymous_member (740-768), with the members of the anonymous type. -/
def addAnonymous (parent inner : Agg) (innerTy : MTy) : R Agg :=
  if ¬ parent.isUnion ∧ inner.isUnion then do
    let (p, offset) ← adjust parent innerTy
    inner.members.foldlM (fun p m => addMember p { m with offset := (m.offset + offset) % 2 ^ 64 }) p
  else if parent.isUnion ∧ ¬ inner.isUnion then
    inner.members.foldlM (fun p m => addMember p m) parent
  else
    inner.members.foldlM (fun p m => typeAddMember p m.name m.ty) parent

/-- type_alignment (580-600) of a struct or union: largest member alignment. -/
def maxAlign : List Member → Nat
  | [] => 0
  | m :: ms => max m.ty.align (maxAlign ms)

/-- remove_anonymous_fields (774-794) and type_seal (803-826). -/
def typeSeal (a : Agg) : R Agg :=
  let ms := a.members.filter fun m => m.name ≠ []
  if maxAlign ms = 0 then .error .diagnosed
  else .ok { a with members := ms, size := alignTo a.size (maxAlign ms) }

/-- A finished struct or union as a member type. -/
def Agg.ty (a : Agg) : MTy :=
  { size := a.size, align := maxAlign a.members, isFlexible := a.flexible }

/-- type_create_array (408-423) together with `size_of` of the result (1168-1170). -/
def createArray (elem : MTy) (count : Nat) : R MTy :=
  if (count * elem.size) % 2 ^ 64 > longMax then .error .diagnosed
  else .ok { size := (count * elem.size) % 2 ^ 64, align := elem.align, isArray := true }

/-- Declarations in a member list: member_declaration_list (declaration.c 426-471). -/
inductive Decl
  | member (name : Bytes) (ty : MTy)
  | field (name : Bytes) (ty : MTy) (width : Nat)
  | anon (inner : Agg)
  deriving DecidableEq, Repr

/-- One declaration. -/
def addDecl (a : Agg) : Decl → R Agg
  | .member name ty => typeAddMember a name ty
  | .field name ty width => typeAddField 4 a name ty width
  | .anon inner => addAnonymous a inner inner.ty

/-- The declarations, without the final type_seal. -/
def addDecls (a : Agg) (ds : List Decl) : R Agg := ds.foldlM addDecl a

/-- A complete member list. -/
def layout (isUnion : Bool) (ds : List Decl) : R Agg := do
  let a ← addDecls { isUnion := isUnion } ds
  typeSeal a

end Verif.Layout
