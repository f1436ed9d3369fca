import Verif.Cond.Model
/-!
# Specification: C99 6.10.1 conditional groups as a tree
-/
namespace Verif.Cond.Spec

mutual
/-- A text line or a conditional. -/
inductive Item where
  | text (n : Nat)
  | cond (c : Option Bool) (body : Items) (tail : Tail)
inductive Items where
  | nil
  | cons (i : Item) (is : Items)
/-- What follows the first group. -/
inductive Tail where
  | endif
  | els (body : Items)
  | elif (c : Option Bool) (body : Items) (rest : Tail)
end

mutual
/-- The lines of an item in source order. -/
def Item.lines : Item → List Line
  | .text n => [.text n]
  | .cond c body tail => .if_ c :: (body.lines ++ tail.lines)
def Items.lines : Items → List Line
  | .nil => []
  | .cons i is => i.lines ++ is.lines
def Tail.lines : Tail → List Line
  | .endif => [.endif]
  | .els body => .else_ :: (body.lines ++ [.endif])
  | .elif c body rest => .elif c :: (body.lines ++ rest.lines)
end

mutual
/-- Text lines kept; `none` when a condition that has to be evaluated can not be. -/
def Item.keep : Item → Option (List Nat)
  | .text n => some [n]
  | .cond c body tail =>
    match c with
    | none => none
    | some true => body.keep
    | some false => tail.keep
def Items.keep : Items → Option (List Nat)
  | .nil => some []
  | .cons i is => match i.keep with
    | none => none
    | some a => match is.keep with
      | none => none
      | some b => some (a ++ b)
/-- Kept lines of the remaining groups when no earlier group was taken. -/
def Tail.keep : Tail → Option (List Nat)
  | .endif => some []
  | .els body => body.keep
  | .elif c body rest =>
    match c with
    | none => none
    | some true => body.keep
    | some false => rest.keep
end

end Verif.Cond.Spec
