import Verif.Macro.Model
/-!
# Specification: replacement of object-like macros (C99 6.10.3.4)

`Exp T S l out`: with definitions `T`, and while the macros in `S` are being replaced, the token
sequence `l` becomes `out`.  Only token lists and definitions are used, nothing of the expander.
-/
namespace Verif.Macro.Spec
open Verif.Macro

/-- Give the first token the spacing of the macro name. -/
def spacedAs (t : Tok) : List Tok → List Tok
  | [] => []
  | x :: r => { x with ws := t.ws } :: r

/-- Token that is no macro name, or one that must not be replaced any more. -/
def Inert (T : Nat → Option (List Tok)) (t : Tok) : Prop :=
  t.expandable = false ∨ t.disabled = true ∨ T t.id = none

inductive Exp (T : Nat → Option (List Tok)) : List Nat → List Tok → List Tok → Prop
  | nil {S} : Exp T S [] []
  | keep {S t l out} : Inert T t → Exp T S l out → Exp T S (t :: l) (t :: out)
  | /-- a name met during its own replacement is marked and kept -/
    paint {S t l out} : ¬ Inert T t → t.id ∈ S → Exp T S l out →
      Exp T S (t :: l) ({ t with disabled := true } :: out)
  | replace {S t l out body new} : ¬ Inert T t → t.id ∉ S → T t.id = some body →
      Exp T (t.id :: S) body new → Exp T S l out → Exp T S (t :: l) (spacedAs t new ++ out)

/-! ## Operators of a replacement list (C99 6.10.3.2, 6.10.3.3) -/

/-- Operand of `##`, or a stand-alone element of the replacement list. -/
inductive Elem where
  | tok (t : Tok)
  | param (t : Tok)
  | str (h t : Tok)

/-- A replacement list: chains of operands joined by `##` (given with the `##` tokens). -/
structure Chain where
  first : Elem
  more : List (Tok × Elem)

/-- What pasting does with the operands; an empty operand is a placemarker. -/
def join (paste : Tok → Tok → Option Tok) : List Tok → List Tok → Option (List Tok)
  | [], ys => some ys
  | xs, [] => some xs
  | xs, y :: ys =>
    match xs.getLast? with
    | some x => (paste x y).map fun p => xs.dropLast ++ p :: ys
    | none => none

/-- Operand of `##` or `#`: the argument as written. -/
def operand (stringify : List Tok → Tok) (args : Nat → List Tok) : Elem → List Tok
  | .tok t => [t]
  | .param t => args t.id
  | .str _ t => [stringify (args t.id)]

def joinAll (paste : Tok → Tok → Option Tok) : List Tok → List (List Tok) → Option (List Tok)
  | acc, [] => some acc
  | acc, x :: xs => (join paste acc x).bind fun a => joinAll paste a xs

/-- A chain: a parameter that is not an operand stays to be replaced by the expanded argument. -/
def chain (paste : Tok → Tok → Option Tok) (stringify : List Tok → Tok) (args : Nat → List Tok)
    (c : Chain) : Option (List Tok) :=
  match c.first, c.more with
  | .param t, [] => some [t]
  | f, ms => joinAll paste (operand stringify args f) (ms.map fun m => operand stringify args m.2)

def chains (paste : Tok → Tok → Option Tok) (stringify : List Tok → Tok) (args : Nat → List Tok) :
    List Chain → Option (List Tok)
  | [] => some []
  | c :: cs => (chain paste stringify args c).bind fun a =>
      (chains paste stringify args cs).map fun b => a ++ b

/-- Spelling of a replacement list. -/
def Elem.toks : Elem → List Tok
  | .tok t => [t]
  | .param t => [t]
  | .str h t => [h, t]

def Chain.toks (c : Chain) : List Tok :=
  c.first.toks ++ c.more.flatMap fun m => m.1 :: m.2.toks

end Verif.Macro.Spec
