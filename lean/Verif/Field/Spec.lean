import Verif.Field.Model
import Verif.Expr.Ir

/-!
# What bit-fields mean in expressions

C99 6.3.1.1p2: if an `int` can represent all values of a bit-field, it is converted to `int`, whatever its declared type.
-/

namespace Verif.Field

open Verif.Types.Spec (Basic)
open Verif.Expr (Exp)

/-- A bit-field of unsigned type whose values are all in `int`. -/
def Decls.Narrow (W : Decls) (i : Nat) : Prop := (W.ty i).isSigned = false ∧ ∃ w < 32, W.width i = some w

/-- The type that a variable has as an operand, once it has been promoted; that of one that is not a bit-field is not changed here, as the operators do that. -/
noncomputable def Decls.operand (W : Decls) (i : Nat) : Basic :=
  open Classical in if W.Narrow i then .int else W.ty i

/-- The values that variables can have: a bit-field of `w` bits has no others. -/
def Decls.Fits (W : Decls) (N : Nat) (ρ : Nat → Int) : Prop :=
  ∀ i < N, Fold.Spec.fits (W.ty i) (ρ i) ∧ ∀ w, W.width i = some w → (W.ty i).isSigned = false → ρ i < 2 ^ w

/-- The operand is a bit-field as it is, and not another expression; a `+` before it is no other expression. -/
def Bare (W : Decls) : Exp → Prop
  | .var i => W.Narrow i
  | _ => False

/-- As in C88, and a narrow bit-field is not an operand of `~`, unary `+`, `*`, `/`, `%`, `&`, `|`, `^`, nor the left operand of `<<` or `>>`. -/
def Ok (W : Decls) (N : Nat) : Exp → Prop
  | .const b n => Fold.Spec.fits b n
  | .var i => i < N
  | .neg e | .lnot e => Ok W N e
  | .compl e | .plus e => Ok W N e ∧ ¬ Bare W e
  | .cast b e => b.isFloating = false ∧ b ≠ .bool ∧ Ok W N e
  | .bin op l r => Ok W N l ∧ Ok W N r ∧ (op = .add ∨ op = .sub ∨ ¬ Bare W l ∧ (op = .shl ∨ op = .shr ∨ ¬ Bare W r))
  | .rel _ l r => Ok W N l ∧ Ok W N r

/-- The values of variables after assignments to variables that are no bit-fields. -/
noncomputable def exec (W : Decls) (ρ : Nat → Int) : List (Nat × Exp) → Option (Nat → Int)
  | [] => some ρ
  | (i, e) :: r => do
    let (_, x) ← e.value W.operand ρ
    exec W (Expr.put ρ i (Fold.Spec.conv (W.ty i) x)) r

end Verif.Field
