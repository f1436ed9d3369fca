import Verif.Concat.Model
/-! # Specification: the token sequence the parser is to see (C99 5.1.1.2, phase 6) -/
namespace Verif.Concat.Spec
open Verif.Concat

/-- Put a token before a sequence, joining two literals. -/
def glue : Tok → List Tok → List Tok
  | .string a, .string b :: r => .string (a ++ b) :: r
  | t, r => t :: r

/-- Maximal runs of string literals become one literal. -/
def joined : List Tok → List Tok
  | [] => []
  | t :: r => glue t (joined r)

/-- The stream is followed by `END` for ever. -/
def streamAt (ts : List Tok) (i : Nat) : Tok := (ts[i]?).getD .end_

/-- What a sequence of looks and steps sees, with `k` tokens already passed. -/
def seen (ts : List Tok) : Nat → List Op → List Tok
  | _, [] => []
  | k, .peek n :: ops => streamAt ts (k + n - 1) :: seen ts k ops
  | k, .step :: ops => seen ts (k + 1) ops

end Verif.Concat.Spec
