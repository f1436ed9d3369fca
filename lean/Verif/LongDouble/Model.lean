import Verif.LongDouble.Spec

/-!
# Constants of type `long double`

`strtab.c:45-62, 232-257` (the pool), `eval.c:354-376` (conversion),
`eval.c:482-510` (arithmetic), `eval.c:1153-1182` (unary minus) and
`tokenize.c:250-267` (literals).

A constant is an index into the pool (`union value`, member `ld`).  The arithmetic of
the machine on which lacc runs is not modelled; what is put in the pool is any
value.
-/

namespace Verif.LongDouble

/-- The comparison `==` on `long double`: not for NaN, and otherwise on numbers. -/
def ceq (a b : LD) : Bool := !a.isNaN && !b.isNaN && decide (a.number = b.number)

abbrev Pool := List LD

/-- `get_long_double` (strtab.c:252-257); `none` when the assertion fails. -/
def get (p : Pool) (i : Nat) : Option LD := p[i]?

/-- The loop of `put_long_double` (strtab.c:238-244) over what is left of the pool. -/
def find (ld : LD) : Pool → Nat → Option Nat
  | [], _ => none
  | x :: rest, i => if ceq x ld then some i else find ld rest (i + 1)

/-- `put_long_double` (strtab.c:232-250); `none` when the assertion fails. -/
def put (p : Pool) (ld : LD) : Option (Nat × Pool) :=
  match find ld p 0 with
  | some i => some (i, p)
  | none =>
    let p' := p ++ [ld]
    match get p' p.length with
    | some x => if ceq x ld then some (p.length, p') else none
    | none => none

/-- Constants made one after the other, with the index of each. -/
def puts (p : Pool) : List LD → Option (List Nat × Pool)
  | [] => some ([], p)
  | x :: xs => do
    let (i, p) ← put p x
    let (is, p) ← puts p xs
    return (i :: is, p)

/-- Unary minus on a `long double` (eval.c:1181): `0 - x`, after the conversion of the
integer 0.  `minus` is the subtraction of the machine, at compile time
(eval.c:496-498) or at run time (fsubp). -/
def neg (minus : LD → LD → LD) (x : LD) : LD := minus ⟨false, 0, 0⟩ x

/-- `n / d` rounded to `p` bits, to nearest, ties to even: `strtod` for `p = 53`.  The result
`(s, e)` is `s * 2 ^ e` with `2 ^ (p - 1) ≤ s ≤ 2 ^ p`.  Bounds on the exponent are left out. -/
def round (p n d : Nat) : Nat × Int :=
  -- `n / d` is between `2 ^ (k - 1)` and `2 ^ (k + 1)`
  let k : Int := (Nat.log2 n : Int) - Nat.log2 d
  let below := if 0 ≤ k then decide (n < d * 2 ^ k.toNat) else decide (n * 2 ^ (-k).toNat < d)
  let e : Int := (if below then k - 1 else k) - (p - 1)
  let (a, b) := if 0 ≤ e then (n, d * 2 ^ e.toNat) else (n * 2 ^ (-e).toNat, d)
  let q := a / b
  let r := a % b
  (if 2 * r < b then q else if b < 2 * r then q + 1 else if q % 2 = 0 then q else q + 1, e)

/-- The value of the constant `m × 10 ^ x` with suffix `L` (tokenize.c:258-267): `strtod`, then
the cast to `long double`, which is exact; as a 64 bit significand and exponent. -/
def literal (n d : Nat) : Nat × Int :=
  let v := round 53 n d
  (v.1 * 2 ^ 11, v.2 - 11)

end Verif.LongDouble
