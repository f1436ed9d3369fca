import Verif.Types.Spec

/-!
# Type specifiers (C99 6.7.2p2, with the implicit `int` of C89 3.5.2)
-/

namespace Verif.Specifiers.Spec
open Verif.Types.Spec

/-- Type specifiers; `named` is a typedef name or a struct or union specifier. -/
inductive S
  | void | bool | char | short | int | long | signed | unsigned | float | double | named | enum
  deriving DecidableEq, Repr

inductive Meaning
  | void
  | basic (b : Basic)
  | named
  deriving DecidableEq, Repr

/-- The multisets of type specifiers and the types they denote.  `char` is signed; `long long` has the representation of
`long`; enumerated types are `int`. -/
def table : List (List S × Meaning) := [
  ([.void], .void),
  ([.char], .basic .char), ([.signed, .char], .basic .char), ([.unsigned, .char], .basic .uchar),
  ([.short], .basic .short), ([.signed, .short], .basic .short), ([.short, .int], .basic .short), ([.signed, .short, .int], .basic .short),
  ([.unsigned, .short], .basic .ushort), ([.unsigned, .short, .int], .basic .ushort),
  ([], .basic .int), ([.int], .basic .int), ([.signed], .basic .int), ([.signed, .int], .basic .int),
  ([.unsigned], .basic .uint), ([.unsigned, .int], .basic .uint),
  ([.long], .basic .long), ([.signed, .long], .basic .long), ([.long, .int], .basic .long), ([.signed, .long, .int], .basic .long),
  ([.unsigned, .long], .basic .ulong), ([.unsigned, .long, .int], .basic .ulong),
  ([.long, .long], .basic .long), ([.signed, .long, .long], .basic .long), ([.long, .long, .int], .basic .long),
  ([.signed, .long, .long, .int], .basic .long),
  ([.unsigned, .long, .long], .basic .ulong), ([.unsigned, .long, .long, .int], .basic .ulong),
  ([.float], .basic .float), ([.double], .basic .double), ([.long, .double], .basic .ldouble),
  ([.bool], .basic .bool), ([.named], .named), ([.enum], .basic .int)]

/-- The order of specifiers does not matter (6.7.2p2). -/
def Denotes (ts : List S) (m : Meaning) : Prop := ∃ row ∈ table, row.2 = m ∧ ts.Perm row.1

end Verif.Specifiers.Spec
