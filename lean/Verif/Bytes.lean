/-!
Byte literals: `chr% 'x'` is the `UInt8` code of an ASCII character and `str% "text"` the list of
the codes of an ASCII string.  Both expand to numerals when the file is elaborated.
-/
namespace Verif

abbrev Bytes := List UInt8

macro:max "chr%" c:char : term => do
  let n := Lean.Syntax.mkNumLit (toString c.getChar.toNat)
  `(($n : UInt8))

macro:max "str%" s:str : term => do
  let xs := s.getString.toList.map (fun c => Lean.Syntax.mkNumLit (toString c.toNat))
  `(([$(xs.toArray),*] : List UInt8))

end Verif
