import Verif.Conv.Model
import Verif.Abi.PassLemmas

/-!
# What conversions mean

C99 6.3.1.
-/

namespace Verif.Conv

open Verif.Abi (M Ea Ins Src Place AX CX SP SI R11 XMM le val sval rd byteAt isTempInt isTempSse)

/-- `n` bytes of an operand. -/
def bytes (s : M) (src : Src) (n : Nat) : List UInt8 := (List.range n).map fun j => src.byte s j

/-- The low `k` bits of `n` as a signed number. -/
def signedBits (k : Nat) (n : Int) : Int := if 2 ^ (k - 1) ≤ n % 2 ^ k then n % 2 ^ k - 2 ^ k else n % 2 ^ k

/-- The value of an operand of integer type. -/
def Val.value (s : M) (v : Val) : Int :=
  match v.field with
  | none => if v.signed then sval (bytes s v.src v.sz) else val (bytes s v.src v.sz)
  | some (off, width) =>
    let n := val (bytes s v.src 8) / 2 ^ off
    if v.signed then signedBits width n else n % 2 ^ width

/-- A size of an integer type. -/
def IsSize (n : Nat) : Prop := n = 1 ∨ n = 2 ∨ n = 4 ∨ n = 8

/-- A size of `float` or `double`. -/
def IsReal (n : Nat) : Prop := n = 4 ∨ n = 8

/-- The operand is what the parser makes: the size is that of a type, a register is one for
integers, a pointer in a register is an address, and a bit-field is in memory, inside
of what its type covers. -/
structure Val.Good (s : M) (v : Val) : Prop where
  size : IsSize v.sz
  src : ∀ p, v.src ≠ .addr p
  imm : ∀ i, v.src ≠ .imm i
  place : ∀ r, v.src = .place (.temp r) → r < 17 ∧ v.field = none
  pointer : ∀ r o, v.src = .deref (.temp r) o → r < 17 ∧ 0 ≤ s.reg r ∧ s.reg r < 256 ^ 8
  field : ∀ off width, v.field = some (off, width) →
    0 < width ∧ width < 64 ∧ off + width ≤ 8 * (if v.sz ≤ 4 then 4 else 8) ∧ width ≤ 8 * v.sz

/-- The number an operand of floating type has. -/
def realOf (s : CM) (sz : Nat) (src : Src) : Option ℚ :=
  match src with
  | .place (.temp r) => s.xmm r
  | _ => num (bytes s.m src sz)

/-- The value can be represented in an integer type, C99 6.3.1.4 leaves the rest undefined. -/
def Fits (wd : Nat) (signed : Bool) (i : Int) : Prop :=
  if signed then -(2 ^ (8 * wd - 1)) ≤ i ∧ i < 2 ^ (8 * wd - 1) else 0 ≤ i ∧ i < 2 ^ (8 * wd)

/-- An operand of floating type: a register is one for temporaries and has a number of the
type, a pointer in a register is an address. -/
structure RealGood (s : CM) (sz : Nat) (src : Src) : Prop where
  addr : ∀ p, src ≠ .addr p
  imm : ∀ i, src ≠ .imm i
  place : ∀ r, src = .place (.temp r) → isTempSse r ∧ ∀ x, s.xmm r = some x → Rep (prec sz) x
  pointer : ∀ r o, src = .deref (.temp r) o → isTempInt r ∧ 0 ≤ s.m.reg r ∧ s.m.reg r < 256 ^ 8

/-- An operand in memory; what it is, `n` bytes, is not in the part of the stack that is free. -/
structure Stored (s : CM) (n : Nat) (src : Src) : Prop where
  addr : ∀ p, src ≠ .addr p
  imm : ∀ i, src ≠ .imm i
  place : ∀ r, src ≠ .place (.temp r)
  pointer : ∀ r o, src = .deref (.temp r) o → isTempInt r ∧ 0 ≤ s.m.reg r ∧ s.m.reg r < 256 ^ 8
  far : src.object s.m + n ≤ s.m.reg SP - 16 ∨ s.m.reg SP ≤ src.object s.m

/-- A constant is where it should be, and not in the part of the stack that is free. -/
def Const (s : CM) (w : Nat) (a : Int) (x : ℚ) : Prop :=
  num (rd s.m.mem a w) = some x ∧ (s.m.reg SP ≤ a ∨ a + w ≤ s.m.reg SP - 16)

/-- `fstp` writes as many bytes as the type has, and if the rounded number is one of the type,
then what it writes means that number. -/
structure Encodes (enc : Nat → Option ℚ → List UInt8) : Prop where
  length : ∀ w x, (enc w x).length = w
  num : ∀ w x bs, bs.length = w → num bs = some (rnd (prec w) x) → num (enc w (some x)) = some (rnd (prec w) x)

/-- Everything but some registers and the 16 bytes below the stack pointer is as before. -/
structure Kept (s t : CM) (regs : List Nat) : Prop where
  skip : t.skip = none
  cw : t.cw = s.cw
  reg : ∀ r, r ∉ regs → t.m.reg r = s.m.reg r
  xmm : ∀ r, r ≠ XMM 0 → r ≠ XMM 1 → t.xmm r = s.xmm r
  mem : ∀ x, x < s.m.reg SP - 16 ∨ s.m.reg SP ≤ x → t.m.mem x = s.m.mem x

end Verif.Conv
