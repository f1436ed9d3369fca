import Verif.Asm.Model
import Verif.Asm.Spec

/-!
# How operands are written

`Text e n a t`: in a statement with operands `e`, the text `t` of an assembly template
stands for the operand `a`.  Registers have two percent signs in a template, and a
percent sign with a number is an operand of the statement.  Blanks may be anywhere
between the parts.
-/

namespace Verif.Asm

open Att (Arg gprName xmmName)
open Encode.Intel (Mem)
open Encode (Addr memOf)

/-- Blanks. -/
def Blank (b : Bytes) : Prop := ∀ c ∈ b, isSpace c = true

instance (b : Bytes) : Decidable (Blank b) := inferInstanceAs (Decidable (∀ c ∈ b, isSpace c = true))

/-- The number decimal digits stand for. -/
def decimal (ds : Bytes) : Nat := ds.foldl (fun n c => 10 * n + (c.toNat - 48)) 0

/-- Decimal digits without superfluous zeros in front: a zero in front makes an octal
number of an immediate. -/
def Numeral (ds : Bytes) : Prop :=
  (∀ c ∈ ds, isDigit c = true) ∧ (ds = str% "0" ∨ ∃ c r, ds = c :: r ∧ c ≠ chr% '0')

/-- The symbol of an address. -/
def refOf (a : Addr) : Option (Encode.AType × Nat × Int) := a.sym.map fun p => (p.1, p.2, a.disp)

/-- The operand that the place of a C operand is: a register that holds a number, or
`n` bytes of memory. -/
def argOf (n : Nat) : Opd → Option Arg
  | .reg w r =>
    if r ∈ Encode.gprs ∧ w ∈ Encode.widths then some (.gpr (r - 1) w)
    else if r ∈ Encode.xmms ∧ (w = 4 ∨ w = 8) then some (.xmm (r - 17)) else none
  | .mem w a => if w = n then some (.mem (memOf a) (refOf a)) else none
  | .imm _ => none

/-- A displacement: digits with a sign or without. -/
inductive DispText : Int → Bytes → Prop
  | plain {ds} : ds ≠ [] → (∀ c ∈ ds, isDigit c = true) → decimal ds ≤ 2147483647 →
      DispText (decimal ds) ds
  | plus {ds} : ds ≠ [] → (∀ c ∈ ds, isDigit c = true) → decimal ds ≤ 2147483647 →
      DispText (decimal ds) (chr% '+' :: ds)
  | minus {ds} : ds ≠ [] → (∀ c ∈ ds, isDigit c = true) → decimal ds ≤ 2147483648 →
      DispText (-(decimal ds : Int)) (chr% '-' :: ds)

/-- A 64-bit general register. -/
def RegText (n : Nat) (t : Bytes) : Prop := ∃ s, gprName n 8 = some s ∧ t = str% "%%" ++ s

/-- What is between the parentheses, and the closing parenthesis. -/
inductive InnerText (e : Env) : Option Nat → Option (Nat × Nat) → Bytes → Prop
  /-- `(%rax)` -/
  | base {n t b1 b2} : RegText n t → Blank b1 → Blank b2 →
      InnerText e (some n) none (b1 ++ (t ++ (b2 ++ str% ")")))
  /-- `(%0)` with a register operand -/
  | operand {k al w r ds b1 b2} : e.operands[k]? = some (al, .reg w r) → r ∈ Encode.gprs →
      ds ≠ [] → (∀ c ∈ ds, isDigit c = true) → decimal ds = k → k < 2 ^ 63 → Blank b1 → Blank b2 →
      InnerText e (some (r - 1)) none (b1 ++ ((chr% '%' :: ds) ++ (b2 ++ str% ")")))
  /-- `(%rax,%rcx)` -/
  | index {n m t t' b1 b2 b3 b4} : RegText n t → RegText m t' → Blank b1 → Blank b2 → Blank b3 →
      Blank b4 → InnerText e (some n) (some (m, 1))
        (b1 ++ (t ++ (b2 ++ (str% "," ++ (b3 ++ (t' ++ (b4 ++ str% ")")))))))
  /-- `(%rax,%rcx,4)` -/
  | scale {n m s t t' ds b1 b2 b3 b4 b5 b6} : RegText n t → RegText m t' → s ∈ [1, 2, 4, 8] →
      ds = [48 + UInt8.ofNat s] → Blank b1 → Blank b2 → Blank b3 → Blank b4 → Blank b5 → Blank b6 →
      InnerText e (some n) (some (m, s))
        (b1 ++ (t ++ (b2 ++ (str% "," ++ (b3 ++ (t' ++ (b4 ++ (str% "," ++ (b5 ++ (ds ++ (b6 ++ str% ")")))))))))))
  /-- `(,%rcx,4)` -/
  | noBase {m s t' ds b1 b3 b4 b5 b6} : RegText m t' → s ∈ [1, 2, 4, 8] →
      ds = [48 + UInt8.ofNat s] → Blank b1 → Blank b3 → Blank b4 → Blank b5 → Blank b6 →
      InnerText e none (some (m, s))
        (b1 ++ (str% "," ++ (b3 ++ (t' ++ (b4 ++ (str% "," ++ (b5 ++ (ds ++ (b6 ++ str% ")")))))))))

/-- An operand.  If it is a variable in memory, it has `n` bytes. -/
inductive Text (e : Env) (n : Nat) : Arg → Bytes → Prop
  | gpr {r w s} : gprName r w = some s → Text e n (.gpr r w) (str% "%%" ++ s)
  | xmm {r s} : xmmName r = some s → Text e n (.xmm r) (str% "%%" ++ s)
  | imm {ds} : Numeral ds → decimal ds < 2 ^ 63 → Text e n (.imm (decimal ds)) (chr% '$' :: ds)
  | mem {base index t} : InnerText e base index t →
      Text e n (.mem (.sib base index 0) none) (str% "(" ++ t)
  | disp {base index d t dt b} : DispText d dt → Blank b → InnerText e base index t →
      Text e n (.mem (.sib base index d) none) (dt ++ (b ++ (str% "(" ++ t)))
  /-- `%0` -/
  | operand {k al o a ds} : e.operands[k]? = some (al, o) → argOf n o = some a →
      ds ≠ [] → (∀ c ∈ ds, isDigit c = true) → decimal ds = k → k < 2 ^ 63 →
      Text e n a (chr% '%' :: ds)
  /-- `%l2` -/
  | label {k l ds} : e.targets[k]? = some l → ds ≠ [] → (∀ c ∈ ds, isDigit c = true) →
      decimal ds = e.operands.length + k → e.operands.length + k < 2 ^ 63 →
      Text e n (.target l) (str% "%l" ++ ds)

/-- A line with a mnemonic and its operands. -/
inductive LineText (e : Env) (n : Nat) (m : Bytes) : List Arg → Bytes → Prop
  | one {a t b0 b1 b2} : Text e n a t → Blank b0 → Blank b1 → b1 ≠ [] → Blank b2 →
      LineText e n m [a] (b0 ++ (m ++ (b1 ++ (t ++ b2))))
  /-- `call *%rax` -/
  | indirect {r s b0 b1 b2} : m ∈ [str% "call", str% "callq"] → gprName r 8 = some s →
      Blank b0 → Blank b1 → b1 ≠ [] → Blank b2 →
      LineText e n m [.gpr r 8] (b0 ++ (m ++ (b1 ++ ((str% "*%%" ++ s) ++ b2))))
  | two {a t a' t' b0 b1 b2 b3 b4} : Text e n a t → Text e n a' t' → Blank b0 → Blank b1 → b1 ≠ [] →
      Blank b2 → Blank b3 → Blank b4 →
      LineText e n m [a, a'] (b0 ++ (m ++ (b1 ++ (t ++ (b2 ++ (str% "," ++ (b3 ++ (t' ++ b4))))))))

/-- If there is a variable in memory, of `n` bytes, it has the size the instruction
accesses; of the sixteen bytes of a long double, ten are accessed. -/
def Sized (n : Nat) (ins : Encode.Intel.Ins) : Prop :=
  n = 0 ∨ ∀ k, Encode.Intel.Opnd.mem k ∈ ins.ops → k = 0 ∨ n = if k = 10 then 16 else k

/-- The symbol of the operands. -/
def refs (args : List Arg) : Option (Encode.AType × Nat × Int) := args.findSome? Arg.ref

end Verif.Asm
