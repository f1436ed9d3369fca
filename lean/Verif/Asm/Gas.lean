import Verif.Asm.Spec

/-!
# Reading assembly text

How the GNU assembler reads a line of AT&T syntax, by its manual: blanks, a mnemonic,
perhaps after the prefix `rep`, and operands with commas between them, source first.  A
register has a percent sign and an immediate a dollar sign.  An address is a displacement,
or a symbol with an offset, before the registers in parentheses.  Numbers are decimal; a
zero in front would make them octal, and they are not read here.

Nothing here looks at the compiler.
-/

namespace Verif.Asm.Gas

open Att (Arg gprName xmmName)
open Encode.Intel (Mem Ins Mn)
open Encode (AType)

/-- A reference to a symbol: how, which, and the offset from it. -/
abbrev Ref := AType × Nat × Int

def isBlank (c : UInt8) : Bool := c == 32 || c == 9

def isDigit (c : UInt8) : Bool := 48 ≤ c && c ≤ 57

def isLetter (c : UInt8) : Bool :=
  (65 ≤ c && c ≤ 90) || (97 ≤ c && c ≤ 122) || c == chr% '_' || c == chr% '.'

def isWord (c : UInt8) : Bool := isLetter c || isDigit c

def skip (t : Bytes) : Bytes := t.dropWhile isBlank

/-! ## Numbers -/

def value (ds : Bytes) : Nat := ds.foldl (fun n c => 10 * n + (c.toNat - 48)) 0

def readNat (t : Bytes) : Option Nat :=
  match t with
  | [] => none
  | c :: r =>
    if (c :: r).all isDigit && (c != chr% '0' || r.isEmpty) then some (value (c :: r)) else none

def readInt : Bytes → Option Int
  | [] => none
  | c :: t =>
    if c = chr% '-' then (readNat t).map fun n : Nat => -(n : Int)
    else (readNat (c :: t)).map fun n : Nat => (n : Int)

/-! ## Operands -/

/-- The registers by name. -/
def registers : List (Bytes × Arg) :=
  (List.range 16).flatMap (fun n =>
    [1, 2, 4, 8].filterMap fun w => (gprName n w).map fun s => (s, .gpr n w))
  ++ (List.range 16).filterMap (fun n => (xmmName n).map fun s => (s, .xmm n))

def readReg (t : Bytes) : Option Arg :=
  match t with
  | [] => none
  | c :: s => if c = chr% '%' then (registers.find? (·.1 == s)).map (·.2) else none

/-- A register in an address. -/
def readBase (t : Bytes) : Option Nat :=
  match readReg t with
  | some (.gpr n 8) => some n
  | _ => none

def modifier (t : Bytes) : Option AType :=
  if t = [] then some .normal
  else if t = str% "@GOTPCREL" then some .got
  else if t = str% "@PLT" then some .plt
  else none

/-- What is added to a symbol. -/
def offset : Bytes → Option Int
  | [] => some 0
  | c :: t => (readNat t).map fun n : Nat => if c = chr% '+' then (n : Int) else -(n : Int)

/-- A symbol with an offset. -/
def readSymbol (syms : Bytes → Option Nat) (t : Bytes) : Option Ref :=
  let name := t.takeWhile isWord
  let rest := t.dropWhile isWord
  let how := rest.takeWhile fun c => c != chr% '+' && c != chr% '-'
  let off := rest.dropWhile fun c => c != chr% '+' && c != chr% '-'
  (syms name).bind fun s => (modifier how).bind fun m => (offset off).map fun d => (m, s, d)

/-- A character in front of the first part. -/
def onto (c : UInt8) : List Bytes → List Bytes
  | p :: ps => (c :: p) :: ps
  | [] => [[c]]

/-- The parts of a list with commas between them. -/
def splitComma : Bytes → List Bytes
  | [] => [[]]
  | c :: t => if c = chr% ',' then [] :: splitComma t else onto c (splitComma t)

def readScale (t : Bytes) : Option Nat :=
  (readNat t).bind fun n => if n = 1 ∨ n = 2 ∨ n = 4 ∨ n = 8 then some n else none

/-- The registers of an address.  The stack pointer cannot be an index. -/
def readRegs (parts : List Bytes) : Option (Option Nat × Option (Nat × Nat)) :=
  match parts with
  | [b] => (readBase b).map fun b => (some b, none)
  | [b, i] => (readBase b).bind fun b => (readBase i).bind fun i =>
      if i = 4 then none else some (some b, some (i, 1))
  | [b, i, s] =>
    (if b = [] then some none else (readBase b).map some).bind fun b =>
      (readBase i).bind fun i => (readScale s).bind fun s => if i = 4 then none else some (b, some (i, s))
  | _ => none

/-- The text before the parentheses, and what is between them. -/
def parens (t : Bytes) : Option (Bytes × Option Bytes) :=
  let front := t.takeWhile (· != chr% '(')
  match t.dropWhile (· != chr% '(') with
  | [] => some (front, none)
  | _ :: r => if r.getLast? = some (chr% ')') then some (front, some r.dropLast) else none

/-- Whether an expression is a number. -/
def numeric : Bytes → Bool
  | [] => true
  | c :: _ => isDigit c || c == chr% '-'

/-- An address, or the place of a jump or call.  With a symbol, only addresses relative
to the instruction pointer are read, and only places without registers. -/
def readAddress (syms : Bytes → Option Nat) (t : Bytes) : Option (Arg × Option Ref) :=
  (parens t).bind fun (front, inner) =>
    match inner with
    | some p =>
      if numeric front then
        (if front = [] then some 0 else readInt front).bind fun d =>
          (readRegs (splitComma p)).map fun (b, i) => (.mem (.sib b i d) none, none)
      else if p = str% "%rip" then
        (readSymbol syms front).map fun r => (.mem (.rip 0) (some r), some r)
      else none
    | none =>
      if numeric front then none
      else (readSymbol syms front).map fun r => (.target r.2.1, some r)

def readOperand (syms : Bytes → Option Nat) (t : Bytes) : Option (Arg × Option Ref) :=
  match t with
  | [] => none
  | c :: r =>
    if c = chr% '%' then (readReg t).map fun a => (a, none)
    -- an indirect call
    else if c = chr% '*' then (readReg r).map fun a => (a, none)
    else if c = chr% '$' then (readInt r).map fun q => (.imm q, none)
    else readAddress syms t

/-! ## Lines -/

/-- The operands: commas in parentheses do not count. -/
def splitArgs : Nat → Bytes → List Bytes
  | _, [] => [[]]
  | d, c :: t =>
    if c = chr% ',' ∧ d = 0 then [] :: splitArgs 0 t
    else onto c (splitArgs (if c = chr% '(' then d + 1 else if c = chr% ')' then d - 1 else d) t)

def operands (t : Bytes) : List Bytes :=
  if t = [] then [] else (splitArgs 0 t).map skip

/-- A line, without the end of line: prefix, mnemonic, operands. -/
def splitLine (t : Bytes) : Bool × Bytes × List Bytes :=
  let t := skip t
  let m := t.takeWhile isWord
  let r := skip (t.dropWhile isWord)
  if m = str% "rep" then (true, r.takeWhile isWord, operands (skip (r.dropWhile isWord)))
  else (false, m, operands r)

/-- The prefix is for string instructions. -/
def repeated (rep : Bool) (ins : Ins) : Option Ins :=
  if rep then
    match ins.mn with
    | .movs false w => some { ins with mn := .movs true w }
    | _ => none
  else some ins

/-- The meaning of a mnemonic with operands.  `att` leaves out the constants of the
floating-point stack, of which there is zero. -/
def meaning (m : Bytes) (args : List Arg) : Option Ins :=
  if m = str% "fldz" ∧ args = [] then some ⟨.fldconst, [.st 6], none, none⟩ else Att.att m args

def readAll (syms : Bytes → Option Nat) : List Bytes → Option (List (Arg × Option Ref))
  | [] => some []
  | t :: ts => (readOperand syms t).bind fun a => (readAll syms ts).map fun as => a :: as

/-- The instruction on a line and the symbol it refers to. -/
def instruction (syms : Bytes → Option Nat) (line : Bytes) : Option (Ins × Option Ref) :=
  if line.getLast? = some (chr% '\n') then
    let (rep, m, ops) := splitLine line.dropLast
    (readAll syms ops).bind fun args =>
      (meaning m (args.map (·.1))).bind fun ins =>
        (repeated rep ins).map fun ins => (ins, args.findSome? (·.2))
  else none

end Verif.Asm.Gas
