import Verif.Asm.Model

/-!
# Printing instructions

Model of `asm_text` and what it uses, src/backend/x86_64/assemble.c:107-174, 268-320 and
src/backend/x86_64/encoding.c:996-1062.  The C code prints to a file; the model gives the
text.  There is none where an assertion fails, where a table is read outside of its bounds,
or where the text of an address does not fit in the buffer of 256 bytes.

The name of a symbol is a parameter, `sym_name` being a matter of the symbol table.
Floating-point stack registers are left out (see `regname`).
-/

namespace Verif.Asm

open Encode (Addr AType Imm ImmVal Ops Instr Enc matchesRow)

/-- The digits `printf` writes for a number. -/
def natText (n : Nat) : Bytes :=
  if n < 10 then [48 + UInt8.ofNat n] else natText (n / 10) ++ [48 + UInt8.ofNat (n % 10)]
termination_by n

/-- `%d` and `%ld`. -/
def intText (x : Int) : Bytes :=
  if x < 0 then chr% '-' :: natText x.natAbs else natText x.natAbs

/-- src/backend/x86_64/assemble.c:117-135: symbol and displacement. -/
def symText (name : Nat → Bytes) (a : Addr) : Option Bytes :=
  match a.sym with
  | some (t, s) =>
    match t with
    | .got => if a.disp = 0 then some (name s ++ str% "@GOTPCREL") else none
    | .plt => if a.disp = 0 then some (name s ++ str% "@PLT") else none
    | .normal =>
      some (name s ++
        if a.disp ≠ 0 then (if a.disp > 0 then str% "+" else []) ++ intText a.disp else [])
  | none => some (if a.disp ≠ 0 then intText a.disp else [])

/-- src/backend/x86_64/assemble.c:137-148: the registers. -/
def regsText (a : Addr) : Option Bytes :=
  if a.base ≠ 0 then
    (regname 8 a.base).bind fun b =>
      if a.index ≠ 0 then
        (regname 8 a.index).map fun i =>
          str% "(" ++ (b ++ (str% "," ++ (i ++ (str% "," ++ (intText a.scale ++ str% ")")))))
      else if a.scale = 0 then some (str% "(" ++ (b ++ str% ")")) else none
  else if a.index ≠ 0 then
    (regname 8 a.index).map fun i => str% "(," ++ (i ++ (str% "," ++ (intText a.scale ++ str% ")")))
  else if a.scale = 0 then some [] else none

/-- src/backend/x86_64/assemble.c:107-151, `asm_address`. -/
def addressText (name : Nat → Bytes) (a : Addr) : Option Bytes :=
  (symText name a).bind fun s =>
    (regsText a).bind fun r => if (s ++ r).length < 256 then some (s ++ r) else none

/-- A number of `w` bytes as it is stored, `d.byte`, `d.word` and so on of
src/backend/x86_64/encoding.h:97-113; any width but these is read as an `int`. -/
def stored (w : Nat) (q : Int) : Int :=
  if w = 1 then q.bmod (256 ^ 1) else if w = 2 then q.bmod (256 ^ 2)
  else if w < 8 then q.bmod (256 ^ 4) else q.bmod (256 ^ 8)

/-- src/backend/x86_64/assemble.c:153-174, `immediate`.  String literals have other
symbols, which are left out. -/
def immText (name : Nat → Bytes) (i : Imm) : Option Bytes :=
  match i.val with
  | .int q => some (str% "$" ++ intText (stored i.width q))
  | .addr a => if a.sym.isSome then addressText name a else none

/-- The rows tried by `find_encoding`, with their mnemonics. -/
def namedRows (op : Nat) : List (Bytes × Enc) :=
  match rows.drop op with
  | [] => []
  | e :: r => e :: r.takeWhile (·.2.opc == op)

/-- src/backend/x86_64/encoding.c:855-872, `find_encoding`. -/
def findRow (i : Instr) : Option (Bytes × Enc) := (namedRows i.opcode).find? fun p => matchesRow i.ops p.2

/-- src/backend/x86_64/encoding.c:1004: a null byte ends the name. -/
def suffixText (w : Nat) : Bytes :=
  if w = 1 then str% "b" else if w = 2 then str% "w" else if w = 4 then str% "l"
  else if w = 8 then str% "q" else []

/-- src/backend/x86_64/encoding.c:1007-1012. -/
def tttn : List Bytes := [
  str% "o", str% "no", str% "nae", str% "ae", str% "e", str% "ne", str% "na", str% "a",
  str% "s", str% "ns", str% "p", str% "np", str% "nge", str% "ge", str% "ng", str% "g"]

/-- src/backend/x86_64/encoding.c:1022-1029. -/
def condText (e : Enc) (cc : Nat) : Option Bytes :=
  if e.opxTttn then tttn[cc]? else some []

/-- src/backend/x86_64/encoding.c:1036-1061: the suffix.  The width that is not in the
table of suffixes ends the name. -/
def widthText (e : Enc) (o : Ops) : Bytes :=
  let ws := o.sourceWidth
  let wd := o.destWidth
  match o with
  | .reg _ _ => []
  | .none w => if w = 0 then [] else if !singleWidth e.w0 && ws ≤ 8 then suffixText ws else []
  | .imm _ | .mem _ _ => if !singleWidth e.w0 && ws ≤ 8 then suffixText ws else []
  | _ =>
    if !singleWidth e.w0 && ws ≤ 8 then
      if suffixText ws = [] then []
      else suffixText ws ++ if ws ≠ wd && !singleWidth e.w1 && wd ≤ 8 then suffixText wd else []
    else if !singleWidth e.w1 && wd ≤ 8 then suffixText wd else []

/-- src/backend/x86_64/encoding.c:996-1062, `get_mnemonic`.  The caller has eleven bytes
for it. -/
def mnemonicText (i : Instr) : Option Bytes :=
  (findRow i).bind fun p =>
    (condText p.2 i.cc).bind fun c =>
      let m := p.1 ++ (c ++ widthText p.2 i.ops)
      if m.length < 11 then some m else none

/-- src/backend/x86_64/assemble.c:281-316: the operands. -/
def opsText (name : Nat → Bytes) (i : Instr) : Option Bytes :=
  match i.ops with
  | .none _ => some []
  | .reg w r =>
    (regname w r).map fun t => (if i.opcode = Encode.oCALL then str% "\t*" else str% "\t") ++ t
  | .imm im => (immText name im).map fun t => str% "\t" ++ t
  | .mem _ a => (addressText name a).map fun t => str% "\t" ++ t
  | .regReg ws a w b =>
    (regname ws a).bind fun s => (regname w b).map fun d => str% "\t" ++ (s ++ (str% ", " ++ d))
  | .regMem ws r _ a =>
    (regname ws r).bind fun s => (addressText name a).map fun d => str% "\t" ++ (s ++ (str% ", " ++ d))
  | .memReg _ a w r =>
    (addressText name a).bind fun s => (regname w r).map fun d => str% "\t" ++ (s ++ (str% ", " ++ d))
  | .immReg im w r =>
    (immText name im).bind fun s => (regname w r).map fun d => str% "\t" ++ (s ++ (str% ", " ++ d))
  | .immMem im _ a =>
    (immText name im).bind fun s => (addressText name a).map fun d => str% "\t" ++ (s ++ (str% ", " ++ d))

/-- src/backend/x86_64/assemble.c:273-277. -/
def prefixText (pfx : Nat) : Bytes :=
  if pfx = 0xF3 then str% "rep " else if pfx = 0xF2 then str% "repne " else []

/-- src/backend/x86_64/assemble.c:268-320, `asm_text`. -/
def asmText (name : Nat → Bytes) (i : Instr) : Option Bytes :=
  (mnemonicText i).bind fun m =>
    (opsText name i).map fun o => str% "\t" ++ (prefixText i.pfx ++ (m ++ (o ++ str% "\n")))

end Verif.Asm
