import Verif.Bytes
import Verif.Encode.Model
import Verif.Input.Model

/-!
# Assembly text

Model of the names of registers in src/backend/x86_64/assemble.c, and of inline assembly:
src/backend/x86_64/assembler.c with `mnemonic_match_operands` of encoding.c.

* A line is the text up to its terminating zero byte, so the empty list is the end.
  Bytes above 127 are in no class of characters, as in the "C" locale; passing them to
  the functions of `<ctype.h>` as negative numbers is undefined in C.
* Registers, addresses and instructions are those of `Encode/Model.lean`.
* What `allocation` (compile.c:423-450) finds for an operand of the statement is part of
  `Env`: a register with the width of the variable, or its address in memory.
* A diagnostic followed by `exit(1)`, a failed assertion, and reading past the end of
  the line are the three outcomes of `Err`.
-/

namespace Verif.Asm

open Encode (Addr Imm ImmVal Ops Instr Enc encodings matchesRow)

/-! ## Names of registers -/

/-- src/backend/x86_64/assemble.c:53-70, `reg_name`. -/
def regTable : List Bytes := [
  str% "%al", str% "%ax", str% "%eax", str% "%rax",
  str% "%cl", str% "%cx", str% "%ecx", str% "%rcx",
  str% "%dl", str% "%dx", str% "%edx", str% "%rdx",
  str% "%bl", str% "%bx", str% "%ebx", str% "%rbx",
  str% "%spl", str% "%sp", str% "%esp", str% "%rsp",
  str% "%bpl", str% "%bp", str% "%ebp", str% "%rbp",
  str% "%sil", str% "%si", str% "%esi", str% "%rsi",
  str% "%dil", str% "%di", str% "%edi", str% "%rdi",
  str% "%r8b", str% "%r8w", str% "%r8d", str% "%r8",
  str% "%r9b", str% "%r9w", str% "%r9d", str% "%r9",
  str% "%r10b", str% "%r10w", str% "%r10d", str% "%r10",
  str% "%r11b", str% "%r11w", str% "%r11d", str% "%r11",
  str% "%r12b", str% "%r12w", str% "%r12d", str% "%r12",
  str% "%r13b", str% "%r13w", str% "%r13d", str% "%r13",
  str% "%r14b", str% "%r14w", str% "%r14d", str% "%r14",
  str% "%r15b", str% "%r15w", str% "%r15d", str% "%r15"]

/-- src/backend/x86_64/assemble.c:72-77, `xmm_name`. -/
def xmmTable : List Bytes := [
  str% "%xmm0", str% "%xmm1", str% "%xmm2", str% "%xmm3",
  str% "%xmm4", str% "%xmm5", str% "%xmm6", str% "%xmm7",
  str% "%xmm8", str% "%xmm9", str% "%xmm10", str% "%xmm11",
  str% "%xmm12", str% "%xmm13", str% "%xmm14", str% "%xmm15"]

/-- src/backend/x86_64/assemble.c:84-105, `regname`.  `none` is a failed assertion or an
index outside of the table.  Floating-point stack registers are left out: their name
depends on the state of the compiler (see `Compare/Model.lean`). -/
def regname (w r : Nat) : Option Bytes :=
  if r = 33 then (if w = 8 then some (str% "%rip") else none)
  else if r < 17 then
    let i : Int := 4 * ((r : Int) - 1)
    let j : Int := (w : Int) - 1
    let j := if j = 3 then 2 else j
    let j := if j = 7 then 3 else j
    if 0 ≤ i + j then regTable[(i + j).toNat]? else none
  else if r < 34 then xmmTable[r - 17]?
  else none

/-- The table of src/backend/x86_64/assembler.c:160-181: name, register, width. -/
def asmRegs : List (Bytes × Nat × Nat) := [
  (str% "al", 1, 1), (str% "ax", 1, 2), (str% "eax", 1, 4), (str% "rax", 1, 8),
  (str% "bl", 4, 1), (str% "bx", 4, 2), (str% "ebx", 4, 4), (str% "rbx", 4, 8),
  (str% "cl", 2, 1), (str% "cx", 2, 2), (str% "ecx", 2, 4), (str% "rcx", 2, 8),
  (str% "dl", 3, 1), (str% "dx", 3, 2), (str% "edx", 3, 4), (str% "rdx", 3, 8),
  (str% "spl", 5, 1), (str% "sp", 5, 2), (str% "esp", 5, 4), (str% "rsp", 5, 8),
  (str% "bpl", 6, 1), (str% "bp", 6, 2), (str% "ebp", 6, 4), (str% "rbp", 6, 8),
  (str% "sil", 7, 1), (str% "si", 7, 2), (str% "esi", 7, 4), (str% "rsi", 7, 8),
  (str% "dil", 8, 1), (str% "di", 8, 2), (str% "edi", 8, 4), (str% "rdi", 8, 8),
  (str% "r8b", 9, 1), (str% "r8w", 9, 2), (str% "r8d", 9, 4), (str% "r8", 9, 8),
  (str% "r9b", 10, 1), (str% "r9w", 10, 2), (str% "r9d", 10, 4), (str% "r9", 10, 8),
  (str% "r10b", 11, 1), (str% "r10w", 11, 2), (str% "r10d", 11, 4), (str% "r10", 11, 8),
  (str% "r11b", 12, 1), (str% "r11w", 12, 2), (str% "r11d", 12, 4), (str% "r11", 12, 8),
  (str% "r12b", 13, 1), (str% "r12w", 13, 2), (str% "r12d", 13, 4), (str% "r12", 13, 8),
  (str% "r13b", 14, 1), (str% "r13w", 14, 2), (str% "r13d", 14, 4), (str% "r13", 14, 8),
  (str% "r14b", 15, 1), (str% "r14w", 15, 2), (str% "r14d", 15, 4), (str% "r14", 15, 8),
  (str% "r15b", 16, 1), (str% "r15w", 16, 2), (str% "r15d", 16, 4), (str% "r15", 16, 8)]

/-! ## Characters and numbers of the C library -/

/-- `isspace`. -/
def isSpace (c : UInt8) : Bool := c = chr% ' ' || (9 ≤ c && c ≤ 13)
/-- `isdigit`. -/
def isDigit (c : UInt8) : Bool := chr% '0' ≤ c && c ≤ chr% '9'
/-- `isalpha`. -/
def isAlpha (c : UInt8) : Bool :=
  (chr% 'a' ≤ c && c ≤ chr% 'z') || (chr% 'A' ≤ c && c ≤ chr% 'Z')
/-- `isalnum`. -/
def isAlnum (c : UInt8) : Bool := isAlpha c || isDigit c

/-- The value of a character as a digit in base up to 16, for `strtol`. -/
def digitOf (base : Nat) (c : UInt8) : Option Nat :=
  let d := if isDigit c then c.toNat - 48
    else if chr% 'a' ≤ c && c ≤ chr% 'f' then c.toNat - 87
    else if chr% 'A' ≤ c && c ≤ chr% 'F' then c.toNat - 55
    else 99
  if d < base then some d else none

/-- The digits at the start, as a number, and the rest. -/
def digits (base : Nat) : Bytes → Nat → Nat × Bytes
  | [], n => (n, [])
  | c :: r, n =>
    match digitOf base c with
    | some d => digits base r (base * n + d)
    | none => (n, c :: r)

/-- A number is brought into the range of `long`. -/
def clamp (v : Int) : Int :=
  if v < -9223372036854775808 then -9223372036854775808
  else if 9223372036854775807 < v then 9223372036854775807 else v

/-- The sign `strtol` accepts. -/
def sign : Bytes → Bool × Bytes
  | c :: r => if c = chr% '-' then (true, r) else if c = chr% '+' then (false, r) else (false, c :: r)
  | [] => (false, [])

def firstDigit (base : Nat) : Bytes → Bool
  | c :: _ => (digitOf base c).isSome
  | [] => false

/-- The base `strtol` chooses when it is given 0, and the digits. -/
def autoBase : Bytes → Nat × Bytes
  | c :: x :: r =>
    if c = chr% '0' then
      if (x = chr% 'x' || x = chr% 'X') && firstDigit 16 r then (16, r) else (8, c :: x :: r)
    else (10, c :: x :: r)
  | r => (10, r)

/-- `strtol(s, &end, base)` for base 10 and base 0: the value, and what `end` points at. -/
def strtol (base : Nat) (s : Bytes) : Int × Bytes :=
  let (neg, r) := sign (s.dropWhile isSpace)
  let (b, r) := if base = 0 then autoBase r else (base, r)
  if firstDigit b r then
    let (n, r) := digits b r 0
    (clamp (if neg then -(n : Int) else n), r)
  else (0, s)

/-! ## Tokens -/

inductive Err
  | exit
  | assertion
  | overread
  deriving DecidableEq, Repr

abbrev Res := Except Err

/-- src/backend/x86_64/assembler.c:13-28. -/
inductive TT
  | reg | ident | op | label | constant | number
  | punct (c : UInt8)
  deriving DecidableEq, Repr

/-- src/backend/x86_64/assembler.c:30-35, `struct asm_token`.  `str` is the text from the
start of the token to the end of the line. -/
structure Tok where
  type : TT
  str : Bytes
  len : Nat
  val : Int
  deriving DecidableEq, Repr

/-- An operand of an instruction: `union operand` with the kind that goes with it. -/
inductive Opd
  | reg (w r : Nat)
  | mem (w : Nat) (a : Addr)
  | imm (i : Imm)
  deriving DecidableEq, Repr

/-- The operands and targets of the statement, src/backend/x86_64/assembler.c:37-38. -/
structure Env where
  /-- the alias, empty if there is none, and the place -/
  operands : List (Bytes × Opd)
  targets : List Nat

/-- src/backend/x86_64/assembler.c:42-49, `skip_whitespace`. -/
def skipWs (s : Bytes) : Bytes := s.dropWhile isSpace

def identChar (c : UInt8) : Bool := isAlnum c || c = chr% '.' || c = chr% '_'

/-- A token from `line` that ends where `ptr` starts. -/
def tok (type : TT) (line ptr : Bytes) (val : Int) : Res (Tok × Bytes) :=
  .ok (⟨type, line, line.length - ptr.length, val⟩, ptr)

/-- src/backend/x86_64/assembler.c:104-108, `%%` and the name of a register. -/
def regTok (r : Bytes) : Res (Tok × Bytes) := tok .reg r (r.dropWhile isAlnum) 0

/-- src/backend/x86_64/assembler.c:112-120, the number of an operand. -/
def opTok (e : Env) (r : Bytes) : Res (Tok × Bytes) :=
  let (v, ptr) := strtol 10 r
  if v < 0 ∨ (e.operands.length : Int) ≤ v then .error .exit else tok .op r ptr v

/-- src/backend/x86_64/assembler.c:121-144, the name of an operand: `r` is the text after
`%[`.  The scan goes on two bytes after the name, which is one more than the bracket. -/
def aliasTok (e : Env) (r : Bytes) : Res (Tok × Bytes) :=
  let name := r.takeWhile (· ≠ chr% ']')
  if name.length = r.length then .error .exit
  else
    match e.operands.findIdx? (·.1 == name) with
    | none => .error .exit
    | some i =>
      if r.length < name.length + 2 then .error .overread
      else
        let ptr := r.drop (name.length + 2)
        tok .op ptr ptr i

/-- src/backend/x86_64/assembler.c:145-153, the number of a label. -/
def labelTok (e : Env) (line r : Bytes) : Res (Tok × Bytes) :=
  let (v, ptr) := strtol 10 r
  let v := v - e.operands.length
  if v < 0 ∨ (e.targets.length : Int) ≤ v then .error .exit else tok .label line ptr v

def percentTok (e : Env) (line r : Bytes) : Res (Tok × Bytes) :=
  match r with
  | [] => .error .exit
  | d :: r' =>
    if d = chr% '%' then regTok r'
    else if isDigit d then opTok e (d :: r')
    else if d = chr% '[' then aliasTok e r'
    else if d = chr% 'l' then labelTok e line r'
    else .error .exit

def starTok (r : Bytes) : Res (Tok × Bytes) :=
  match r with
  | a :: b :: r' => if a = chr% '%' ∧ b = chr% '%' then regTok r' else .error .exit
  | _ => .error .exit

/-- src/backend/x86_64/assembler.c:51-156, `asmtok`. -/
def asmtok (e : Env) (line : Bytes) : Res (Tok × Bytes) :=
  match skipWs line with
  | [] => .error .exit
  | c :: r =>
    if isAlpha c || c = chr% '.' || c = chr% '_' then tok .ident (c :: r) (r.dropWhile identChar) 0
    else if isDigit c || ((c = chr% '-' || c = chr% '+') && (r.head?.any isDigit)) then
      let (v, ptr) := strtol 10 (c :: r)
      tok .number (c :: r) ptr v
    else if c ∈ str% "[](),-" then tok (.punct c) (c :: r) r 0
    else if c = chr% '$' then tok .constant (c :: r) (r.dropWhile isDigit) 0
    else if c = chr% '*' then starTok r
    else if c = chr% '%' then percentTok e (c :: r) r
    else .error .exit

/-! ## Registers -/

/-- src/backend/x86_64/assembler.c:158-195, `parse_asm_int_reg`. -/
def parseIntReg (str : Bytes) (len : Nat) : Res (Nat × Nat) :=
  match asmRegs.find? (fun p => p.1.length = len && p.1 == str.take len) with
  | some p => .ok p.2
  | none => .error .exit

/-- src/backend/x86_64/assembler.c:197-216, `parse__asm__register`: register and width. -/
def parseRegister (str : Bytes) (len : Nat) : Res (Nat × Nat) :=
  if str.take 3 = str% "xmm" then
    let (d, ptr) := strtol 10 (str.drop 3)
    if (str.length : Int) - ptr.length = len ∧ 0 ≤ d ∧ d ≤ 15 then .ok (17 + d.toNat, 0)
    else .error .exit
  else parseIntReg str len

/-- src/backend/x86_64/assembler.c:218-234, `get_clobbered_register`. -/
def clobbered (s : Bytes) : Res Nat :=
  let s := if s.head? = some (chr% '%') then s.tail else s
  (parseRegister s s.length).map (·.1)

/-! ## Operands -/

def noAddr : Addr := ⟨none, 0, 0, 0, 0⟩

/-- src/backend/x86_64/assembler.c:278-294, index and scale. -/
def parseIndex (e : Env) (line : Bytes) (a : Addr) : Res (Addr × Bytes) :=
  match asmtok e line with
  | .error x => .error x
  | .ok (t, line) =>
    if t.type = .reg then
      match parseIntReg t.str t.len with
      | .error x => .error x
      | .ok (r, _) =>
        let a := { a with index := r }
        match asmtok e line with
        | .error x => .error x
        | .ok (t, line) =>
          if t.type ≠ .punct (chr% ',') then .ok (a, line)
          else
            let (v, line) := strtol 10 line
            let a := { a with scale := (v % 4294967296).toNat }
            match asmtok e line with
            | .error x => .error x
            | .ok (t, line) => if t.type = .punct (chr% ')') then .ok (a, line) else .error .exit
    else if t.type = .punct (chr% ')') then .ok (a, line) else .error .exit

/-- src/backend/x86_64/assembler.c:236-295, `parse_asm_address`.  The caller reports an
error when it returns 0. -/
def parseAddress (e : Env) (line : Bytes) (a : Addr) : Res (Addr × Bytes) :=
  match asmtok e line with
  | .error x => .error x
  | .ok (t, line) =>
    if t.type = .reg then
      match parseIntReg t.str t.len with
      | .error x => .error x
      | .ok (r, _) =>
        let a := { a with base := r }
        match asmtok e line with
        | .error x => .error x
        | .ok (t, line) =>
          if t.type = .punct (chr% ')') then .ok (a, line) else parseIndex e line a
    else if t.type = .op then
      match e.operands[t.val.toNat]? with
      | some (_, .reg _ r) => parseIndex e line { a with base := r }
      | _ => .error .exit
    else if t.type = .punct (chr% ',') then parseIndex e line a
    else .error .exit

/-- A number is cut to 32 bits when it is stored in an `int`. -/
def toInt (v : Int) : Int := v.bmod 4294967296

/-- src/backend/x86_64/assembler.c:297-354, `parse__asm__operand`. -/
def parseOperand (e : Env) (line : Bytes) : Res (Opd × Bytes) :=
  match asmtok e line with
  | .error x => .error x
  | .ok (t, line) =>
    match t.type with
    | .number =>
      match asmtok e line with
      | .error x => .error x
      | .ok (p, line) =>
        if p.type ≠ .punct (chr% '(') then .error .exit
        else
          match parseAddress e line { noAddr with disp := toInt t.val } with
          | .error x => .error x
          | .ok (a, line) => .ok (.mem 0 a, line)
    | .punct c =>
      if c = chr% '(' then
        match parseAddress e line noAddr with
        | .error x => .error x
        | .ok (a, line) => .ok (.mem 0 a, line)
      else .error .exit
    | .constant => .ok (.imm ⟨0, .int (strtol 0 (t.str.drop 1)).1⟩, line)
    | .reg =>
      match parseRegister t.str t.len with
      | .error x => .error x
      | .ok (r, w) => .ok (.reg w r, line)
    | .op =>
      match e.operands[t.val.toNat]? with
      | some (_, o) => .ok (o, line)
      | none => .error .assertion
    | .label =>
      match e.targets[t.val.toNat]? with
      | some l => .ok (.imm ⟨8, .addr ⟨some (.normal, l), 0, 0, 0, 0⟩⟩, line)
      | none => .error .assertion
    | .ident => .error .exit

/-! ## Instructions -/

/-- The mnemonics of the table, src/backend/x86_64/encoding.c:128-292, in the order of
`Encode.encodings`. -/
def mnemonics : List Bytes := [
  str% "add", str% "add", str% "and", str% "and", str% "and", str% "call", str% "call",
  str% "cmp", str% "cmp", str% "cmp", str% "cdq", str% "cqo", str% "div", str% "idiv", str% "j",
  str% "jmp", str% "lea", str% "leave", str% "mov", str% "mov", str% "mov", str% "movq",
  str% "mov", str% "movs", str% "movslq", str% "movs", str% "movzlq", str% "movz", str% "mul",
  str% "not", str% "or", str% "or", str% "pop", str% "push", str% "push", str% "push",
  str% "ret", str% "sar", str% "sar", str% "set", str% "shl", str% "shl", str% "shr", str% "shr",
  str% "sub", str% "sub", str% "test", str% "test", str% "xor", str% "xor", str% "addss",
  str% "addsd", str% "andnps", str% "andps", str% "cvtps2dq", str% "cvtdq2ps", str% "cvtsi2ss",
  str% "cvtsi2sd", str% "cvtss2sd", str% "cvtsd2ss", str% "cvttss2si", str% "cvttsd2si",
  str% "divss", str% "divsd", str% "mulss", str% "mulsd", str% "orps", str% "subss",
  str% "subsd", str% "movaps", str% "movaps", str% "movss", str% "movss", str% "movsd",
  str% "movsd", str% "movups", str% "movups", str% "ucomiss", str% "ucomisd", str% "pxor",
  str% "faddp", str% "fdivrp", str% "filds", str% "fildl", str% "fildq", str% "fistps",
  str% "fistpl", str% "fistpq", str% "flds", str% "fldl", str% "fldt", str% "fld", str% "fldz",
  str% "fldcw", str% "fmulp", str% "fnstcw", str% "fstps", str% "fstpl", str% "fstpt",
  str% "fstp", str% "fsubrp", str% "fucomip", str% "fxch"]

def rows : List (Bytes × Enc) := mnemonics.zip encodings

/-- src/backend/x86_64/encoding.c:874-877, `is_single_width`. -/
def singleWidth (w : Nat) : Bool := w = 1 || w = 2 || w = 4 || w = 8 || w = 16

/-- The same operands with other widths. -/
def withWidths (o : Ops) (ws wd : Nat) : Ops :=
  match o with
  | .none _ => .none ws
  | .imm i => .imm ⟨ws, i.val⟩
  | .reg _ r => .reg ws r
  | .mem _ a => .mem ws a
  | .regReg _ a _ b => .regReg ws a wd b
  | .regMem _ r _ a => .regMem ws r wd a
  | .memReg _ a _ r => .memReg ws a wd r
  | .immReg i _ r => .immReg ⟨ws, i.val⟩ wd r
  | .immMem i _ a => .immMem ⟨ws, i.val⟩ wd a

/-- The suffix of an integer instruction. -/
def suffixWidth (c : UInt8) : Option Nat :=
  if c = chr% 'b' then some 1 else if c = chr% 'w' then some 2
  else if c = chr% 'l' then some 4 else if c = chr% 'q' then some 8 else none

/-- src/backend/x86_64/encoding.c:932-950: the mnemonic as such (0), or with a suffix. -/
def suffixOf (m name : Bytes) (suffix : Bool) : Option Nat :=
  if m = name then some 0
  else if suffix then
    match m.getLast?.bind suffixWidth with
    | some w => if m.dropLast = name then some w else none
    | none => none
  else none

/-- A row of the table that does not fit, a match, or a diagnostic. -/
inductive Try
  | next
  | found (ws wd : Nat)
  | error
  deriving DecidableEq, Repr

/-- The number of operands is two. -/
def binary (o : Ops) : Bool := o.mask ≥ 8

/-- src/backend/x86_64/encoding.c:911-988, one round of `mnemonic_match_operands`.  A
destination width is only given to instructions with two operands, which is all of
`Ops`; `candidate.dest.width` of the others is a number nobody looks at. -/
def tryRow (m : Bytes) (o : Ops) (row : Bytes × Enc) : Try :=
  let (name, e) := row
  if (e.optype &&& o.mask) ≠ o.mask then .next
  else
    let ws := if e.opc = Encode.oLEA then e.w0 else o.sourceWidth
    let wd := o.destWidth
    if (ws ≠ 0 ∧ e.w0 ≠ 0 ∧ ws &&& e.w0 = 0) ∨ (wd ≠ 0 ∧ e.w1 ≠ 0 ∧ wd &&& e.w1 = 0) then .next
    else
      let ws := if singleWidth e.w0 then e.w0 else ws
      let wd := if singleWidth e.w1 then e.w1 else wd
      match suffixOf m name e.suffix with
      | none => .next
      | some sfx =>
        if binary o ∧ ws = 0 ∧ wd = 0 ∧ sfx = 0 then .error
        else
          let (ws, wd) :=
            if binary o then
              if ws = 0 then (if wd = 0 then (sfx, sfx) else (wd, wd))
              else if wd = 0 then (ws, ws) else (ws, wd)
            else (ws, wd)
          if matchesRow (withWidths o ws wd) e then .found ws wd else .next

/-- src/backend/x86_64/encoding.c:894-994, `mnemonic_match_operands`, from row `k`. -/
def matchFrom (m : Bytes) (o : Ops) : Nat → List (Bytes × Enc) → Res (Nat × Ops)
  | _, [] => .error .exit
  | k, row :: rest =>
    match tryRow m o row with
    | .next => matchFrom m o (k + 1) rest
    | .error => .error .exit
    | .found ws wd => .ok (if row.2.opc = 0 then k else row.2.opc, withWidths o ws wd)

def matchMnemonic (m : Bytes) (o : Ops) : Res (Nat × Ops) :=
  if m = [] then .error .assertion else matchFrom m o 0 rows

/-- src/backend/x86_64/assembler.c:372-386, the combinations of two operands. -/
def combine : Opd → Opd → Option Ops
  | .reg ws a, .reg w b => some (.regReg ws a w b)
  | .reg ws r, .mem w a => some (.regMem ws r w a)
  | .mem ws a, .reg w r => some (.memReg ws a w r)
  | .imm i, .reg w r => some (.immReg i w r)
  | .imm i, .mem w a => some (.immMem i w a)
  | _, _ => none

def single : Opd → Ops
  | .reg w r => .reg w r
  | .mem w a => .mem w a
  | .imm i => .imm i

/-- src/backend/x86_64/assembler.c:364-389, the operands.  `skip_whitespace` has skipped a
newline too, so the test for one in line 366 is never true. -/
def parseOperands (e : Env) (line : Bytes) : Res (Ops × Bytes) :=
  match line with
  | c :: r =>
    if c = chr% '\n' then .ok (.none 0, c :: r)
    else
      match parseOperand e (c :: r) with
      | .error x => .error x
      | .ok (o1, line) =>
        match skipWs line with
        | d :: line' =>
          if d = chr% ',' then
            match parseOperand e line' with
            | .error x => .error x
            | .ok (o2, line) =>
              match combine o1 o2 with
              | some o => .ok (o, line)
              | none => .error .exit
          else .ok (single o1, d :: line')
        | [] => .ok (single o1, [])
  | [] =>
    match parseOperand e [] with
    | .error x => .error x
    | .ok (o, line) => .ok (single o, line)

/-- src/backend/x86_64/assembler.c:356-397, `parse__asm__instruction`. -/
def parseInstruction (e : Env) (line : Bytes) : Res (Instr × Bytes) :=
  match asmtok e line with
  | .error x => .error x
  | .ok (t, line) =>
    match parseOperands e (skipWs line) with
    | .error x => .error x
    | .ok (o, line) =>
      match matchMnemonic (t.str.take t.len) o with
      | .error x => .error x
      | .ok (op, o) => .ok (⟨op, 0, 0, o⟩, line)

/-- One line of src/backend/x86_64/assembler.c:433-446: nothing, or an instruction up to
the end of the line.  The line is a C string, which a zero byte ends. -/
def assembleLine (e : Env) (text : Bytes) : Res (List Instr) :=
  match skipWs (text.takeWhile (· ≠ 0)) with
  | [] => .ok []
  | line =>
    match parseInstruction e line with
    | .error x => .error x
    | .ok (i, line) => if skipWs line = [] then .ok [i] else .error .exit

/-- src/backend/x86_64/assembler.c:405-452, `assemble_inline`: the instructions handed to
`emit`.  The loop ends where `read_line` finds no complete line. -/
def assemble (e : Env) : Nat → Bytes → Res (List Instr)
  | 0, _ => .ok []
  | k + 1, s =>
    match Input.readLine s with
    | .incomplete => .ok []
    | .error => .error .exit
    | .line text rest _ =>
      match assembleLine e text with
      | .error x => .error x
      | .ok is =>
        match assemble e k rest with
        | .error x => .error x
        | .ok js => .ok (is ++ js)

end Verif.Asm
