import Verif.Asm.Gas

/-!
# Reading an assembly listing

How the GNU assembler reads directives, by its manual: lines, each a label with a colon, or
a word with arguments.  Bytes go to the section named last.  `.align` puts zeros up to a
multiple.  A number that does not fit its directive is an error.  In strings a backslash
comes before a letter, or up to three octal digits.

Instructions, read by `Asm.Gas.instruction`, are allowed in `.text`.  That a name is not
defined twice is not asked for.  Nothing here looks at the compiler.
-/

namespace Verif.Listing.Gas

open Asm.Gas (skip isWord isDigit readNat readInt readSymbol splitComma instruction Ref)
open Encode.Intel (Ins)

inductive Sec
  | text | data | rodata
  deriving DecidableEq, Repr

/-- What has been read. -/
structure Image where
  sec : Sec := .text
  data : List Nat := []
  rodata : List Nat := []
  /-- eight bytes that become an address: where in `.data`, which symbol, and what is added -/
  rel : List (Nat × Nat × Int) := []
  /-- names in `.data` and `.rodata`, and where they are -/
  defs : List (Nat × Sec × Nat) := []
  /-- instructions, with what they refer to -/
  code : List (Ins × Option Ref) := []
  /-- names in `.text`, and the number of instructions before -/
  labels : List (Nat × Nat) := []
  globals : List Nat := []
  locals : List Nat := []
  /-- size and alignment of common objects -/
  commons : List (Nat × Nat × Nat) := []
  sizes : List (Nat × Nat) := []
  /-- whether a name is that of a function, or of an object -/
  types : List (Nat × Bool) := []
  deriving DecidableEq
  
/-- The low bytes of a number, least significant first. -/
def low (n : Nat) (v : Int) : List Nat := (List.range n).map fun i => (v / 256 ^ i % 256).toNat

def Image.emit (a : Image) (b : List Nat) : Option Image :=
  match a.sec with
  | .text => none
  | .data => some { a with data := a.data ++ b }
  | .rodata => some { a with rodata := a.rodata ++ b }

def Image.here (a : Image) : Nat :=
  match a.sec with
  | .text => 0
  | .data => a.data.length
  | .rodata => a.rodata.length

def Image.label (a : Image) (s : Nat) : Image :=
  match a.sec with
  | .text => { a with labels := a.labels ++ [(s, a.code.length)] }
  | x => { a with defs := a.defs ++ [(s, x, a.here)] }

/-- An address. -/
def Image.address (a : Image) (s : Nat) (d : Int) : Option Image :=
  match a.sec with
  | .data => some { a with data := a.data ++ List.replicate 8 0, rel := a.rel ++ [(a.data.length, s, d)] }
  | _ => none

/-! ## Strings -/

def letters : List (UInt8 × UInt8) :=
  [(chr% 'b', 8), (chr% 't', 9), (chr% 'n', 10), (chr% 'f', 12), (chr% 'r', 13), (chr% '\\', 92), (chr% '"', 34)]

def isOct (c : UInt8) : Bool := 48 ≤ c && c ≤ 55

/-- At most `n` octal digits, and what follows. -/
def octal : Nat → Nat → Bytes → Nat × Bytes
  | n + 1, v, c :: t => if isOct c then octal n (8 * v + (c.toNat - 48)) t else (v, c :: t)
  | _, v, t => (v, t)

/-- The characters up to the quote that ends the line.  The number bounds their count. -/
def chars : Nat → Bytes → Option Bytes
  | 0, _ => none
  | _, [] => none
  | n + 1, c :: t =>
    if c = chr% '"' then if t = [] then some [] else none
    else if c = chr% '\\' then
      match t with
      | [] => none
      | e :: r =>
        if isOct e then
          (chars n (octal 3 0 (e :: r)).2).map (UInt8.ofNat ((octal 3 0 (e :: r)).1 % 256) :: ·)
        else (letters.lookup e).bind fun x => (chars n r).map (x :: ·)
    else (chars n t).map (c :: ·)

def readString : Bytes → Option Bytes
  | [] => none
  | c :: t => if c = chr% '"' then chars t.length t else none

/-! ## Lines -/

inductive Dir
  | goto (s : Sec) | named | align | int (n : Nat) | str (zero : Bool) | zero | globl | loc | comm | type | size | file
  deriving DecidableEq, Repr

def directives : List (Bytes × Dir) := [
  (str% ".text", .goto .text), (str% ".data", .goto .data), (str% ".section", .named), (str% ".align", .align),
  (str% ".byte", .int 1), (str% ".short", .int 2), (str% ".int", .int 4), (str% ".long", .int 4), (str% ".quad", .int 8),
  (str% ".ascii", .str false), (str% ".string", .str true), (str% ".zero", .zero), (str% ".globl", .globl),
  (str% ".local", .loc), (str% ".comm", .comm), (str% ".type", .type), (str% ".size", .size), (str% ".file", .file)]

def Image.number (a : Image) (n : Nat) (v : Int) : Option Image :=
  if -(2 ^ (8 * n - 1) : Int) ≤ v ∧ v < 2 ^ (8 * n) then a.emit (low n v) else none

/-- Arguments of a directive. -/
def Image.directive (a : Image) (syms : Bytes → Option Nat) (d : Dir) (r : Bytes) : Option Image :=
  match d with
  | .goto s => if r = [] then some { a with sec := s } else none
  | .named => if r = str% ".rodata" then some { a with sec := .rodata } else none
  | .align => (readNat r).bind fun n => if n = 0 then none else a.emit (List.replicate ((n - a.here % n) % n) 0)
  | .int n =>
    match r with
    | [] => none
    | c :: t =>
      if isDigit c || c == chr% '-' then (readInt (c :: t)).bind (a.number n)
      else if n = 8 then
        (readSymbol syms (c :: t)).bind fun x => if x.1 = .normal then a.address x.2.1 x.2.2 else none
      else none
  | .str z => (readString r).bind fun s => a.emit (s.map (·.toNat) ++ if z then [0] else [])
  | .zero => (readNat r).bind fun n => a.emit (List.replicate n 0)
  | .globl => (syms r).map fun s => { a with globals := a.globals ++ [s] }
  | .loc => (syms r).map fun s => { a with locals := a.locals ++ [s] }
  | .comm =>
    match splitComma r with
    | [x, n, k] => (syms x).bind fun s => (readNat n).bind fun n => (readNat k).map fun k =>
        { a with commons := a.commons ++ [(s, n, k)] }
    | _ => none
  | .type =>
    match splitComma r with
    | [x, y] => (syms x).bind fun s =>
        if skip y = str% "@function" then some { a with types := a.types ++ [(s, true)] }
        else if skip y = str% "@object" then some { a with types := a.types ++ [(s, false)] }
        else none
    | _ => none
  | .size =>
    match splitComma r with
    | [x, y] => (syms x).bind fun s =>
        if skip y = str% ".-" ++ x then if a.sec = .text then some a else none
        else (readNat (skip y)).map fun n => { a with sizes := a.sizes ++ [(s, n)] }
    | _ => none
  | .file => some a

/-- A line `t` that starts with the word `w`, with `r` behind. -/
def Image.statement (a : Image) (syms : Bytes → Option Nat) (t w r : Bytes) : Option Image :=
  match directives.lookup w with
  | some d => a.directive syms d r
  | none =>
    if a.sec = .text then (instruction syms (t ++ [10])).map fun i => { a with code := a.code ++ [i] } else none

def line (syms : Bytes → Option Nat) (a : Image) (t : Bytes) : Option Image :=
  let w := (skip t).takeWhile isWord
  match (skip t).dropWhile isWord with
  | [] => a.statement syms t w []
  | c :: r =>
    if c = chr% ':' then if r = [] then (syms w).map a.label else none
    else a.statement syms t w (skip (c :: r))

/-- The lines of a text. -/
def lines : Bytes → List Bytes
  | [] => []
  | c :: t =>
    if c = 10 then [] :: lines t
    else match lines t with
      | [] => [[c]]
      | l :: ls => (c :: l) :: ls

def read (syms : Bytes → Option Nat) (a : Image) (t : Bytes) : Option Image := (lines t).foldlM (line syms) a

end Verif.Listing.Gas
