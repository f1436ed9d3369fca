import Verif.Tac
import Verif.Bytes

/-!
# Definitions of macros

Model of src/preprocessor/directive.c:607-676, `preprocess_define`, and of
src/preprocessor/macro.c:73-94 (`macrocmp`), 183-203 (`define`), 205-208 (`undef`) and 629-639
(`tok_cmp`).

Simplifications.  A line is the tokens behind `define` up to and with `NEWLINE`.  Words are
identifiers and keywords, the tokens that are `is_expandable` on such lines; their numbers are
determined by their spelling (C62), so there is one kind for all.  The hash table is a
function from names (C01).  `__FILE__` and `__LINE__`, whose replacement is changed when they
are looked up, are left out.  There is no result where the compiler stops with an error.
-/

namespace Verif.Define

inductive K
  | word | lparen | rparen | comma | dots | newline
  | other (n : Nat)
  deriving DecidableEq, Repr

structure T where
  kind : K
  text : Bytes
  /-- `leading_whitespace` -/
  space : Bool := false
  deriving DecidableEq, Repr

inductive Rep
  | tok (t : T)
  | param (i : Nat)
  deriving DecidableEq, Repr

/-- src/preprocessor/macro.h:16-37 -/
structure Macro where
  name : Bytes
  func : Bool
  params : Nat
  vararg : Bool
  replacement : List Rep
  deriving DecidableEq, Repr

def vaArgs : T := ⟨.word, str% "__VA_ARGS__", false⟩

/-- macro.c:629-639, `tok_cmp`, of words and other tokens that are not numbers: whether they
are the same. -/
def tokEq (a b : T) : Bool := a.kind == b.kind && a.text == b.text

/-- directive.c:628-648: parameters, whether there can be more arguments, and the rest. -/
def readParams : List T → Option (List T × Bool × List T)
  | [] => none
  | t :: rest =>
    if t.kind = .rparen then some ([], false, t :: rest)
    else if t.kind = .dots then some ([vaArgs], true, rest)
    else if t.kind ≠ .word then none
    else
      match rest with
      | [] => none
      | c :: rest =>
        if c.kind = .dots then some ([t], true, rest)
        else if c.kind ≠ .comma then some ([t], false, c :: rest)
        else do
          let (ps, v, r) ← readParams rest
          some (t :: ps, v, r)

/-- directive.c:658-663 -/
def findParam (ps : List T) (t : T) (i : Nat) : Option Nat :=
  match ps with
  | [] => none
  | p :: ps => if tokEq t p then some i else findParam ps t (i + 1)

/-- directive.c:654-671, the tokens up to the end of the line -/
def replacement (func : Bool) (ps : List T) : List T → Option (List Rep)
  | [] => none
  | t :: ts =>
    if t.kind = .newline then some []
    else do
      let r ← replacement func ps ts
      if t.kind = .word ∧ func then
        match findParam ps t 0 with
        | some i => some (.param i :: r)
        | none => some (.tok t :: r)
      else some (.tok t :: r)

/-- directive.c:607-676, `preprocess_define` -/
def preprocessDefine : List T → Option Macro
  | [] => none
  | t :: line =>
    if t.kind ≠ .word then none
    else
      match line with
      | [] => none
      | p :: rest =>
        if p.kind = .lparen ∧ p.space = false then
          match readParams rest with
          | none => none
          | some (_, _, []) => none
          | some (ps, v, c :: body) =>
            if c.kind ≠ .rparen then none
            else do
              let r ← replacement true ps body
              some ⟨t.text, true, ps.length, v, r⟩
        else do
          let r ← replacement false [] (p :: rest)
          some ⟨t.text, false, 0, false, r⟩

def repEq : Rep → Rep → Bool
  | .tok a, .tok b => tokEq a b
  | .param i, .param j => i == j
  | _, _ => false

def repsEq : List Rep → List Rep → Bool
  | [], [] => true
  | a :: as, b :: bs => repEq a b && repsEq as bs
  | _, _ => false

/-- macro.c:73-94, `macrocmp`: whether they are the same. -/
def macroEq (a b : Macro) : Bool :=
  a.func == b.func && a.params == b.params && a.name == b.name &&
    repsEq a.replacement b.replacement

abbrev Table := Bytes → Option Macro

/-- macro.c:183-203, `define`: what is there stays. -/
def define (s : Table) (m : Macro) : Option Table :=
  match s m.name with
  | none => some (fun n => if n = m.name then some m else s n)
  | some old => if macroEq old m then some s else none

/-- macro.c:205-208, `undef` -/
def undef (s : Table) (name : Bytes) : Table := fun n => if n = name then none else s n

inductive Dir
  | define (line : List T)
  | undef (name : Bytes)

/-- directive.c:791-799 -/
def step (s : Table) : Dir → Option Table
  | .define line => do
    let m ← preprocessDefine line
    define s m
  | .undef name => some (undef s name)

def run (s : Table) : List Dir → Option Table
  | [] => some s
  | d :: ds => do
    let s ← step s d
    run s ds

end Verif.Define
