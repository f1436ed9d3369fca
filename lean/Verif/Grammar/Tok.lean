import Verif.Bytes

/-!
# Tokens of expressions, and trees
-/

namespace Verif.Grammar

/-- Punctuators and the two operators that are words, include/lacc/token.h. -/
inductive P
  | lparen | rparen | lbrack | rbrack | lbrace | rbrace | dot | arrow | inc | dec
  | amp | star | plus | minus | tilde | bang | sizeof | alignof
  | slash | percent | shl | shr | lt | gt | le | ge | eq | ne | caret | bar | andand | oror
  | quest | colon | assign | mulA | divA | modA | addA | subA | shlA | shrA | andA | xorA | orA
  | comma | semi
  deriving DecidableEq, Repr

inductive Tok
  | ident (s : Bytes)
  | number (v : Nat)
  | string (s : Bytes)
  /-- a keyword a type name can start with -/
  | word (k : Nat)
  | p (x : P)
  deriving DecidableEq, Repr

/-- Operators of two operands that are computed. -/
inductive Op
  | mul | div | mod | add | sub | shl | shr | gt | ge | eq | ne | and | xor | or
  deriving DecidableEq, Repr

inductive Un
  | addr | deref | plus | neg | compl | not
  deriving DecidableEq, Repr

/-- What an expression is, as operations and their operands.  Types and initialisers are
numbers.  Arguments of a call are a chain of `more` that ends in `none`. -/
inductive Tree
  | ident (s : Bytes) | number (v : Nat) | string (s : Bytes)
  | one
  | un (o : Un) (a : Tree)
  | bin (o : Op) (a b : Tree)
  | call (f args : Tree)
  | none
  | more (a rest : Tree)
  | member (a : Tree) (s : Bytes)
  /-- the value before `b` is assigned to `a` -/
  | before (a b : Tree)
  | set (a b : Tree)
  | sizeofE (a : Tree)
  | sizeofT (t : Nat)
  | alignofT (t : Nat)
  | cast (t : Nat) (a : Tree)
  | literal (t i : Nat)
  | land (a b : Tree) | lor (a b : Tree)
  | cond (a b c : Tree)
  | comma (a b : Tree)
  deriving DecidableEq, Repr

/-- Levels of the grammar; `bin 0` is inclusive or, `bin 7` multiplication. -/
inductive Lv
  | primary | postfix | unary | cast | bin (k : Nat) | land | lor | cond | assign | args | expr
  deriving DecidableEq, Repr

end Verif.Grammar
