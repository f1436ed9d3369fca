import Verif.Tac

/-!
# The parser of statements

Model of src/parser/statement.c:82-358 (the statements with other statements in them) and 536-699
(`statement`, `block`): which statements the tokens of a function body are read as.

Simplifications.  An expression is one token that tells what it begins with (C94), or an identifier
that stands alone, which may also be a label; a declaration with its semicolon is one token (C28,
C84).  The flow graph is C30 and C73, and which labels are diagnosed is C76.  `asm` is left out.
There is no result where the compiler reports an error.
-/

namespace Verif.Stmt

/-- What an expression begins with. -/
inductive Start
  /-- an identifier -/
  | ident
  /-- a number, a string, `*`, `(`, `++` or `--` -/
  | simple
  /-- `-`, `+`, `!`, `~`, `&`, `sizeof` or `_Alignof` -/
  | unary
  deriving DecidableEq, Repr

inductive Tok
  | semi | lbrace | rbrace | lpar | rpar | colon
  | kIf | kElse | kDo | kWhile | kFor | kGoto | kContinue | kBreak | kReturn
  | kSwitch | kCase | kDefault
  | word (n : Nat)
  | exp (e : Nat) (k : Start)
  | decl (d : Nat)
  deriving DecidableEq, Repr

inductive Ex
  | name (n : Nat)
  | exp (e : Nat) (k : Start)
  deriving DecidableEq, Repr

inductive Init
  | none
  | ex (e : Ex)
  | decl (d : Nat)
  deriving DecidableEq, Repr

/-- Statements; those of a block are a `seq` that ends with `stop`. -/
inductive St
  | empty
  | expr (e : Ex)
  | decl (d : Nat)
  | block (b : St)
  | stop
  | seq (s r : St)
  | ifThen (e : Ex) (s : St)
  | ifElse (e : Ex) (s t : St)
  | whileS (e : Ex) (s : St)
  | doS (s : St) (e : Ex)
  | forS (i : Init) (c n : Option Ex) (s : St)
  | switch (e : Ex) (s : St)
  | caseS (e : Ex) (s : St)
  | default (s : St)
  | label (n : Nat) (s : St)
  | goto (n : Nat)
  | continue
  | break
  | ret (e : Option Ex)
  deriving DecidableEq, Repr

/-- `expression` -/
def ex : List Tok → Option (Ex × List Tok)
  | .exp e k :: r => some (.exp e k, r)
  | .word n :: r => some (.name n, r)
  | _ => none

/-- `consume` -/
def eat (t : Tok) : List Tok → Option (List Tok)
  | u :: r => if u = t then some r else none
  | [] => none

/-- `( expression )` -/
def paren (ts : List Tok) : Option (Ex × List Tok) := do
  let ts ← eat .lpar ts
  let (e, ts) ← ex ts
  let ts ← eat .rpar ts
  some (e, ts)

/-- An expression, if there is one, and a token. -/
def optional (t : Tok) : List Tok → Option (Option Ex × List Tok)
  | [] => none
  | u :: r =>
    if u = t then some (none, r)
    else do
      let (e, r) ← ex (u :: r)
      let r ← eat t r
      some (some e, r)

/-- statement.c:238-257, the first part of `for`: behind an expression that does not begin with an
identifier any token is skipped. -/
def forInit : List Tok → Option (Init × List Tok)
  | .semi :: r => some (.none, r)
  | .decl d :: r => some (.decl d, r)
  | .word n :: r => (eat .semi r).map fun r => (.ex (.name n), r)
  | .exp e k :: r =>
    if k = .ident then (eat .semi r).map fun r => (.ex (.exp e k), r)
    else
      match r with
      | [] => none
      | _ :: r => some (.ex (.exp e k), r)
  | _ => none

/-- statement.c:236-283, up to the body -/
def forHead (ts : List Tok) : Option ((Init × Option Ex × Option Ex) × List Tok) := do
  let ts ← eat .lpar ts
  let (i, ts) ← forInit ts
  let (c, ts) ← optional .semi ts
  let (n, ts) ← optional .rpar ts
  some ((i, c, n), ts)

/-- What to read: a statement, or statements up to a brace. -/
inductive Cat
  | stmt | items
  deriving DecidableEq, Repr

/-- statement.c:536-682, `statement`, and 688-699, `block`; `v` says that the function returns nothing. -/
def parse (v : Bool) : Nat → Cat → List Tok → Option (St × List Tok)
  | 0, _, _ => none
  | _ + 1, .items, .rbrace :: r => some (.stop, r)
  | n + 1, .items, ts => do
    let (s, ts) ← parse v n .stmt ts
    let (r, ts) ← parse v n .items ts
    some (.seq s r, ts)
  | _ + 1, .stmt, .semi :: r => some (.empty, r)
  | n + 1, .stmt, .lbrace :: r => do
    let (b, r) ← parse v n .items r
    some (.block b, r)
  | n + 1, .stmt, .kIf :: r => do
    let (e, r) ← paren r
    let (s, r) ← parse v n .stmt r
    match eat .kElse r with
    | none => some (.ifThen e s, r)
    | some r => do
      let (t, r) ← parse v n .stmt r
      some (.ifElse e s t, r)
  | n + 1, .stmt, .kDo :: r => do
    let (s, r) ← parse v n .stmt r
    let r ← eat .kWhile r
    let (e, r) ← paren r
    let r ← eat .semi r
    some (.doS s e, r)
  | n + 1, .stmt, .kWhile :: r => do
    let (e, r) ← paren r
    let (s, r) ← parse v n .stmt r
    some (.whileS e s, r)
  | n + 1, .stmt, .kFor :: r => do
    let ((i, c, m), r) ← forHead r
    let (s, r) ← parse v n .stmt r
    some (.forS i c m s, r)
  | _ + 1, .stmt, .kGoto :: .word l :: r => do
    let r ← eat .semi r
    some (.goto l, r)
  | _ + 1, .stmt, .kContinue :: r => do
    let r ← eat .semi r
    some (.continue, r)
  | _ + 1, .stmt, .kBreak :: r => do
    let r ← eat .semi r
    some (.break, r)
  | _ + 1, .stmt, .kReturn :: r =>
    if v then do
      let r ← eat .semi r
      some (.ret none, r)
    else do
      let (e, r) ← ex r
      let r ← eat .semi r
      some (.ret (some e), r)
  | n + 1, .stmt, .kSwitch :: r => do
    let (e, r) ← paren r
    let (s, r) ← parse v n .stmt r
    some (.switch e s, r)
  | n + 1, .stmt, .kCase :: r => do
    let (e, r) ← ex r
    let r ← eat .colon r
    let (s, r) ← parse v n .stmt r
    some (.caseS e s, r)
  | n + 1, .stmt, .kDefault :: r => do
    let r ← eat .colon r
    let (s, r) ← parse v n .stmt r
    some (.default s, r)
  | n + 1, .stmt, .word l :: .colon :: r => do
    let (s, r) ← parse v n .stmt r
    some (.label l s, r)
  | _ + 1, .stmt, .word l :: r => do
    let r ← eat .semi r
    some (.expr (.name l), r)
  | _ + 1, .stmt, .exp e k :: r =>
    if k = .unary then none
    else do
      let r ← eat .semi r
      some (.expr (.exp e k), r)
  | _ + 1, .stmt, .decl d :: r => some (.decl d, r)
  | _ + 1, .stmt, _ => none

end Verif.Stmt
