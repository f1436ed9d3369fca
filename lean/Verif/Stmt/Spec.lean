import Verif.Stmt.Model

/-!
# The grammar of statements

C99 6.8, with the constraint of 6.8.6.4 on `return`.  An `else` belongs to the nearest `if` (6.8.4.1): what is between `if` and
`else` does not end with an `if` without `else`.
-/

namespace Verif.Stmt

/-- An expression as a token. -/
def Ex.tok : Ex → Tok
  | .name n => .word n
  | .exp e k => .exp e k

def optTok : Option Ex → List Tok
  | none => []
  | some e => [e.tok]

/-- The first part of `for`, with its semicolon. -/
def Init.toks : Init → List Tok
  | .none => [.semi]
  | .ex e => [e.tok, .semi]
  | .decl d => [.decl d]

/-- Statements that could be followed by the `else` of one of their ends. -/
def openIf : St → Bool
  | .ifThen _ _ => true
  | .ifElse _ _ t => openIf t
  | .whileS _ s | .forS _ _ _ s | .switch _ s | .caseS _ s | .default s | .label _ s => openIf s
  | _ => false

/-- statement (6.8), and the rest of a compound statement behind its brace (6.8.2). -/
inductive G (v : Bool) : Cat → List Tok → St → Prop
  | empty : G v .stmt [.semi] .empty
  | expr (e : Ex) : G v .stmt [e.tok, .semi] (.expr e)
  | block {us b} : G v .items us b → G v .stmt (.lbrace :: us) (.block b)
  | stop : G v .items [.rbrace] .stop
  | seqDecl (d : Nat) {us r} : G v .items us r → G v .items (.decl d :: us) (.seq (.decl d) r)
  | seq {us s vs r} : G v .stmt us s → G v .items vs r → G v .items (us ++ vs) (.seq s r)
  | ifThen (e : Ex) {us s} : G v .stmt us s →
      G v .stmt (.kIf :: .lpar :: e.tok :: .rpar :: us) (.ifThen e s)
  | ifElse (e : Ex) {us s vs t} : G v .stmt us s → openIf s = false → G v .stmt vs t →
      G v .stmt (.kIf :: .lpar :: e.tok :: .rpar :: (us ++ .kElse :: vs)) (.ifElse e s t)
  | whileS (e : Ex) {us s} : G v .stmt us s →
      G v .stmt (.kWhile :: .lpar :: e.tok :: .rpar :: us) (.whileS e s)
  | doS (e : Ex) {us s} : G v .stmt us s →
      G v .stmt (.kDo :: (us ++ [.kWhile, .lpar, e.tok, .rpar, .semi])) (.doS s e)
  | forS (i : Init) (c m : Option Ex) {us s} : G v .stmt us s →
      G v .stmt (.kFor :: .lpar :: (i.toks ++ (optTok c ++ .semi :: (optTok m ++ .rpar :: us))))
        (.forS i c m s)
  | switch (e : Ex) {us s} : G v .stmt us s →
      G v .stmt (.kSwitch :: .lpar :: e.tok :: .rpar :: us) (.switch e s)
  | caseS (e : Ex) {us s} : G v .stmt us s →
      G v .stmt (.kCase :: e.tok :: .colon :: us) (.caseS e s)
  | default {us s} : G v .stmt us s → G v .stmt (.kDefault :: .colon :: us) (.default s)
  | label (n : Nat) {us s} : G v .stmt us s → G v .stmt (.word n :: .colon :: us) (.label n s)
  | goto (n : Nat) : G v .stmt [.kGoto, .word n, .semi] (.goto n)
  | continue : G v .stmt [.kContinue, .semi] .continue
  | break : G v .stmt [.kBreak, .semi] .break
  | retVoid : v = true → G v .stmt [.kReturn, .semi] (.ret none)
  | ret (e : Ex) : v = false → G v .stmt [.kReturn, e.tok, .semi] (.ret (some e))

/-- No expression statement begins with a unary operator other than `*`, `++` and `--`. -/
def Simple : St → Prop
  | .expr (.exp _ k) => k ≠ .unary
  | .block s | .ifThen _ s | .whileS _ s | .doS s _ | .forS _ _ _ s | .switch _ s | .caseS _ s
  | .default s | .label _ s => Simple s
  | .seq s r | .ifElse _ s r => Simple s ∧ Simple r
  | _ => True

/-- Declarations are in blocks only, not parts of other statements. -/
def Placed : St → Prop
  | .decl _ => False
  | .block s | .ifThen _ s | .whileS _ s | .doS s _ | .forS _ _ _ s | .switch _ s | .caseS _ s
  | .default s | .label _ s => Placed s
  | .seq (.decl _) r => Placed r
  | .seq s r | .ifElse _ s r => Placed s ∧ Placed r
  | _ => True

/-- The first expression in `for` is followed by a semicolon. -/
def ForSemi (ts : List Tok) : Prop :=
  ∀ a e k t b, ts = a ++ .kFor :: .lpar :: .exp e k :: t :: b → t = .semi

/-- No `else` follows that belongs to the statement. -/
def Ends (s : St) (rest : List Tok) : Prop := openIf s = true → rest.head? ≠ some .kElse

end Verif.Stmt
