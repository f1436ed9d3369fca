import Verif.Grammar.Tok

/-!
# The grammar of expressions, C99 6.5

Each rule gives the tokens and the tree: `a[b]` is `*(a + b)` (6.5.2.1), `a->m` is `(*a).m`,
`++a` is `a += 1` (6.5.3.1), `a @= b` is `a = a @ b` (6.5.16.2), `a < b` is `b > a`.

Rules for `&&` and `||` are written with the recursion at the right, where the standard has
it at the left; the sequences are the same, and so is what they mean
(`C94_logical_left`).

Not part: `va_arg` and other builtin functions; names are declared.
-/

namespace Verif.Grammar

structure Ctx where
  /-- names of objects, functions and enumeration constants -/
  known : Bytes → Prop
  TypeName : List Tok → Nat → Prop
  Init : List Tok → Nat → Prop
  /-- number of parameters, and whether `...` follows, of the function a tree designates -/
  arity : Tree → Option (Nat × Bool)

/-- Which rules there are. -/
structure Dialect where
  /-- what is at the left of an assignment -/
  left : Lv
  /-- whether `++`, `--` and `sizeof` may be directly before a compound literal -/
  literals : Bool

/-- The rules of the standard. -/
def standard : Dialect := ⟨.unary, true⟩

/-- Without compound literals directly behind `++`, `--` and `sizeof`. -/
def covered : Dialect := { standard with literals := false }

/-- Also with any conditional expression at the left of an assignment. -/
def accepted : Dialect := { covered with left := .cond }

def prefixOps : List (P × Un) :=
  [(.amp, .addr), (.star, .deref), (.plus, .plus), (.minus, .neg), (.tilde, .compl), (.bang, .not)]

/-- Operators of two operands, by level: from `|`, which binds least, to `*`. -/
def infixOps : List (P × Nat × (Tree → Tree → Tree)) := [
  (.bar, 0, .bin .or), (.caret, 1, .bin .xor), (.amp, 2, .bin .and),
  (.eq, 3, .bin .eq), (.ne, 3, .bin .ne),
  (.lt, 4, fun a b => .bin .gt b a), (.gt, 4, .bin .gt), (.le, 4, fun a b => .bin .ge b a), (.ge, 4, .bin .ge),
  (.shl, 5, .bin .shl), (.shr, 5, .bin .shr), (.plus, 6, .bin .add), (.minus, 6, .bin .sub),
  (.star, 7, .bin .mul), (.slash, 7, .bin .div), (.percent, 7, .bin .mod)]

def assignOps : List (P × (Tree → Tree → Tree)) := [
  (.assign, .set), (.mulA, fun a b => .set a (.bin .mul a b)), (.divA, fun a b => .set a (.bin .div a b)),
  (.modA, fun a b => .set a (.bin .mod a b)), (.addA, fun a b => .set a (.bin .add a b)),
  (.subA, fun a b => .set a (.bin .sub a b)), (.shlA, fun a b => .set a (.bin .shl a b)),
  (.shrA, fun a b => .set a (.bin .shr a b)), (.andA, fun a b => .set a (.bin .and a b)),
  (.xorA, fun a b => .set a (.bin .xor a b)), (.orA, fun a b => .set a (.bin .or a b))]

/-- The number of arguments. -/
def Tree.count : Tree → Nat
  | .more _ r => r.count + 1
  | _ => 0

/-- So many arguments can be given for `n` parameters: more only with `...`, before which
there is a parameter. -/
def fits (n : Nat) (v : Bool) (k : Nat) : Prop := k = n ∨ v = true ∧ 0 < n ∧ n ≤ k

/-- The tokens begin a compound literal. -/
def LiteralFirst (c : Ctx) (ts : List Tok) : Prop :=
  ∃ us ty r, c.TypeName us ty ∧ ts = .p .lparen :: (us ++ .p .rparen :: .p .lbrace :: r)

inductive D (c : Ctx) (d : Dialect) : Lv → List Tok → Tree → Prop
  -- primary-expression
  | ident : c.known s → D c d .primary [.ident s] (.ident s)
  | number : D c d .primary [.number v] (.number v)
  | string : D c d .primary [.string s] (.string s)
  | paren : D c d .expr ts t → D c d .primary (.p .lparen :: (ts ++ [.p .rparen])) t
  -- postfix-expression
  | simple : D c d .primary ts t → D c d .postfix ts t
  | literal : c.TypeName us ty → c.Init is i →
      D c d .postfix (.p .lparen :: (us ++ .p .rparen :: is)) (.literal ty i)
  | index : D c d .postfix xs a → D c d .expr ys b →
      D c d .postfix (xs ++ .p .lbrack :: (ys ++ [.p .rbrack])) (.un .deref (.bin .add a b))
  | call0 : D c d .postfix xs a → c.arity a = some (0, v) →
      D c d .postfix (xs ++ [.p .lparen, .p .rparen]) (.call a .none)
  | call : D c d .postfix xs a → D c d .args ys b → c.arity a = some (n, v) → fits n v b.count →
      D c d .postfix (xs ++ .p .lparen :: (ys ++ [.p .rparen])) (.call a b)
  | dot : D c d .postfix xs a → D c d .postfix (xs ++ [.p .dot, .ident s]) (.member a s)
  | arrow : D c d .postfix xs a → D c d .postfix (xs ++ [.p .arrow, .ident s]) (.member (.un .deref a) s)
  | postInc : D c d .postfix xs a → D c d .postfix (xs ++ [.p .inc]) (.before a (.bin .add a .one))
  | postDec : D c d .postfix xs a → D c d .postfix (xs ++ [.p .dec]) (.before a (.bin .sub a .one))
  -- argument-expression-list
  | arg : D c d .assign xs a → D c d .args xs (.more a .none)
  | args : D c d .assign xs a → D c d .args ys b → D c d .args (xs ++ .p .comma :: ys) (.more a b)
  -- unary-expression
  | unary : D c d .postfix ts t → D c d .unary ts t
  | inc : D c d .unary xs a → (d.literals = false → ¬LiteralFirst c xs) →
      D c d .unary (.p .inc :: xs) (.set a (.bin .add a .one))
  | dec : D c d .unary xs a → (d.literals = false → ¬LiteralFirst c xs) →
      D c d .unary (.p .dec :: xs) (.set a (.bin .sub a .one))
  | pre : (x, o) ∈ prefixOps → D c d .cast xs a → D c d .unary (.p x :: xs) (.un o a)
  | sizeofE : D c d .unary xs a → (d.literals = false → ¬LiteralFirst c xs) →
      D c d .unary (.p .sizeof :: xs) (.sizeofE a)
  | sizeofT : c.TypeName us ty → D c d .unary (.p .sizeof :: .p .lparen :: (us ++ [.p .rparen])) (.sizeofT ty)
  | alignofT : c.TypeName us ty → D c d .unary (.p .alignof :: .p .lparen :: (us ++ [.p .rparen])) (.alignofT ty)
  -- cast-expression
  | castU : D c d .unary ts t → D c d .cast ts t
  | cast : c.TypeName us ty → D c d .cast xs a →
      D c d .cast (.p .lparen :: (us ++ .p .rparen :: xs)) (.cast ty a)
  -- multiplicative-expression to inclusive-OR-expression
  | mul : D c d .cast ts t → D c d (.bin 7) ts t
  | up : k < 7 → D c d (.bin (k + 1)) ts t → D c d (.bin k) ts t
  | mulOp : (x, 7, f) ∈ infixOps → D c d (.bin 7) xs a → D c d .cast ys b → D c d (.bin 7) (xs ++ .p x :: ys) (f a b)
  | binOp : (x, k, f) ∈ infixOps → k < 7 → D c d (.bin k) xs a → D c d (.bin (k + 1)) ys b →
      D c d (.bin k) (xs ++ .p x :: ys) (f a b)
  -- logical-AND-expression, logical-OR-expression
  | land1 : D c d (.bin 0) ts t → D c d .land ts t
  | land : D c d (.bin 0) xs a → D c d .land ys b → D c d .land (xs ++ .p .andand :: ys) (.land a b)
  | lor1 : D c d .land ts t → D c d .lor ts t
  | lor : D c d .land xs a → D c d .lor ys b → D c d .lor (xs ++ .p .oror :: ys) (.lor a b)
  -- conditional-expression
  | cond1 : D c d .lor ts t → D c d .cond ts t
  | cond : D c d .lor xs a → D c d .expr ys b → D c d .cond zs e →
      D c d .cond (xs ++ .p .quest :: (ys ++ .p .colon :: zs)) (.cond a b e)
  -- assignment-expression
  | assign1 : D c d .cond ts t → D c d .assign ts t
  | assign : (x, f) ∈ assignOps → D c d d.left xs a → D c d .assign ys b →
      D c d .assign (xs ++ .p x :: ys) (f a b)
  -- expression
  | expr1 : D c d .assign ts t → D c d .expr ts t
  | expr : D c d .expr xs a → D c d .assign ys b → D c d .expr (xs ++ .p .comma :: ys) (.comma a b)

end Verif.Grammar
