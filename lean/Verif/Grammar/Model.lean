import Verif.Grammar.Tok

/-!
# Parsing of expressions

Model of src/parser/expression.c:65-104, 134-449, 481-1013: which tokens each
function reads, which functions it calls, and to which operands it applies operations.

Simplifications.  The code evaluates while it reads; the model makes a tree of the calls of
`eval_add` and so on, as what these do is C22, C73, C77, C87, C88, C90 and others.  A constant condition
changes where operations are put but not what is read.  Declaration of undeclared functions
in C89 and builtin functions are left out: the names are parameters, as are the readers of type
names (`declaration_specifiers` and `declarator`, C28, C84) and of initialisers (C92), and the
number of parameters of the type of a function.  There is no result where the compiler stops.
Recursion of the C code is on a number, the depth of the stack; every claim is for all that
are large enough, or for all.
-/

namespace Verif.Grammar

structure Env where
  /-- a declared object, function or enumeration constant -/
  known : Bytes → Bool
  typedef : Bytes → Bool
  typeName : List Tok → Option (Nat × List Tok)
  initializer : List Tok → Option (Nat × List Tok)
  /-- number of parameters and whether there can be more, of the function designated -/
  arity : Tree → Option (Nat × Bool)

abbrev Parser := List Tok → Option (Tree × List Tok)

/-- `consume` -/
def consume (x : P) : List Tok → Option (List Tok)
  | .p y :: ts => if x = y then some ts else none
  | _ => none

/-- The tests after `peekn(2)`, lines 377-387 and 492-498. -/
def startsType (e : Env) : Tok → Bool
  | .ident s => e.typedef s
  | .word _ => true
  | _ => false

/-- `(` and the start of a type name. -/
def parenType (e : Env) : List Tok → Bool
  | .p .lparen :: t :: _ => startsType e t
  | _ => false

/-- Lines 65-104, `primary_expression`. -/
def primary (e : Env) (self : Lv → Parser) : Parser
  | .ident s :: ts => if e.known s then some (.ident s, ts) else none
  | .number v :: ts => some (.number v, ts)
  | .p .lparen :: ts => do
    let (a, ts) ← self .expr ts
    some (a, ← consume .rparen ts)
  | .string s :: ts => some (.string s, ts)
  | _ => none

/-- Lines 194-202. -/
def varargs (self : Lv → Parser) : Nat → Parser
  | 0, _ => none
  | m + 1, ts =>
    if ts.head? = some (.p .rparen) then some (.none, ts)
    else do
      let ts ← consume .comma ts
      let (a, ts) ← self .assign ts
      let (as, ts) ← varargs self m ts
      some (.more a as, ts)

/-- Lines 179-193: `n` more parameters. -/
def arguments (self : Lv → Parser) (m : Nat) (v : Bool) : Nat → Parser
  | 0, ts => if v then varargs self m ts else some (.none, ts)
  | n + 1, ts =>
    if ts.head? = some (.p .rparen) then none
    else do
      let (a, ts) ← self .assign ts
      let ts ← if 0 < n then consume .comma ts else some ts
      let (as, ts) ← arguments self m v n ts
      some (.more a as, ts)

/-- Lines 134-276, `postfix`. -/
def postfixLoop (e : Env) (self : Lv → Parser) : Nat → Tree → Parser
  | 0, _, _ => none
  | m + 1, root, ts =>
    match ts with
    | .p .lbrack :: ts => do
      let (i, ts) ← self .expr ts
      postfixLoop e self m (.un .deref (.bin .add root i)) (← consume .rbrack ts)
    | .p .lparen :: ts => do
      let (n, v) ← e.arity root
      let (as, ts) ← arguments self m v n ts
      postfixLoop e self m (.call root as) (← consume .rparen ts)
    | .p .dot :: .ident s :: ts => postfixLoop e self m (.member root s) ts
    | .p .dot :: _ => none
    | .p .arrow :: .ident s :: ts => postfixLoop e self m (.member (.un .deref root) s) ts
    | .p .arrow :: _ => none
    | .p .inc :: ts => postfixLoop e self m (.before root (.bin .add root .one)) ts
    | .p .dec :: ts => postfixLoop e self m (.before root (.bin .sub root .one)) ts
    | ts => some (root, ts)

/-- Lines 278-304, `postfix_expression`. -/
def postfixExpr (e : Env) (self : Lv → Parser) (m : Nat) : Parser := fun ts => do
  let (a, ts) ← self .primary ts
  postfixLoop e self m a ts

def unOp (self : Lv → Parser) (o : Un) : Parser := fun ts => do
  let (a, ts) ← self .cast ts
  some (.un o a, ts)

/-- Lines 306-449, `unary_expression`. -/
def unary (e : Env) (self : Lv → Parser) : Parser
  | .p .amp :: ts => unOp self .addr ts
  | .p .star :: ts => unOp self .deref ts
  | .p .bang :: ts => unOp self .not ts
  | .p .tilde :: ts => unOp self .compl ts
  | .p .plus :: ts => unOp self .plus ts
  | .p .minus :: ts => unOp self .neg ts
  | .p .sizeof :: ts =>
    if parenType e ts then do
      let ts ← consume .lparen ts
      let (t, ts) ← e.typeName ts
      some (.sizeofT t, ← consume .rparen ts)
    else do
      let (a, ts) ← self .unary ts
      some (.sizeofE a, ts)
  | .p .alignof :: ts => do
    let ts ← consume .lparen ts
    let (t, ts) ← e.typeName ts
    some (.alignofT t, ← consume .rparen ts)
  | .p .inc :: ts => do
    let (a, ts) ← self .unary ts
    some (.set a (.bin .add a .one), ts)
  | .p .dec :: ts => do
    let (a, ts) ← self .unary ts
    some (.set a (.bin .sub a .one), ts)
  | ts => self .postfix ts

/-- Lines 481-519, `cast_expression`. -/
def castExpr (e : Env) (self : Lv → Parser) (m : Nat) : Parser := fun ts =>
  if parenType e ts then do
    let ts ← consume .lparen ts
    let (t, ts) ← e.typeName ts
    let ts ← consume .rparen ts
    if ts.head? = some (.p .lbrace) then do
      let (i, ts) ← e.initializer ts
      postfixLoop e self m (.literal t i) ts
    else do
      let (a, ts) ← self .cast ts
      some (.cast t a, ts)
  else self .unary ts

/-- The operators of each of lines 521-729 and what is called for them: the operation, and
whether its operands are exchanged. -/
def binary : Nat → P → Option (Op × Bool)
  | 7, .star => some (.mul, false)
  | 7, .slash => some (.div, false)
  | 7, .percent => some (.mod, false)
  | 6, .plus => some (.add, false)
  | 6, .minus => some (.sub, false)
  | 5, .shl => some (.shl, false)
  | 5, .shr => some (.shr, false)
  | 4, .lt => some (.gt, true)
  | 4, .gt => some (.gt, false)
  | 4, .le => some (.ge, true)
  | 4, .ge => some (.ge, false)
  | 3, .eq => some (.eq, false)
  | 3, .ne => some (.ne, false)
  | 2, .amp => some (.and, false)
  | 1, .caret => some (.xor, false)
  | 0, .bar => some (.or, false)
  | _, _ => none

/-- The function called for operands. -/
def operand (k : Nat) : Lv := if k = 7 then .cast else .bin (k + 1)

def apply (o : Op × Bool) (a b : Tree) : Tree := if o.2 then .bin o.1 b a else .bin o.1 a b

/-- The loops of lines 521-729. -/
def binLoop (self : Lv → Parser) (k : Nat) : Nat → Tree → Parser
  | 0, _, _ => none
  | m + 1, a, ts =>
    match ts with
    | .p x :: ts' =>
      match binary k x with
      | some o => do
        let (b, ts) ← self (operand k) ts'
        binLoop self k m (apply o a b) ts
      | none => some (a, ts)
    | ts => some (a, ts)

/-- Lines 731-837, `logical_and_expression` and `logical_or_expression`. -/
def logical (self : Lv → Parser) (sub lv : Lv) (x : P) (f : Tree → Tree → Tree) : Parser := fun ts => do
  let (a, ts) ← self sub ts
  match consume x ts with
  | some ts => do
    let (b, ts) ← self lv ts
    some (f a b, ts)
  | none => some (a, ts)

/-- Lines 839-912, `conditional_expression`. -/
def condExpr (self : Lv → Parser) : Parser := fun ts => do
  let (a, ts) ← self .lor ts
  match consume .quest ts with
  | some ts => do
    let (b, ts) ← self .expr ts
    let ts ← consume .colon ts
    let (c, ts) ← self .cond ts
    some (.cond a b c, ts)
  | none => some (a, ts)

/-- Lines 922-981: the operators of assignment and what is computed. -/
def assignment (a b : Tree) : P → Option Tree
  | .assign => some (.set a b)
  | .mulA => some (.set a (.bin .mul a b))
  | .divA => some (.set a (.bin .div a b))
  | .modA => some (.set a (.bin .mod a b))
  | .addA => some (.set a (.bin .add a b))
  | .subA => some (.set a (.bin .sub a b))
  | .andA => some (.set a (.bin .and a b))
  | .orA => some (.set a (.bin .or a b))
  | .xorA => some (.set a (.bin .xor a b))
  | .shrA => some (.set a (.bin .shr a b))
  | .shlA => some (.set a (.bin .shl a b))
  | _ => none

/-- Lines 914-984, `assignment_expression`. -/
def assignExpr (self : Lv → Parser) : Parser := fun ts => do
  let (a, ts) ← self .cond ts
  match ts with
  | .p x :: ts' =>
    if (assignment a a x).isSome then do
      let (b, ts) ← self .assign ts'
      let t ← assignment a b x
      some (t, ts)
    else some (a, ts)
  | ts => some (a, ts)

/-- Lines 1001-1013, `expression`. -/
def commaLoop (self : Lv → Parser) : Nat → Tree → Parser
  | 0, _, _ => none
  | m + 1, a, ts =>
    match consume .comma ts with
    | some ts => do
      let (b, ts) ← self .assign ts
      commaLoop self m (.comma a b) ts
    | none => some (a, ts)

/-- One call of the function of a level. -/
def step (e : Env) (self : Lv → Parser) (m : Nat) : Lv → Parser
  | .primary => primary e self
  | .postfix => postfixExpr e self m
  | .unary => unary e self
  | .cast => castExpr e self m
  | .bin k => fun ts => do
    let (a, ts) ← self (operand k) ts
    binLoop self k m a ts
  | .land => logical self (.bin 0) .land .andand .land
  | .lor => logical self .land .lor .oror .lor
  | .cond => condExpr self
  | .assign => assignExpr self
  | .expr => fun ts => do
    let (a, ts) ← self .assign ts
    commaLoop self m a ts
  | .args => fun _ => none

def parse (e : Env) : Nat → Lv → Parser
  | 0, _, _ => none
  | n + 1, lv, ts => step e (parse e n) n lv ts

end Verif.Grammar
