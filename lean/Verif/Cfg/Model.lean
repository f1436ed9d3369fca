import Verif.Tac

/-!
# Control flow graphs (src/parser/statement.c, the control operators of src/parser/expression.c, include/lacc/ir.h)

Statements and expressions are trees; the token stream is not modelled.  `σ` is the syntax of what does not branch, the
primitive expressions; all that is known of them is given by `Prim`: what evaluation does to the state of the C program
(variables, memory, input and output so far), and a value that is read from the state.  Blocks are numbered in the order of `cfg_block_init`; `jump[0]`,
`jump[1]` and `expr` are `j0`, `j1`, `expr`.  `expr` is written when it is used, at a branch or a return.  Diagnosed errors
are `none`.  Not modelled: declarations, `asm`, types; operands that are parsed and thrown away leave no trace.
-/

namespace Verif.Cfg

/-- Primitive expressions.  `act`: the statements that are generated for it; `val`: the value, read afterwards; `put`: the
statements that are generated when its operand has the value given (an assignment, for example); `ok`: the value may be
read, that is, what the statements left behind is still there. -/
class Prim (σ : Type) where
  St : Type
  act : σ → St → St
  put : σ → Int → St → St
  val : σ → St → Int
  ok : σ → St → Prop
  ok_act : ∀ p u, ok p (act p u)
  ok_put : ∀ p n u, ok p (put p n u)

export Prim (St)

/-- Primitive expressions that are functions, on states `α`. -/
structure Fn (α : Type) where
  act : α → α := id
  val : α → Int
  put : Int → α → α := fun _ => id

instance (α : Type) : Prim (Fn α) where
  St := α
  act := Fn.act
  put := Fn.put
  val := Fn.val
  ok := fun _ _ => True
  ok_act := fun _ _ => trivial
  ok_put := fun _ _ _ => trivial

/-- A `struct expression` without side effects: constant, the value of a primitive (`cmp`: a comparison, with value 0 or
1; `neg`: with the opposite operator), temporary, comparison with zero or a case constant. -/
inductive V (σ : Type)
  | imm (n : Int)
  | rd (cmp neg : Bool) (p : σ)
  | tmp (k : Nat)
  | isZero (v : V σ)
  | nonZero (v : V σ)
  | eqc (n : Int) (v : V σ)

/-- The program state and the temporaries of `create_var`. -/
structure Mem (σ : Type) [Prim σ] where
  user : St σ
  tmp : Nat → Int

def truth (b : Bool) : Int := if b then 1 else 0

def V.get {σ : Type} [Prim σ] : V σ → Mem σ → Int
  | .imm n, _ => n
  | .rd c neg p, m =>
    if c then truth (if neg then Prim.val p m.user = 0 else Prim.val p m.user ≠ 0) else Prim.val p m.user
  | .tmp k, m => m.tmp k
  | .isZero v, m => truth (v.get m = 0)
  | .nonZero v, m => truth (v.get m ≠ 0)
  | .eqc n v, m => truth (v.get m = n)

/-- `is_comparison`, ir.h:124. -/
def V.isCmp {σ : Type} : V σ → Bool
  | .rd c _ _ => c
  | .isZero _ | .nonZero _ | .eqc _ _ => true
  | _ => false

/-- The value may be read. -/
def V.ok {σ : Type} [Prim σ] : V σ → Mem σ → Prop
  | .rd _ _ p, m => Prim.ok p m.user
  | .isZero v, m | .nonZero v, m | .eqc _ v, m => v.ok m
  | _, _ => True

/-- Statements of a block: those of a primitive expression (`eff`: there are some; otherwise nothing is generated and this
only marks the place), those of a primitive with an operand, and assignment to a temporary. -/
inductive Act (σ : Type)
  | user (eff : Bool) (p : σ)
  | app (p : σ) (v : V σ)
  | set (k : Nat) (v : V σ)

/-- There is a statement in the block. -/
def Act.real {σ : Type} : Act σ → Bool
  | .user eff _ => eff
  | _ => true

def Act.run {σ : Type} [Prim σ] : Act σ → Mem σ → Mem σ
  | .user _ p, m => { m with user := Prim.act p m.user }
  | .app p v, m => { m with user := Prim.put p (v.get m) m.user }
  | .set k v, m => { m with tmp := fun i => if i = k then v.get m else m.tmp i }

/-- `struct block`, ir.h:184-215. -/
structure Block (σ : Type) where
  acts : List (Act σ) := []
  expr : V σ := .imm 0
  j0 : Option Nat := none
  j1 : Option Nat := none
  ret : Bool := false

/-- Expressions. -/
inductive Expr (σ : Type)
  | imm (n : Int)
  | prim (eff cmp : Bool) (p : σ)
  | app (cmp : Bool) (p : σ) (e : Expr σ)
  | not (e : Expr σ)
  | and (a b : Expr σ)
  | or (a b : Expr σ)
  | cond (c a b : Expr σ)
  | comma (a b : Expr σ)

inductive Stmt (σ : Type)
  | skip
  | expr (e : Expr σ)
  | seq (s t : Stmt σ)
  | ite (c : Expr σ) (s : Stmt σ)
  | ifElse (c : Expr σ) (s t : Stmt σ)
  | while (c : Expr σ) (s : Stmt σ)
  | doWhile (s : Stmt σ) (c : Expr σ)
  | for (i c n : Option (Expr σ)) (s : Stmt σ)
  | brk
  | cont
  | ret (e : Option (Expr σ))
  | goto (l : Nat)
  | label (l : Nat) (s : Stmt σ)
  | switch (e : Expr σ) (s : Stmt σ)
  | case (n : Int) (s : Stmt σ)
  | default (s : Stmt σ)

/-- The part of `struct definition` and of the parser's state that is used: blocks, number of temporaries, label symbols
with their blocks, the labels defined, and `switch_context`. -/
structure B (σ : Type) where
  n : Nat := 0
  blk : Nat → Block σ := fun _ => {}
  ntmp : Nat := 0
  labels : List (Nat × Nat) := []
  defined : List Nat := []
  inSwitch : Bool := false
  cases : List (Int × Nat) := []
  dflt : Option Nat := none

variable {σ : Type}

def B.upd (b : B σ) (i : Nat) (f : Block σ → Block σ) : B σ :=
  { b with blk := fun j => if j = i then f (b.blk i) else b.blk j }

/-- `cfg_block_init`, parse.c:122-141. -/
def B.new (b : B σ) : B σ := { b.upd b.n (fun _ => {}) with n := b.n + 1 }

/-- A statement at the end of a block. -/
def B.act (b : B σ) (i : Nat) (a : Act σ) : B σ := b.upd i fun x => { x with acts := x.acts ++ [a] }

/-- `block->jump[0] = t`. -/
def B.goto (b : B σ) (i t : Nat) : B σ := b.upd i fun x => { x with j0 := some t }

/-- A branch on `block->expr`. -/
def B.branch (b : B σ) (i : Nat) (v : V σ) (f t : Nat) : B σ := b.upd i fun x => { x with expr := v, j0 := some f, j1 := some t }

/-- `immediate_bool`, eval.c:51-73. -/
def boolOf : V σ → Option Bool
  | .imm n => some (n ≠ 0)
  | _ => none

/-- The three-way test after a controlling expression, e.g. statement.c:97-106. -/
def B.test (b : B σ) (m : Nat) (v : V σ) (t f : Nat) : B σ :=
  match boolOf v with
  | some true => b.goto m t
  | some false => b.goto m f
  | none => b.branch m v f t

/-- `eval`, eval.c:318-338: a comparison gets a temporary. -/
def B.eval (b : B σ) (m : Nat) (v : V σ) : B σ × V σ :=
  if v.isCmp then ({ b.act m (.set b.ntmp v) with ntmp := b.ntmp + 1 }, .tmp b.ntmp) else (b, v)

/-- `!`, expression.c:329-356.  The operator of a comparison is exchanged (see C31). -/
def notV : V σ → V σ
  | .imm n => .imm (truth (n = 0))
  | .rd true neg p => .rd true (!neg) p
  | .isZero v => .nonZero v
  | .nonZero v => .isZero v
  | v => .isZero v

/-- `eval_cmp_ne` with zero, unless it is a comparison, expression.c:748-751. -/
def toBool (v : V σ) : V σ :=
  if v.isCmp then v
  else match v with
  | .imm n => .imm (truth (n ≠ 0))
  | v => .nonZero v

/-- `if (top == right && !top->count) block = left; else …`, expression.c:753-758: the value is decided by the left operand. -/
def B.decided (b : B σ) (l top r : Nat) (n : Int) : B σ × Nat × V σ :=
  if top = r ∧ (b.blk top).acts.any Act.real = false then (b, l, .imm n)
  else (b.new.goto l b.n, b.n, .imm n)

/-- The general case of `&&` and `||`, expression.c:760-776 and 814-830: `l` and `r` are the blocks at the end of the operands,
`lf`, `lt` where the left operand leads to; in terms of the blocks `t` and `f` created here. -/
def B.join (b : B σ) (l : Nat) (vl : V σ) (r : Nat) (vr : V σ) (left : Nat → Nat → Nat × Nat) : B σ × Nat × V σ :=
  let t := b.n
  let f := b.n + 1
  let k := b.n + 2
  let b := b.new.new.new
  let b := b.branch l vl (left t f).1 (left t f).2
  let b := b.branch r vr f t
  let b := (b.goto t k).goto f k
  let x := b.ntmp
  let b := { b with ntmp := x + 1 }
  let b := (b.act t (.set x (.imm 1))).act f (.set x (.imm 0))
  (b, k, .tmp x)

/-- Expressions, from block `p`: the block where evaluation ends and the value there. -/
def B.expr (b : B σ) (p : Nat) : Expr σ → B σ × Nat × V σ
  | .imm n => (b, p, .imm n)
  | .prim eff c a => (b.act p (.user eff a), p, .rd c false a)
  | .app c a e =>
    let r := b.expr p e
    (r.1.act r.2.1 (.app a r.2.2), r.2.1, .rd c false a)
  | .not e =>
    let r := b.expr p e
    (r.1, r.2.1, notV r.2.2)
  | .comma x y =>
    let r := b.expr p x
    r.1.expr r.2.1 y
  -- logical_and_expression, expression.c:731-783
  | .and x y =>
    let l := b.expr p x
    let top := l.1.n
    let r := l.1.new.expr top y
    match boolOf l.2.2 with
    | some true => (r.1.goto l.2.1 top, r.2.1, toBool r.2.2)
    | some false => r.1.decided l.2.1 top r.2.1 0
    | none => r.1.join l.2.1 l.2.2 r.2.1 r.2.2 fun _ f => (f, top)
  -- logical_or_expression, expression.c:785-837
  | .or x y =>
    let l := b.expr p x
    let top := l.1.n
    let r := l.1.new.expr top y
    match boolOf l.2.2 with
    | some true => r.1.decided l.2.1 top r.2.1 1
    | some false => (r.1.goto l.2.1 top, r.2.1, toBool r.2.2)
    | none => r.1.join l.2.1 l.2.2 r.2.1 r.2.2 fun t _ => (top, t)
  -- conditional_expression, expression.c:839-909
  | .cond c x y =>
    let h := b.expr p c
    match boolOf h.2.2 with
    | some true =>
      let l := h.1.expr h.2.1 x
      let w := l.1.eval l.2.1 l.2.2
      (w.1, l.2.1, w.2)
    | some false =>
      let r := h.1.expr h.2.1 y
      let w := r.1.eval r.2.1 r.2.2
      (w.1, r.2.1, w.2)
    | none =>
      let b := h.1
      let left := b.n
      let right := b.n + 1
      let k := b.n + 2
      let b := (b.new.new.branch h.2.1 h.2.2 right left).new
      let l := b.expr left x
      let lv := l.1.eval l.2.1 l.2.2
      let r := lv.1.expr right y
      let rv := r.1.eval r.2.1 r.2.2
      let b := rv.1
      let t := b.ntmp
      let b := { b with ntmp := t + 1 }
      let b := b.act r.2.1 (.set t rv.2)
      let extra := b.n
      let b := b.new.goto l.2.1 extra
      let b := b.act extra (.set t lv.2)
      let b := (b.goto extra k).goto r.2.1 k
      (b, k, .tmp t)

/-- The block of a label, created when it is first mentioned (the symbol's `value.label`), statement.c:567-577, 645-656. -/
def B.labelBlock (b : B σ) (l : Nat) : B σ × Nat :=
  match b.labels.lookup l with
  | some c => (b, c)
  | none => ({ b.new with labels := b.labels ++ [(l, b.n)] }, b.n)

/-- The loop over the cases, statement.c:338-345, from block `m` on. -/
def B.chain (b : B σ) (m : Nat) (v : V σ) : List (Int × Nat) → B σ × Nat
  | [] => (b, m)
  | (n, c) :: r =>
    let k := b.n
    let b := b.new
    let b := b.upd k fun x => { x with expr := .eqc n v, j1 := some c }
    let b := b.goto m k
    b.chain k v r

/-- `statement`, statement.c:536-691, with the functions for the single statements, 82-357; from block `p`, with the targets of
`break` and `continue`. -/
def B.stmt (brk cnt : Option Nat) (b : B σ) (p : Nat) : Stmt σ → Option (B σ × Nat)
  | .skip => some (b, p)
  | .expr e =>
    let r := b.expr p e
    some (r.1, r.2.1)
  | .seq s t =>
    match b.stmt brk cnt p s with
    | some r => r.1.stmt brk cnt r.2 t
    | none => none
  | .ite c s =>
    let right := b.n
    let next := b.n + 1
    let h := b.new.new.expr p c
    let b := h.1.test h.2.1 h.2.2 right next
    match b.stmt brk cnt right s with
    | some r => some (r.1.goto r.2 next, next)
    | none => none
  | .ifElse c s t =>
    let right := b.n
    let next := b.n + 1
    let h := b.new.new.expr p c
    let b := h.1.test h.2.1 h.2.2 right next
    match b.stmt brk cnt right s with
    | none => none
    | some r =>
      let b := r.1.goto r.2 next
      let left := b.n
      let b := b.new
      let b := if boolOf h.2.2 = some true then b else b.goto h.2.1 left
      match b.stmt brk cnt left t with
      | some r => some (r.1.goto r.2 next, next)
      | none => none
  | .while c s =>
    let top := b.n
    let body := b.n + 1
    let next := b.n + 2
    let b := b.new.new.new.goto p top
    let h := b.expr top c
    let b := h.1.test h.2.1 h.2.2 body next
    match b.stmt (some next) (some top) body s with
    | some r => some (r.1.goto r.2 top, next)
    | none => none
  | .doWhile s c =>
    let top := b.n
    let cond := b.n + 1
    let next := b.n + 2
    let b := b.new.new.new.goto p top
    match b.stmt (some next) (some cond) top s with
    | some r =>
      let b := r.1.goto r.2 cond
      let h := b.expr cond c
      some (h.1.test h.2.1 h.2.2 top next, next)
    | none => none
  | .for i c n s =>
    let top := b.n
    let body := b.n + 1
    let incr := b.n + 2
    let tail := b.n + 3
    let b := b.new.new.new.new
    let q := match i with
      | some e => let r := b.expr p e; (r.1, r.2.1)
      | none => (b, p)
    let w := match c with
      | some e =>
        let b := q.1.goto q.2 top
        let h := b.expr top e
        (h.1.test h.2.1 h.2.2 body tail, top)
      | none => (q.1.goto q.2 body, body)
    match n with
    | some e =>
      let h := w.1.expr incr e
      let b := h.1.goto h.2.1 w.2
      match b.stmt (some tail) (some incr) body s with
      | some r => some (r.1.goto r.2 incr, tail)
      | none => none
    | none =>
      match w.1.stmt (some tail) (some w.2) body s with
      | some r => some (r.1.goto r.2 w.2, tail)
      | none => none
  | .brk => some ((b.upd p fun x => { x with j0 := brk }).new, b.n)
  | .cont => some ((b.upd p fun x => { x with j0 := cnt }).new, b.n)
  | .ret none => some (b.new, b.n)
  | .ret (some e) =>
    let r := b.expr p e
    some ((r.1.upd r.2.1 fun x => { x with expr := r.2.2, ret := true }).new, r.1.n)
  | .goto l =>
    let r := b.labelBlock l
    some ((r.1.goto p r.2).new, r.1.n)
  | .label l s =>
    if l ∈ b.defined then none
    else
      let r := b.labelBlock l
      let b := { r.1 with defined := l :: r.1.defined }
      (b.goto p r.2).stmt brk cnt r.2 s
  | .switch e s =>
    let body := b.n
    let next := b.n + 1
    let h := b.new.new.expr p e
    let w := h.1.eval h.2.1 h.2.2
    let b := w.1
    match ({ b with inSwitch := true, cases := [], dflt := none }).stmt (some next) cnt body s with
    | none => none
    | some r =>
      let c := (r.1.goto r.2 next).chain h.2.1 w.2 r.1.cases
      let k := c.1.goto c.2 (r.1.dflt.getD next)
      some ({ k with inSwitch := b.inSwitch, cases := b.cases, dflt := b.dflt }, next)
  | .case n s =>
    if b.inSwitch then
      let c := b.n
      let b := { b.new with cases := b.cases ++ [(n, c)] }
      (b.goto p c).stmt brk cnt c s
    else none
  | .default s =>
    if b.inSwitch then
      if b.dflt.isSome then none
      else
        let c := b.n
        let b := { b.new.goto p c with dflt := some c }
        b.stmt brk cnt c s
    else none

/-- A function body: the first block is number 0; labels must be defined in the end (symtab.c:128-133). -/
def build (s : Stmt σ) : Option (B σ) :=
  match ({} : B σ).new.stmt none none 0 s with
  | some r => if r.1.labels.all fun l => r.1.defined.contains l.1 then some r.1 else none
  | none => none

end Verif.Cfg
