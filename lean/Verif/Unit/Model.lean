import Verif.Tac

/-!
# Model of the parser's bookkeeping (src/parser/parse.c)

Blocks that are thrown away, and inline functions that are kept back.  Definitions,
symbols and blocks are numbers; what is in them does not matter here.
-/

namespace Verif.Unit

/-! ## Throwaway blocks -/

/-- `struct definition` (include/lacc/ir.h:262-300), as far as it matters, with the static
arrays of parse.c:66-76: `nodes` and `statements` of the definition, `free` for `blocks`,
and `restore` for `restore_list_count`.  Arrays have their last element first. -/
structure Def where
  nodes : List Nat
  statements : List Nat
  free : List Nat
  restore : List Nat
  /-- number of the next block to be allocated -/
  fresh : Nat
  deriving DecidableEq, Repr

/-- src/parser/parse.c:122-140, `cfg_block_init`, with a definition.  The label is left
out. -/
def blockInit (d : Def) : Def × Nat :=
  match d.free with
  | b :: free => ({ d with free := free, nodes := b :: d.nodes }, b)
  | [] => ({ d with nodes := d.fresh :: d.nodes, fresh := d.fresh + 1 }, d.fresh)

/-- src/parser/eval.c:239-253, `append_statement`: only the array. -/
def addStatement (d : Def) (s : Nat) : Def := { d with statements := s :: d.statements }

/-- src/parser/parse.c:166-174, `begin_throwaway_block`. -/
def beginThrowaway (d : Def) : Def × Nat :=
  blockInit { d with restore := d.nodes.length :: d.statements.length :: d.restore }

/-- The loop of src/parser/parse.c:186-189.  The length is read anew in each round, while
`i` grows. -/
def popLoop (n : Nat) : Nat → Nat → Def → Def
  | 0, _, d => d
  | fuel + 1, i, d =>
    if i + n < d.nodes.length then
      match d.nodes with
      | b :: nodes => popLoop n fuel (i + 1) { d with nodes := nodes, free := b :: d.free }
      | [] => d
    else d

/-- src/parser/parse.c:176-192, `restore_block`.  `none`: the assertion fails.  Setting the
length of an array drops what is last. -/
def restoreBlock (d : Def) : Option Def :=
  match d.restore with
  | n :: m :: rest =>
    let d := popLoop n (d.nodes.length + 1) 0 { d with restore := rest }
    some { d with statements := d.statements.drop (d.statements.length - m) }
  | _ => none

/-- What happens to a definition while an expression is parsed. -/
inductive Act
  | block
  | statement (s : Nat)
  /-- another throwaway block and what happens until it is restored -/
  | discarded (as : List Act)

mutual
/-- One action: `cfg_block_init`, a statement, or a whole use of throwaway blocks, as in
src/parser/expression.c:395-398 and 859-868 and src/parser/declaration.c:72-121. -/
def act (d : Def) : Act → Option Def
  | .block => some (blockInit d).1
  | .statement s => some (addStatement d s)
  | .discarded as => (acts (beginThrowaway d).1 as).bind restoreBlock

def acts (d : Def) : List Act → Option Def
  | [] => some d
  | a :: as => (act d a).bind fun d => acts d as
end

/-! ## Inline functions -/

/-- A definition as `parse` gets it from the queue: its symbol, and whether the symbol is
`inlined`. -/
structure Fn where
  sym : Nat
  inlined : Bool
  deriving DecidableEq, Repr

/-- The array `inline_definitions` and the flags `referenced` of symbols. -/
structure Pending where
  inlines : List Fn
  referenced : List Nat
  deriving DecidableEq, Repr

/-- src/parser/parse.c:210-233, `pop_inline_function`: the first one that is referenced is
removed and returned; if there is none, all are discarded. -/
def popInline (p : Pending) : Option Fn × Pending :=
  match p.inlines.find? fun f => p.referenced.contains f.sym with
  | some f => (some f, { p with inlines := p.inlines.erase f })
  | none => (none, { p with inlines := [] })

/-- src/parser/parse.c:235-285, `parse`, on the definitions that are still to come: those
that are not inline are returned at once, inline ones are kept. -/
def parse (queue : List Fn) (p : Pending) : Option Fn × List Fn × Pending :=
  match queue with
  | [] => let (f, p) := popInline p; (f, [], p)
  | f :: queue =>
    if f.inlined then parse queue { p with inlines := p.inlines ++ [f] }
    else (some f, queue, p)

/-- src/lacc.c:640-653: each definition is compiled, which marks the symbols its code or
data refer to (src/backend/x86_64/compile.c:339, 375, 396).  `refs` gives those of a
definition.  What is returned are the definitions compiled, in order. -/
def compileUnit (refs : Nat → List Nat) : Nat → List Fn → Pending → Option (List Fn)
  | 0, _, _ => none
  | fuel + 1, queue, p =>
    match parse queue p with
    | (none, _, _) => some []
    | (some f, queue, p) =>
      (compileUnit refs fuel queue { p with referenced := p.referenced ++ refs f.sym }).map (f :: ·)

/-- A declaration of a function at file scope: whether it has `inline`, `extern`, `static`,
and a body. -/
structure FnDecl where
  inline : Bool
  extern : Bool
  static : Bool
  body : Bool
  deriving DecidableEq, Repr

/-- src/parser/declaration.c:1250-1263: the flags `inlined` and `referenced` of the symbol
after its declarations.  `decl->symbol` is set by a definition only. -/
def flags (ds : List FnDecl) : Bool × Bool :=
  ds.foldl (fun (i, r) d => if d.body && d.inline then (true, r || d.extern) else (i, r)) (false, false)

end Verif.Unit
