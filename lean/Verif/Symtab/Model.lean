import Verif.Types.Model

/-!
# Symbol table (src/parser/symtab.c) and declarations (src/parser/declaration.c)

Symbols are allocated objects that are mutated by redeclarations; they are entries of `syms` and referred to by index.
The arrays `scope.names` and `scope.symbols` always change together and are one list here, most recent entry first;
`scope.counts` is a list with the innermost scope first.  The hash tables `globals` and `functions` are association lists
with the behaviour proved of the hash table in C01 (insertion keeps an existing entry).  Not modelled: `type_set_tag`, the
list of symbols to emit, verbose output, `asm` names, VLAs, old-style parameter lists.
-/

namespace Verif.Symtab
open Verif.Types

/-- `enum symtype`, symbol.h:16-26. -/
inductive Symtype
  | definition | tentative | declaration | typedef | literal | constant | label | tag | builtin
  deriving DecidableEq, Repr

/-- `enum linkage`, symbol.h:29-33. -/
inductive Linkage
  | none | intern | extern
  deriving DecidableEq, Repr

/-- `struct symbol`, the fields read here. -/
structure Sym where
  name : Bytes
  ty : Ty
  symtype : Symtype
  linkage : Linkage
  depth : Nat
  n : Nat := 0
  deriving DecidableEq, Repr

/-- `struct namespace`. -/
structure Ns where
  counts : List Nat := []
  scope : List (Bytes × Nat) := []
  globals : List (Bytes × Nat) := []
  deriving DecidableEq, Repr

/-- Global state: the table of types, the symbols, one namespace (`ns_ident`; `ns_tag` is used in the same way), the table
`functions` and the counter of block scope statics. -/
structure State where
  types : Heap := []
  syms : List Sym := []
  ns : Ns := {}
  functions : List (Bytes × Nat) := []
  statics : Nat := 0
  deriving DecidableEq, Repr

/-- Diagnosed error, failed assertion, or out of fuel in the comparison of recursive types. -/
inductive Err
  | diag | crash | more
  deriving DecidableEq, Repr

/-- Outcome of a type comparison. -/
def ofR {α : Type} : R α → Except Err α
  | .ok a => .ok a
  | .error .crash => .error .crash
  | .error .more => .error .more

/-- `hash_lookup` (see C01). -/
def assoc (l : List (Bytes × Nat)) (name : Bytes) : Option Nat := (l.find? fun e => e.1 == name).map (·.2)

/-- `hash_insert` (see C01): an existing entry is kept. -/
def assocInsert (l : List (Bytes × Nat)) (name : Bytes) (p : Nat) : List (Bytes × Nat) :=
  match assoc l name with
  | some _ => l
  | none => (name, p) :: l

/-- `push_scope`, symtab.c:158-161. -/
def Ns.push (ns : Ns) : Ns := { ns with counts := 0 :: ns.counts }

/-- `pop_scope`, symtab.c:163-172: the array lengths are reduced by the number of names of the scope. -/
def Ns.pop (ns : Ns) : Except Err Ns :=
  match ns.counts with
  | [] => .error .crash
  | c :: cs => .ok { ns with counts := cs, scope := ns.scope.drop c }

/-- `current_scope_depth`, symtab.c:174-186. -/
def Ns.depth (ns : Ns) : Nat := ns.counts.length

/-- `sym_lookup`, symtab.c:188-201. -/
def Ns.lookup (ns : Ns) (name : Bytes) : Option Nat :=
  match ns.scope.find? fun e => e.1 == name with
  | some e => some e.2
  | none => assoc ns.globals name

/-- `sym_make_visible`, symtab.c:364-373. -/
def Ns.makeVisible (ns : Ns) (name : Bytes) (p : Nat) : Ns :=
  match ns.counts with
  | [] => { ns with globals := assocInsert ns.globals name p }
  | c :: cs => { ns with counts := (c + 1) :: cs, scope := (name, p) :: ns.scope }

/-- `is_complete`, typetree.c:870-882. -/
def isComplete (H : Heap) (t : Ty) : R Bool :=
  if t.of = .array ∨ t.of = .function then do
    let tr ← handle H t.ref
    .ok (!tr.incomplete)
  else .ok true

/-- `type_equal_unqualified`, typetree.c:1000-1029, for types without a table entry or with the same one; other cases are
not needed and reported as `more`. -/
def equalUnqualified (t u : Ty) : R Bool :=
  if !t.unqualified.sameFlags u.unqualified then .ok false
  else if t.ref = u.ref then .ok true
  else if t.ref = 0 ∨ u.ref = 0 then .ok false
  else .error .more

/-- `set_array_length`, typetree.c:1224-1231. -/
def setArrayLength (H : Heap) (t : Ty) (n : Nat) : R Heap := do
  let tr ← handle H t.ref
  if tr.size = 0 ∧ tr.incomplete = true then
    .ok (H.set (t.ref - 1).toNat { tr with size := n, incomplete := false })
  else .error .crash

/-- `sym_apply_type`, symtab.c:241-291: the new table of types and the new type of the symbol. -/
def applyType (fuel : Nat) (H : Heap) (old new : Ty) : Except Err (Heap × Ty) :=
  if old.of = .function then
    if new.of ≠ .function then .error .diag
    else do
      let r1 ← ofR (next H old)
      let r2 ← ofR (next H new)
      let ok ← ofR (isCompatible H fuel r1 r2)
      if !ok then .error .diag
      else do
        let c1 ← ofR (isComplete H old)
        let c2 ← ofR (isComplete H new)
        if !c1 then .ok (H, if c2 then new else old)
        else if c2 then do
          let ok ← ofR (isCompatible H fuel old new)
          if ok then .ok (H, new) else .error .diag
        else .ok (H, old)
  else if old.of = .array then
    if new.of ≠ .array then .error .diag
    else do
      let r1 ← ofR (next H old)
      let r2 ← ofR (next H new)
      let ok ← ofR (equalUnqualified r1 r2)
      if !ok then .error .diag
      else do
        let c1 ← ofR (isComplete H old)
        let c2 ← ofR (isComplete H new)
        if !c1 then
          if c2 then do
            let tr ← ofR (handle H new.ref)
            let H' ← ofR (setArrayLength H old tr.size)
            .ok (H', old)
          else .ok (H, old)
        else if c2 then do
          let ok ← ofR (isCompatible H fuel old new)
          if ok then .ok (H, old) else .error .diag
        else .ok (H, old)
  else do
    let ok ← ofR (isCompatible H fuel old new)
    if ok then .ok (H, old) else .error .diag

/-- First switch of `sym_redeclare`, symtab.c:303-326. -/
def redeclareLinkage (sym : Sym) (depth : Nat) (st : Symtype) (l : Linkage) : Except Err Linkage :=
  match l with
  | .intern => if sym.linkage = .extern then .error .diag else .ok .intern
  | .extern => if sym.linkage = .intern ∧ (st = .definition ∨ st = .tentative) then .error .diag else .ok sym.linkage
  | .none => if sym.depth = depth ∧ sym.depth ≠ 0 then .error .diag else .ok sym.linkage

/-- A tentative definition of a declared symbol, symtab.c:329-332. -/
def makeTentative (sym : Sym) (st : Symtype) : Sym :=
  if st = .tentative ∧ sym.symtype = .declaration then { sym with symtype := .tentative } else sym

/-- Types of a declaration or tentative definition, symtab.c:333-342. -/
def mergeType (fuel : Nat) (s : State) (p : Nat) (sym : Sym) (t : Ty) : Except Err State :=
  if sym.symtype = .definition then do
    let eq ← ofR (typeEqual s.types fuel sym.ty t)
    if eq then .ok { s with syms := s.syms.set p sym } else .error .diag
  else do
    let r ← applyType fuel s.types sym.ty t
    .ok { s with types := r.1, syms := s.syms.set p { sym with ty := r.2 } }

/-- `sym_redeclare`, symtab.c:296-362. -/
def redeclare (fuel : Nat) (s : State) (p : Nat) (sym : Sym) (t : Ty) (st : Symtype) (l : Linkage) : Except Err State := do
  let link ← redeclareLinkage sym s.ns.depth st l
  let sym := { sym with linkage := link }
  match st with
  | .tentative | .declaration =>
    mergeType fuel s p (makeTentative sym st) t
  | .definition => do
    let r ← applyType fuel s.types sym.ty t
    .ok { s with types := r.1, syms := s.syms.set p { sym with symtype := .definition, ty := r.2 } }
  | .tag | .typedef | .constant => do
    let eq ← ofR (typeEqual s.types fuel sym.ty t)
    if sym.symtype = st ∧ eq then .ok { s with syms := s.syms.set p sym } else .error .diag
  | .label | .literal | .builtin => .error .crash

/-- The creation of a symbol, symtab.c:412-432. -/
def newSymbol (s : State) (name : Bytes) (t : Ty) (st : Symtype) (l : Linkage) : State × Nat :=
  let d := s.ns.depth
  let stat := l = .intern ∧ d ≠ 0
  let p := s.syms.length
  let sym : Sym := { name := name, ty := t, symtype := st, linkage := l, depth := d, n := if stat then s.statics + 1 else 0 }
  ({ s with
      syms := s.syms ++ [sym]
      ns := s.ns.makeVisible name p
      functions := if st ≠ .typedef ∧ t.of = .function then assocInsert s.functions name p else s.functions
      statics := if stat then s.statics + 1 else s.statics }, p)

/-- The function branch of `sym_add`, symtab.c:401-408. -/
def addKnownFunction (fuel : Nat) (s : State) (name : Bytes) (p : Nat) (sym : Sym) (t : Ty) : Except Err (State × Nat) := do
  let r ← applyType fuel s.types sym.ty t
  let d := s.ns.depth
  .ok ({ s with types := r.1, ns := s.ns.makeVisible name p,
                syms := s.syms.set p { sym with ty := r.2, depth := if d < sym.depth then d else sym.depth } }, p)

/-- `sym_add`, symtab.c:383-451. -/
def add (fuel : Nat) (s : State) (name : Bytes) (t : Ty) (st : Symtype) (l : Linkage) : Except Err (State × Nat) :=
  if st = .label then .error .crash
  else match s.ns.lookup name with
  | none =>
    if st ≠ .typedef ∧ t.of = .function then
      match assoc s.functions name with
      | some p =>
        match s.syms[p]? with
        | some sym => addKnownFunction fuel s name p sym t
        | none => .error .crash
      | none => .ok (newSymbol s name t st l)
    else .ok (newSymbol s name t st l)
  | some p =>
    match s.syms[p]? with
    | none => .error .crash
    | some sym =>
      if (s.ns.depth = 0 ∨ l = .extern) ∧ sym.depth = 0 then do
        let s' ← redeclare fuel s p sym t st l
        .ok (s', p)
      else .ok (newSymbol s name t st l)

/-- Storage class specifier of a declaration. -/
inductive Storage
  | none | extern | static | typedef
  deriving DecidableEq, Repr

/-- What follows the declarator: `;` or `,`, `= initializer`, or a function body. -/
inductive Form
  | plain | init | body
  deriving DecidableEq, Repr

/-- `declaration`, declaration.c:1203-1226. -/
def symtypeOf (depth : Nat) : Storage → Symtype × Linkage
  | .extern => (.declaration, .extern)
  | .static => (.tentative, .intern)
  | .typedef => (.typedef, .none)
  | .none => if depth = 0 then (.tentative, .extern) else (.definition, .none)

/-- Adjustment for functions, declaration.c:1031-1039. -/
def adjust (depth : Nat) (t : Ty) (sl : Symtype × Linkage) : Except Err (Symtype × Linkage) :=
  if sl.1 ≠ .typedef ∧ t.of = .function then
    let l := if sl.2 = .none then .extern else sl.2
    if l = .intern ∧ depth ≠ 0 then .error .diag else .ok (.declaration, l)
  else .ok sl

/-- What follows the declarator acts on the symbol, declaration.c:1050-1148. -/
def finishDecl (s : State) (p : Nat) (f : Form) : Except Err (State × Nat) :=
  match s.syms[p]? with
  | none => .error .crash
  | some sym =>
    match f with
    | .plain => .ok (s, p)
    | .init =>
      if sym.symtype = .declaration ∨ (sym.depth = 0 ∧ sym.symtype = .definition) then .error .diag
      else .ok ({ s with syms := s.syms.set p { sym with symtype := .definition } }, p)
    | .body =>
      if sym.linkage = .none ∨ sym.ty.of ≠ .function then .error .diag
      else .ok ({ s with syms := s.syms.set p { sym with symtype := .definition } }, p)

/-- `init_declarator`, declaration.c:1008-1148, for a declarator with type `t`. -/
def declare (fuel : Nat) (s : State) (name : Bytes) (sc : Storage) (t : Ty) (f : Form) : Except Err (State × Nat) := do
  let sl ← adjust s.ns.depth t (symtypeOf s.ns.depth sc)
  let r ← add fuel s name t sl.1 sl.2
  finishDecl r.1 r.2 f

/-- What the parser does with the symbol table. -/
inductive Op
  | push
  | pop
  | add (name : Bytes) (t : Ty) (st : Symtype) (l : Linkage)

def step (fuel : Nat) (s : State) : Op → Except Err State
  | .push => .ok { s with ns := s.ns.push }
  | .pop => do
    let ns ← s.ns.pop
    .ok { s with ns := ns }
  | .add name t st l => do
    let r ← add fuel s name t st l
    .ok r.1

def run (fuel : Nat) : State → List Op → Except Err State
  | s, [] => .ok s
  | s, o :: os => do
    let s' ← step fuel s o
    run fuel s' os

end Verif.Symtab
