import Verif.Ptr.Ir
import Verif.Expr.Machine

/-!
# Code of statements with pointers

src/backend/x86_64/compile.c, of the statements that `Verif/Ptr/Model.lean` makes, as `Verif/Expr/Model.lean` does for integers.
Position independent code, which goes through the global offset table, and copies of structures (C40) are not here: for those
there is no code.
-/

namespace Verif.Ptr

open Verif.Abi (Place Src AX)
open Verif.Conv (Val)
open Verif.Expr (Layout XIns compareCode setValue)
open Verif.Fold (tyOf)

/-- `is_signed`, type.h:66-69; a pointer is not. -/
def CTy.isSigned : CTy → Bool
  | .int b => Fold.isSigned (tyOf b {})
  | _ => false

def Sym.place (L : Layout) : Sym → Place
  | .var i => L.var i
  | .tmp k _ => L.tmp k

/-- `displacement_from_offset`, compile.c:261-269. -/
def disp (o : BitVec 64) : Option Nat := if o.toNat < 2 ^ 31 then some o.toNat else none

/-- The operand of the back end.  A constant is `value.imm.i`, a `long`.  The address of a variable or of a part of it is
`address_of`, compile.c:320-340.  `DEREF` of a constant, lines 569-575, is not here. -/
def PVar.val (D : Decls) (L : Layout) : PVar → Option Val
  | .imm t v => some ⟨t.size D, t.isSigned, none, .imm v.toInt⟩
  | .dir s o t => (disp o).map fun d => ⟨t.size D, t.isSigned, none, .place ((s.place L).shift d)⟩
  | .adr s o t => (disp o).map fun d => ⟨t.size D, t.isSigned, none, .addr ((s.place L).shift d)⟩
  | .der s o t => (disp o).map fun d => ⟨t.size D, t.isSigned, none, .deref (s.place L) d⟩
  | .derImm _ _ _ => none

def CTy.isRecord : CTy → Bool
  | .record _ => true
  | _ => false

/-- `compile_cast`, lines 2868-2893.  `store_copy_object`, line 2865, is not here. -/
def castCode (D : Decls) (x : Val) (t : CTy) (v : PVar) (l : Val) : Option (List Arith.AIns) :=
  if t.isRecord then none
  else if v.ty = t then Arith.cast (some x) (t.size D) t.isSigned l
  else do
    some ((← Arith.loadInt l AX (if t.size D < 4 then 4 else t.size D))
      ++ (← Arith.store AX { x with sz := t.size D, signed := t.isSigned }))

/-- `compile_statement` 3036-3065 and `compile_assign`, lines 2910-2976, of scalars. -/
def stmtCode (D : Decls) (L : Layout) (s : PStmt) : Option (List XIns) := do
  let x ← s.t.val D L
  match s.e with
  | .cast t v => do some ((← castCode D x t v (← v.val D L)).map .a)
  | .not _ v => do some ((← Arith.not (some x) (← v.val D L)).map .a)
  | .bin op t l r =>
    match Expr.arithOp op, Expr.compareOp op with
    | some o, _ => do some ((← Arith.binary o (some x) (t.size D) t.isSigned (← l.val D L) (← r.val D L)).map .a)
    | _, some o => do
      let (c, cc) ← compareCode o (← l.val D L) (← r.val D L)
      some (c ++ setValue cc ++ (← Arith.store AX x).map .a)
    | none, none => none

def code (D : Decls) (L : Layout) : List PStmt → Option (List XIns)
  | [] => some []
  | s :: r => do some ((← stmtCode D L s) ++ (← code D L r))

end Verif.Ptr
