import Verif.Arith.Machine
import Verif.Conv.Model

/-!
# Integer expressions

The code for operators on integers and for the assignment of the result,
src/backend/x86_64/compile.c:1206-1334 and 2346-2910, without position independent code.
Floating operands are not here.  An object at a constant address, `*(int *) 16`, is not
modelled.
-/

namespace Verif.Arith

open Verif.Abi (M Ea Ins Src Place AX CX DX R11)
open Verif.Conv (Val CIns Opd)

/-- Lines 404-411, `is_int_constant`. -/
def constant (v : Val) : Option Int :=
  match v.src with
  | .imm n => if v.sz < 4 ∨ (-2147483648 ≤ n ∧ n ≤ 2147483647) then some n else none
  | _ => none

/-- Lines 2352-2361, `operand_equal`. -/
def sameOperand (a b : Val) : Bool :=
  match a.src with
  | .imm _ => false
  | _ => a.src = b.src ∧ a.field = b.field

/-- `load_int` to a register, lines 686-725. -/
def loadInt (v : Val) (d w : Nat) : Option (List AIns) := do some ((← Conv.loadInt v d w).map .conv)

/-- Lines 730-748, `load`. -/
def load (v : Val) (d : Nat) : Option (List AIns) := loadInt v d (if v.sz < 4 then 4 else v.sz)

/-- Lines 1206-1218, `bitwise_imm_reg`. -/
def bitwiseImm (o : Alu) (w d : Nat) (v : Int) : List AIns :=
  if w = 8 ∧ (2147483647 < v ∨ v < -2147483648) then [.conv (.int (.movi 8 R11 v)), .alu o 8 d R11]
  else [.alui o w d v]

/-- The bits of a field, line 1255: a `long`. -/
def mask (off width : Nat) : Int := signed 8 ((2 ^ width - 1) * 2 ^ off % 256 ^ 8)

/-- Lines 1250-1276: the register `d` gets the other bits of the storage unit of a field. -/
def insertField (t : Val) (off width d : Nat) : Option (List AIns) := do
  some ((← load { t with field := none } CX)
    ++ bitwiseImm .and t.sz CX (-1 - mask off width)
    ++ (if off = 0 then [] else [.conv (.shl t.sz d off)])
    ++ bitwiseImm .and t.sz d (mask off width)
    ++ [.alu .or t.sz d CX])

/-- Lines 1278-1327: a register to something that is no field. -/
def storePlain (t : Val) (d : Nat) : Option (List AIns) := do
  some ((← Abi.store t.sz false d t.src).map fun i => .conv (.int i))

/-- Lines 1226-1334, `store`: a register to the target. -/
def store (d : Nat) (t : Val) : Option (List AIns) :=
  match t.field with
  | none => storePlain t d
  | some (off, width) => do some ((← insertField t off width d) ++ (← storePlain t d))

/-- The same lines, `store_op`, of a constant. -/
def storeConst (v : Int) (t : Val) : Option (List AIns) :=
  match t.field with
  | some (off, width) => do
    let m : Int := signed 8 (Alu.and.eval 8 (v * 2 ^ off) (mask off width))
    some ((← load { t with field := none } CX)
      ++ bitwiseImm .and t.sz CX (-1 - mask off width)
      ++ (if m = 0 then [] else bitwiseImm .or t.sz CX m)
      ++ (← storePlain t CX))
  | none =>
    match t.src with
    | .place (.temp r) => some [.conv (.int (.movi t.sz r v))]
    | .place p => do some [.conv (.int (.sti t.sz v (← p.ea)))]
    | .deref p o => do
      some ((← Abi.loadInt 8 false (.place p) R11 8).map (fun i => .conv (.int i))
        ++ [.conv (.int (.sti t.sz v (.base R11 o)))])
    | _ => none

/-- `store` if there is a target. -/
def storeTo (d : Nat) (t : Option Val) : Option (List AIns) :=
  match t with
  | none => some []
  | some t => store d t

/-- Lines 2363-2470, `compile_add`, the sum of integers of `w` bytes, where the target is the
other operand `v` (lines 2388-2425): `o` is added. -/
def addTo (w : Nat) (v o : Val) : Option (List AIns) :=
  match constant o, v.src with
  | some _, .place (.temp x) => some [.alu .add w x AX]
  | some n, .place p => do some [.alusi .add w (← p.ea) n]
  | none, .place (.temp x) => do some ((← loadInt o AX w) ++ [.alu .add w x AX])
  | none, .place p => do some ((← loadInt o AX w) ++ [.alus .add w (← p.ea) AX])
  | _, _ => none

/-- Not a bit-field, and not to be found through a pointer. -/
def direct (v : Val) : Bool :=
  match v.src with
  | .place _ => v.field = none
  | _ => false

/-- `add` of an operand that is direct, lines 2440-2460. -/
def addDirect (w : Nat) (v : Val) : Option (List AIns) :=
  match v.src with
  | .place (.temp x) => some [.alu .add w AX x]
  | .place p => do some [.alum .add w AX (← p.ea)]
  | _ => none

/-- Lines 2426-2468: the sum in `%rax`. -/
def sum (w : Nat) (l r : Val) : Option (List AIns) :=
  match constant l, constant r with
  | some n, _ => do some ((← loadInt r AX w) ++ [.alui .add w AX n])
  | none, some n => do some ((← loadInt l AX w) ++ [.alui .add w AX n])
  | none, none =>
    if direct l then do some ((← loadInt r AX w) ++ (← addDirect w l))
    else if direct r then do some ((← loadInt l AX w) ++ (← addDirect w r))
    else do some ((← loadInt l AX w) ++ (← loadInt r CX w) ++ [.alu .add w AX CX])

/-- Lines 2363-2470, `compile_add`. -/
def add (t : Option Val) (w : Nat) (l r : Val) : Option (List AIns) :=
  match t with
  | none => sum w l r
  | some tv =>
    if direct tv ∧ sameOperand tv r then addTo w tv l
    else if direct tv ∧ sameOperand tv l then addTo w tv r
    else do some ((← sum w l r) ++ (← store AX tv))

/-- Lines 2472-2502, `compile_sub`. -/
def sub (t : Option Val) (w : Nat) (l r : Val) : Option (List AIns) := do
  some ((← loadInt l AX w) ++ (← loadInt r CX w) ++ [.alu .sub w AX CX] ++ (← storeTo AX t))

/-- Lines 2504-2516, `compile_not`. -/
def not (t : Option Val) (l : Val) : Option (List AIns) := do
  some ((← load l AX) ++ [.not l.sz AX] ++ (← storeTo AX t))

/-- Where an operand is in memory, if it is a variable and not in a register. -/
def inMemory (v : Val) : Option Ea :=
  match v.src with
  | .place p => p.ea
  | _ => none

/-- The second operand of a multiplication, lines 2583-2591. -/
def mulBy (w : Nat) (l : Val) : Option (List AIns) :=
  match inMemory l with
  | some a => some [.mul w (.mem a)]
  | none => do some ((← load l CX) ++ [.mul w (.reg CX)])

/-- Lines 2554-2598, `compile_mul`. -/
def mul (t : Option Val) (w : Nat) (l r : Val) : Option (List AIns) := do
  some ((← load r AX) ++ (← mulBy w l) ++ (← storeTo AX t))

/-- The upper half of the dividend, lines 2625-2631. -/
def extend (l : Val) : Option (List AIns) :=
  if l.signed then (if l.sz = 4 ∨ l.sz = 8 then some [.cxy l.sz] else none)
  else some [.conv (.int (.zero DX))]

/-- The divisor, lines 2632-2642. -/
def divBy (sg : Bool) (r : Val) : Option (List AIns) :=
  match r.field, inMemory r with
  | none, some a => some [.div sg r.sz (.mem a)]
  | _, _ => do some ((← load r CX) ++ [.div sg r.sz (.reg CX)])

/-- Lines 2600-2649, `compile_div`, and 2651-2691, `compile_mod`, up to the store. -/
def divide (sg : Bool) (l r : Val) : Option (List AIns) := do
  some ((← load l AX) ++ (← extend l) ++ (← divBy sg r))

def div (t : Option Val) (sg : Bool) (l r : Val) : Option (List AIns) := do
  some ((← divide sg l r) ++ (← storeTo AX t))

def mod (t : Option Val) (sg : Bool) (l r : Val) : Option (List AIns) := do
  some ((← divide sg l r) ++ (← storeTo DX t))

/-- A constant operand: `kind == IMMEDIATE`. -/
def immediate (v : Val) : Option Int :=
  match v.src with
  | .imm n => some n
  | _ => none

/-- Lines 2702-2714. -/
def bitwiseCode (o : Alu) (l r : Val) : Option (List AIns) :=
  match immediate l, immediate r with
  | _, some n =>
    if l.sz < 8 then do some ((← load l AX) ++ [.alui o l.sz AX n])
    else do some ((← load l AX) ++ (← load r CX) ++ [.alu o l.sz AX CX])
  | some n, none =>
    if l.sz < 8 then do some ((← load r AX) ++ [.alui o l.sz AX n])
    else do some ((← load l AX) ++ (← load r CX) ++ [.alu o l.sz AX CX])
  | none, none => do some ((← load l AX) ++ (← load r CX) ++ [.alu o l.sz AX CX])

/-- Lines 2693-2722, `compile_bitwise`. -/
def bitwise (t : Option Val) (o : Alu) (l r : Val) : Option (List AIns) :=
  if l.sz ≠ r.sz then none else do some ((← bitwiseCode o l r) ++ (← storeTo AX t))

/-- Lines 2731-2766, `compile_shl` and `compile_shr`. -/
def shift (t : Option Val) (left : Bool) (l r : Val) : Option (List AIns) := do
  some ((← load l AX) ++ (← load r CX)
    ++ [if left then .shlc l.sz AX else .shrc l.signed l.sz AX] ++ (← storeTo AX t))

/-- Operators of two operands. -/
inductive Op
  | add | sub | mul | div | mod | and | or | xor | shl | shr
  deriving DecidableEq, Repr

/-- Lines 2910-2976, `compile_assign`: the type of the expression has `w` bytes, `sg` tells whether
it is signed. -/
def binary (op : Op) (t : Option Val) (w : Nat) (sg : Bool) (l r : Val) : Option (List AIns) :=
  match op with
  | .add => add t w l r
  | .sub => sub t w l r
  | .mul => mul t w l r
  | .div => div t sg l r
  | .mod => mod t sg l r
  | .and => bitwise t .and l r
  | .or => bitwise t .or l r
  | .xor => bitwise t .xor l r
  | .shl => shift t true l r
  | .shr => shift t false l r

/-- The register with the result when there is no target. -/
def Op.result : Op → Nat
  | .mod => DX
  | _ => AX

/-- Lines 2824-2908, `compile_cast`, from an integer type to one of `w` bytes; a target has that
type (line 2876). -/
def cast (t : Option Val) (w : Nat) (sg : Bool) (l : Val) : Option (List AIns) :=
  let ld := loadInt l AX (if w < 4 then 4 else w)
  match t with
  | none => ld
  | some tv =>
    if l.sz = w ∧ l.signed = sg then
      match constant l, l.src with
      | some n, _ => storeConst n { tv with sz := w, signed := sg }
      | none, .place (.temp r) => store r { tv with sz := w, signed := sg }
      | none, _ => do some ((← ld) ++ (← store AX { tv with sz := w, signed := sg }))
    else do some ((← ld) ++ (← store AX { tv with sz := w, signed := sg }))

end Verif.Arith
