import Verif.Conv.Machine
import Verif.Abi.Passing
import Verif.Abi.Assign

/-!
# Conversions between arithmetic types at run time

`load_cast` of src/backend/x86_64/compile.c:1140-1176 and what it calls, without position
independent code.  A constant operand does not arrive here, it is converted by `convert`
(C23), except for the constants which the code itself uses.
-/

namespace Verif.Conv

open Verif.Abi (M Ea Ins Src Place AX CX SP SI R11 XMM le val sval rd byteAt)

/-- An operand of integer type: size, sign, and for a bit-field its offset and width in bits. -/
structure Val where
  sz : Nat
  signed : Bool
  field : Option (Nat × Nat) := none
  src : Src
  deriving DecidableEq, Repr

/-- Lines 649-680, `load_field`. -/
def loadField (v : Val) (off width r w : Nat) : Option (List CIns) := do
  if ¬ (0 < width ∧ width < 64 ∧ off + width ≤ 64) then none
  let aw := if v.sz ≤ 4 then 4 else 8
  let l ← Abi.emitLoad (.mov aw) v.src r
  let up := aw * 8 - (off + width)
  let down := off + up
  some (l.map .int
    ++ (if 0 < up then [.shl aw r up] else [])
    ++ (if 0 < down then [.shr v.signed aw r down] else [])
    ++ (if v.signed ∧ aw < w then [.int (.movx true 4 8 r r)] else []))

/-- Lines 686-725, `load_int`. -/
def loadInt (v : Val) (r w : Nat) : Option (List CIns) :=
  match v.field with
  | some (off, width) => loadField v off width r w
  | none => do some ((← Abi.loadInt v.sz v.signed v.src r w).map .int)

/-- Lines 539-630, `emit_load`, with a conversion: `mk` is the instruction. -/
def emitLoad (mk : Opd → CIns) (src : Src) : Option (List CIns) :=
  match src with
  | .place (.temp r) => some [mk (.reg r)]
  | .place p => do some [mk (.mem (← p.ea))]
  | .deref (.temp r) o => some [mk (.mem (.base r o))]
  | .deref p o => do some [.int (.ld 8 R11 (← p.ea)), mk (.mem (.base R11 o))]
  | _ => none

/-- Lines 632-645, `load_sse`, of a number of `sz` bytes as one of `w`. -/
def loadSse (sz : Nat) (src : Src) (r w : Nat) : Option (List CIns) :=
  if sz ≠ w then emitLoad (.cvts2s sz w r) src else emitLoad (.movs w r) src

/-- Lines 954-1005, `load_float_as_integer`: to an integer type of `wd` bytes.  `limit` is where
the constant with the value `2 ^ 63` is, labels are `1` and `2`. -/
def loadFloatAsInteger (sz : Nat) (src : Src) (wd : Nat) (signed : Bool) (limit : Int) : Option (List CIns) :=
  if signed then emitLoad (.cvtts2si sz (if wd < 4 then 4 else wd) AX) src
  else if wd < 4 then emitLoad (.cvtts2si sz 4 AX) src
  else if wd < 8 then emitLoad (.cvtts2si sz 8 AX) src
  else do
    let l ← loadSse sz src (XMM 0) sz
    let k ← loadSse sz (.place (.global limit)) (XMM 1) sz
    let c ← emitLoad (.cvtts2si sz 8 AX) src
    some (l ++ k ++ [.ucomis (XMM 0) (XMM 1), .jae 1] ++ c
      ++ [.jmp 2, .label 1, .subs sz (XMM 0) (XMM 1), .cvtts2si sz 8 AX (.reg (XMM 0)),
          .int (.movi 8 CX (2 ^ 63)), .xor AX CX, .label 2])

/-- Lines 1007-1064, `load_integer_as_float`: to a type of `w` bytes. -/
def loadIntegerAsFloat (v : Val) (w : Nat) : Option (List CIns) :=
  if v.signed then
    if v.sz < 4 ∨ v.field.isSome then do
      some ((← loadInt v AX 4) ++ [.cvtsi2s 4 w (XMM 0) (.reg AX)])
    else emitLoad (.cvtsi2s v.sz w (XMM 0)) v.src
  else if v.sz < 4 then do
    some ((← loadInt v AX 4) ++ [.cvtsi2s 4 w (XMM 0) (.reg AX)])
  else do
    some ((← loadInt v AX 8)
      ++ (if v.sz = 4 then [.int (.mov 4 AX AX)] else [])
      ++ [.test AX, .js 1, .cvtsi2s 8 w (XMM 0) (.reg AX), .jmp 2, .label 1,
          .int (.mov 8 CX AX), .shr false 8 CX 1, .andi 4 AX 1, .or AX CX,
          .cvtsi2s 8 w (XMM 0) (.reg AX), .adds w (XMM 0) (XMM 0), .label 2])

/-- Lines 895-952, `load_x87` of an operand of integer type; `two64` is where the constant
`18446744073709551616.L` is (lines 779-796).  None when an assertion fails: `location_of`
(line 344) does not accept a register. -/
def loadX87Int (v : Val) (two64 : Int) : Option (List CIns) :=
  if ¬ v.signed ∨ v.sz = 1 then do
    some ((← loadInt v AX 8) ++ [.int (.push AX), .fild 8 (.base SP 0), .int (.addi SP 8)]
      ++ (if v.sz = 8 then [.test AX, .jns 1, .fld 10 (.abs two64), .faddp, .label 1] else []))
  else
    match v.src with
    | .place p => do some [.fild v.sz (← p.ea)]
    | _ => do
      some ((← loadInt v AX 8) ++ [.int (.push AX), .fild v.sz (.base SP 0), .int (.addi SP v.sz)])

/-- The same for an operand of floating type of `sz` bytes (16 for long double, of which 10 are
read), not in a register. -/
def loadX87Real (sz : Nat) (src : Src) : Option (List CIns) :=
  let n := if sz = 16 then 10 else sz
  match src with
  | .place p => do some [.fld n (← p.ea)]
  | .deref _ _ =>
    if sz = 16 then do
      some ((← Abi.loadAddress src SI).map .int
        ++ [.int (.pushm (.base SI 8)), .int (.pushm (.base SI 0)), .fld n (.base SP 0), .int (.addi SP 16)])
    else do
      some ((← Abi.loadInt sz false src AX 8).map .int
        ++ [.int (.push AX), .fld n (.base SP 0), .int (.addi SP 8)])
  | _ => none

/-- Lines 1066-1083, `load_float_from_long_double`: to a type of `w` bytes. -/
def loadFloatFromLongDouble (src : Src) (w : Nat) : Option (List CIns) := do
  some ((← loadX87Real 16 src) ++ [.fstp w (.base SP (-8)), .movs w (XMM 0) (.mem (.base SP (-8)))])

/-- Lines 1101-1105: the type really converted to. -/
def fistpWidth (wd : Nat) (signed : Bool) : Nat := if wd < 2 then 2 else if wd = 4 ∧ ¬ signed then 8 else wd

/-- Lines 1092-1133, `load_integer_from_long_double`: to an integer type of `wd` bytes. -/
def loadIntegerFromLongDouble (src : Src) (wd : Nat) (signed : Bool) : Option (List CIns) := do
  let w := fistpWidth wd signed
  some ((← loadX87Real 16 src)
    ++ [.fnstcw (.base SP (-16)), .int (.ldx false 2 4 AX (.base SP (-16))), .ori 4 AX (12 * 2 ^ 8),
        .int (.st 2 AX (.base SP (-14))), .fldcw (.base SP (-14)), .fistp w (.base SP (-8)),
        .fldcw (.base SP (-16)), .int (.ld w AX (.base SP (-8)))])

/-- Lines 1178-1206, `store_x87`. -/
def storeX87 (target : Src) : Option (List CIns) :=
  match target with
  | .place p => do some [.fstp 10 (← p.ea)]
  | .deref _ _ => do
    some ((← Abi.loadAddress target CX).map .int
      ++ [.int (.addi SP (-16)), .fstp 10 (.base SP 0), .int (.pop AX), .int (.st 8 AX (.base CX 0)), .int (.pop AX),
          .int (.st 8 AX (.base CX 8))])
  | _ => none

/-- A type to convert to: sizes in bytes. -/
inductive Ty
  | int (wd : Nat) (signed : Bool)
  | real (w : Nat)
  | ldouble
  deriving DecidableEq, Repr

/-- What is converted. -/
inductive Opnd
  | int (v : Val)
  | real (sz : Nat) (src : Src)
  | ldouble (src : Src)
  deriving DecidableEq, Repr

/-- Lines 1140-1176, `load_cast`.  The result is in `%rax`, `%xmm0` or on the x87 stack; of
`%rax` the low bytes are used, as many as the type has.  `limit` is where the constant
`2 ^ 63` of the type of the operand is, `two64` is where that of `2 ^ 64` is. -/
def loadCast (limit two64 : Int) : Opnd → Ty → Option (List CIns)
  | .int v, .ldouble => loadX87Int v two64
  | .real sz src, .ldouble => loadX87Real sz src
  | .ldouble src, .ldouble => loadX87Real 16 src
  | .ldouble src, .real w => loadFloatFromLongDouble src w
  | .ldouble src, .int wd sg => loadIntegerFromLongDouble src wd sg
  | .real sz src, .real w => loadSse sz src (XMM 0) w
  | .real sz src, .int wd sg =>
    if wd < 4 then loadFloatAsInteger sz src 4 true limit else loadFloatAsInteger sz src wd sg limit
  | .int v, .real w => loadIntegerAsFloat v w
  | .int v, .int wd _ => loadInt v AX (if wd < 4 then 4 else wd)

end Verif.Conv
