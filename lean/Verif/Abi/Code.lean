import Verif.Abi.Model
import Verif.Abi.Machine

/-!
# Code for passing arguments and entering functions

Transcription of the parts of `src/backend/x86_64/compile.c` which pass arguments and set
up frames, without position independent code (`context.pic`), which loads addresses of
external symbols from a table.
-/

namespace Verif.Abi

/-- Where a symbol is: at an offset from `%rbp`, at an absolute address, or in a register
(a temporary with a slot). -/
inductive Place
  | frame (o : Int)
  | global (a : Int)
  | temp (r : Nat)
  deriving DecidableEq, Repr

/-- `struct var`: DIRECT, DEREF through a pointer, IMMEDIATE, ADDRESS.  Floating point
constants are objects with an address (`sym_create_constant`). -/
inductive Src
  | place (p : Place)
  | deref (p : Place) (o : Nat)
  | imm (v : Int)
  | addr (p : Place)
  deriving DecidableEq, Repr

structure Arg where
  ty : Ty
  src : Src

/-- `var.offset += n`. -/
def Place.shift (n : Nat) : Place → Place
  | .frame o => .frame (o + n)
  | .global a => .global (a + n)
  | .temp r => .temp r

def Src.shift (n : Nat) : Src → Src
  | .place p => .place (p.shift n)
  | .deref p o => .deref p (o + n)
  | s => s

/-- `address_of`, src/backend/x86_64/compile.c:320-341; none for a register. -/
def Place.ea : Place → Option Ea
  | .frame o => some (.base BP o)
  | .global a => some (.abs a)
  | .temp _ => none

/-- How a scalar type is loaded. -/
inductive Kind
  | signed | unsigned | real
  deriving DecidableEq, Repr

/-- `is_scalar` with the size and the kind of access; long double is no case of it. -/
def Ty.scalar : Ty → Option (Nat × Kind)
  | .bool => some (1, .unsigned)
  | .int n s => some (n, if s then .signed else .unsigned)
  | .ptr => some (8, .unsigned)
  | .float => some (4, .real)
  | .double => some (8, .real)
  | _ => none

/-- The opcode `emit_load` is called with. -/
inductive Op
  | mov (w : Nat)
  | movx (signed : Bool) (w dw : Nat)
  | movs (w : Nat)
  deriving DecidableEq, Repr

def Op.fromMem (d : Nat) (a : Ea) : Op → Ins
  | .mov w | .movs w => .ld w d a
  | .movx sg w dw => .ldx sg w dw d a

/-- A move between registers.  `mov` with a vector register is encoded as a move of the
general purpose register with the same number (`reg3`, src/backend/x86_64/encoding.c:14-16;
see `C38_encoding_violated`). -/
def Op.fromReg (d r : Nat) : Op → Ins
  | .mov w => .mov w d (if 17 ≤ r then r - 16 else r)
  | .movs w => .mov w d r
  | .movx sg w dw => .movx sg w dw d (if 17 ≤ r then r - 16 else r)

/-- src/backend/x86_64/compile.c:539-630, `emit_load`, except for ADDRESS. -/
def emitLoad (op : Op) (src : Src) (d : Nat) : Option (List Ins) :=
  match src with
  | .imm v =>
    match op with
    | .mov w => some (if v = 0 then [.zero d] else [.movi w d v])
    | _ => none
  | .place (.temp r) => some [op.fromReg d r]
  | .place p => do some [op.fromMem d (← p.ea)]
  | .deref (.temp r) o => some [op.fromMem d (.base r o)]
  | .deref p o => do some [.ld 8 R11 (← p.ea), op.fromMem d (.base R11 o)]
  | .addr _ => none

/-- src/backend/x86_64/compile.c:686-725, `load_int`, of something which is no bit-field. -/
def loadInt (sz : Nat) (signed : Bool) (src : Src) (r w : Nat) : Option (List Ins) :=
  match src with
  | .addr p => if sz = 8 ∧ w = 8 then do some [.lea r (← p.ea)] else none
  | .imm _ => emitLoad (.mov w) src r
  | _ =>
    if sz < w then
      if signed then emitLoad (.movx true sz w) src r
      else if sz < 4 then emitLoad (.movx false sz w) src r
      else if sz = 4 ∧ w = 8 then emitLoad (.mov 4) src r
      else none
    else if sz > w ∧ sz ≠ 8 then none
    else emitLoad (.mov w) src r

/-- src/backend/x86_64/compile.c:730-748, `load`, with `load_sse` (632-645). -/
def load (sz : Nat) (k : Kind) (src : Src) (r : Nat) : Option (List Ins) :=
  let w := if sz < 4 then 4 else sz
  match k with
  | .real => if 17 ≤ r ∧ r ≤ 24 ∧ (w = 4 ∨ w = 8) then emitLoad (.movs w) src r else none
  | .signed => loadInt sz true src r w
  | .unsigned => loadInt sz false src r w

/-- src/backend/x86_64/compile.c:750-771, `load_address`. -/
def loadAddress (src : Src) (r : Nat) : Option (List Ins) :=
  match src with
  | .place p => do some [.lea r (← p.ea)]
  | .deref p o => do
    let l ← load 8 .unsigned (.place p) r
    some (l ++ if o = 0 then [] else [.addi r o])
  | _ => none

/-- `store` of a register to a parameter, an object at an offset from `%rbp`;
src/backend/x86_64/compile.c:1226-1334. -/
def storeFrame (w r : Nat) (o : Int) : Ins := .st w r (.base BP o)

/-- src/backend/x86_64/compile.c:844-889, `push`. -/
def push (a : Arg) : Option (List Ins) :=
  match a.ty with
  | .ldouble =>
    match a.src with
    | .place p => do some [.pushm (← (p.shift 8).ea), .pushm (← p.ea)]
    | s => do some ((← loadAddress s SI) ++ [.pushm (.base SI 8), .pushm (.base SI 0)])
  | ty =>
    match ty.scalar, a.src with
    | some (sz, k), .imm v =>
      if k ≠ .real ∧ -2147483648 ≤ v ∧ v ≤ 2147483647 then some [.pushi v]
      else do some ((← loadInt sz (k == .signed) (.imm v) AX 8) ++ [.push AX])
    | some (sz, k), s => do some ((← loadInt sz (k == .signed) s AX 8) ++ [.push AX])
    | none, s => do
      let eb := eightbytes ty
      some ([.addi SP (-(eb * 8 : Int)), .movi 4 CX eb, .mov 8 DI SP] ++ (← loadAddress s SI) ++ [.repMovsq])

/-- Registers for arguments, src/backend/x86_64/compile.c:55-56. -/
def paramInt : List Nat := [DI, SI, DX, CX, R8, R9]
def paramSse : List Nat := (List.range 8).map XMM

/-- src/backend/x86_64/compile.c:495-512, `count_register_classifications`: how many
registers of each kind a classification takes. -/
def ints (pc : PC) : Nat := pc.count .integer
def sses (pc : PC) : Nat := pc.count .sse

/-- src/backend/x86_64/compile.c:1343-1362, `alloc_register_params`. -/
def alloc (pc : PC) (i s : Nat) : Bool :=
  (pc.head? == some .integer || pc.head? == some .sse) && decide (i + ints pc ≤ 6) && decide (s + sses pc ≤ 8)

/-- src/backend/x86_64/compile.c:455-493, `slice_type`: size and kind of the access to
eightbyte `i` of an object. -/
def sliceType (t : Ty) (pc : PC) (i : Nat) : Option (Nat × Kind) :=
  if pc[i]? = some .integer ∨ pc[i]? = some .sse then
    match t.scalar with
    | some s => some s
    | none =>
      let n := t.size
      let w := if (i + 1) * 8 < n then 8 else
        match n % 8 with
        | 1 => 1
        | 2 => 2
        | 3 => 4
        | 4 => 4
        | _ => 8
      if pc[i]? = some .sse then
        if w = 4 then some (4, .real) else if w = 8 then some (8, .real) else none
      else some (w, .unsigned)
  else none

/-- The eightbytes of an object with the registers they go to: the loop of
`move_to_from_registers`, src/backend/x86_64/compile.c:1364-1400. -/
def slices (t : Ty) (pc : PC) : (n i : Nat) → (ir sr : List Nat) → Option (List (Nat × Nat × Kind × Nat))
  | 0, _, _, _ => some []
  | n + 1, i, ir, sr => do
    let (w, k) ← sliceType t pc i
    if pc[i]? = some .integer then
      let r ← ir.head?
      some ((i, w, k, r) :: (← slices t pc n (i + 1) ir.tail sr))
    else
      let r ← sr.head?
      some ((i, w, k, r) :: (← slices t pc n (i + 1) ir sr.tail))

/-- Loads of the slices: `load_object_to_registers`. -/
def loadSlices (src : Src) : List (Nat × Nat × Kind × Nat) → Option (List Ins)
  | [] => some []
  | (i, w, k, r) :: l => do some ((← load w k (src.shift (8 * i)) r) ++ (← loadSlices src l))

/-- Stores of the slices to an object at an offset from `%rbp`:
`store_object_from_registers`. -/
def storeSlices (o : Int) (l : List (Nat × Nat × Kind × Nat)) : List Ins :=
  l.map fun (i, w, _, r) => storeFrame w r (o + (8 * i : Nat))

/-- The first pass over types of arguments: for each of them the class, and whether it gets
registers.  src/backend/x86_64/compile.c:1468-1482 and 1793-1809. -/
def classifyAll : List Ty → (i s : Nat) → Option (List (PC × Bool))
  | [], _, _ => some []
  | t :: ts, i, s => do
    let pc ← classify t
    if alloc pc i s then some ((pc, true) :: (← classifyAll ts (i + ints pc) (s + sses pc)))
    else some ((pc, false) :: (← classifyAll ts i s))

/-- Bytes of stack for the arguments in memory. -/
def memUsed : List Ty → List (PC × Bool) → Nat
  | t :: ts, (_, b) :: l => (if b then 0 else 8 * eightbytes t) + memUsed ts l
  | _, _ => 0

/-- Pushing from right to left, src/backend/x86_64/compile.c:1500-1507. -/
def pushAll : List Arg → List (PC × Bool) → Option (List Ins)
  | a :: as, (_, b) :: l => do
    let rest ← pushAll as l
    if b then some rest else some (rest ++ (← push a))
  | _, _ => some []

/-- Loading registers from left to right, src/backend/x86_64/compile.c:1513-1528. -/
def loadAll : List Arg → List (PC × Bool) → (i s : Nat) → Option (List Ins)
  | a :: as, (pc, b) :: l, i, s =>
    if b then do
      let sl ← slices a.ty pc (eightbytes a.ty) 0 (paramInt.drop i) (paramSse.drop s)
      some ((← loadSlices a.src sl) ++ (← loadAll as l (i + ints pc) (s + sses pc)))
    else loadAll as l i s
  | _, _, _, _ => some []

/-- The number of vector registers used, for `%al`. -/
def sseUsed : List (PC × Bool) → Nat
  | (pc, b) :: l => (if b then sses pc else 0) + sseUsed l
  | [] => 0

/-- src/backend/x86_64/compile.c:1437-1528, `push_function_arguments`: code, and bytes of
stack used. -/
def pushFunctionArguments (args : List Arg) (resMem vararg : Bool) : Option (List Ins × Nat) := do
  let l ← classifyAll (args.map (·.ty)) (if resMem then 1 else 0) 0
  let mem := memUsed (args.map (·.ty)) l
  let pad := mem % 16 ≠ 0
  let pushes ← pushAll args l
  let loads ← loadAll args l (if resMem then 1 else 0) 0
  some ((if pad then [.addi SP (-8)] else []) ++ pushes ++ loads ++
      (if vararg then [.movi 4 AX (sseUsed l)] else []),
    if pad then mem + 8 else mem)

/-- Offsets from `%rbp` of the parameters, src/backend/x86_64/compile.c:1793-1815; `so` is
`stack_offset`, `mo` is `mem_offset`, `ro` is `reg_offset`.  The result has also the
final `stack_offset` and `mem_offset`. -/
def paramOffsets (ro : Nat) : List Ty → List (PC × Bool) → (so mo : Int) → List Int × Int × Int
  | t :: ts, (_, b) :: l, so, mo =>
    let n := 8 * eightbytes t
    if b then
      let (r, x) := paramOffsets ro ts l (so - n) mo
      ((so - n - ro) :: r, x)
    else
      let (r, x) := paramOffsets ro ts l so (mo + n)
      (mo :: r, x)
  | _, _, so, mo => ([], so, mo)

/-- `allocate_locals`, src/backend/x86_64/compile.c:1535-1555: offsets of the local
variables, given their sizes, and the final `stack_offset`. -/
def localOffsets (ro : Nat) : List Nat → (so : Int) → List Int × Int
  | [], so => ([], so)
  | n :: ns, so =>
    let so' := so - ((n + 7) / 8 * 8 : Nat)
    let (r, x) := localOffsets ro ns so'
    ((so' - ro) :: r, x)

/-- Registers for temporaries, src/backend/x86_64/compile.c:53. -/
def tempInt : List Nat := [BX, R12, R13, R14, R15]

/-- The layout of a frame. -/
structure Frame where
  classes : List (PC × Bool)
  params : List Int
  locals : List Int
  /-- `stack_offset` when the code is emitted. -/
  size : Int
  /-- `return_address_offset`. -/
  retOffset : Int
  /-- `mem_offset` after the parameters. -/
  overflow : Int
  deriving Repr

/-- The computation in `enter`, src/backend/x86_64/compile.c:1763-1835; `k` is
`int_regs_alloc`, `locals` the sizes of the variables without a register. -/
def frame (params : List Ty) (locals : List Nat) (k : Nat) (resMem vararg : Bool) : Option Frame := do
  let ro := 8 * k
  let l ← classifyAll params (if resMem then 1 else 0) 0
  let so : Int := if vararg then -176 else if resMem then -8 else 0
  let (ps, so, mo) := paramOffsets ro params l so 16
  let (ls, so) := localOffsets ro locals so
  let so := if so - ro < 0 then so - (16 - (ro - so) % 16) else so
  some ⟨l, ps, ls, so, if vararg then -176 - ro else -8 - ro, mo⟩

/-- Stores of the register parameters, src/backend/x86_64/compile.c:1860-1872. -/
def storeAll : List Ty → List (PC × Bool) → List Int → (i s : Nat) → Option (List Ins)
  | t :: ts, (pc, b) :: l, o :: os, i, s =>
    if b then do
      let sl ← slices t pc (eightbytes t) 0 (paramInt.drop i) (paramSse.drop s)
      some (storeSlices o sl ++ (← storeAll ts l os (i + ints pc) (s + sses pc)))
    else storeAll ts l os i s
  | _, _, _, _, _ => some []

/-- The register save area, src/backend/x86_64/compile.c:1842-1857. -/
def saveSse : List Ins := (List.range 8).map fun i => .st 16 (XMM (7 - i)) (.base BP (-(16 * (i + 1) : Nat)))
def saveInt : List Ins :=
  (List.range 6).map fun i => .st 8 (paramInt.getD (5 - i) 0) (.base BP (-(128 + 8 * (i + 1) : Nat)))

/-- The prologue up to the register save area: `compile_function` (3356-3363) and `enter`
(1818-1841). -/
def prologue (f : Frame) (k : Nat) (resMem : Bool) : List Ins :=
  [.push BP, .mov 8 BP SP] ++ (tempInt.take k).map .push ++
    (if f.size < 0 then [.addi SP f.size] ++ (if resMem then [.st 8 DI (.base BP f.retOffset)] else []) else [])

/-- State after entering a function: src/backend/x86_64/compile.c:1727-1873 and 3356-3363.
The vector registers are saved if `%al` is not zero. -/
def enter (params : List Ty) (locals : List Nat) (k : Nat) (resMem vararg : Bool) (s : M) : Option M := do
  let f ← frame params locals k resMem vararg
  let stores ← storeAll params f.classes f.params (if resMem then 1 else 0) 0
  let s := run s (prologue f k resMem)
  let s := if vararg then run (if s.reg AX % 256 = 0 then s else run s saveSse) saveInt else s
  some (run s stores)

/-- Leaving a function, src/backend/x86_64/compile.c:3167-3185. -/
def epilogue (k : Nat) : List Ins :=
  (if k = 0 then [] else .lea SP (.base BP (-(8 * k : Nat))) :: ((tempInt.take k).reverse.map .pop)) ++
    [.leave, .ret]

/-- Saving the registers for floating point temporaries of the caller, of which `m` are
allocated; src/backend/x86_64/compile.c:2133-2143, `store_caller_saved_registers`. -/
def saveTemps : Nat → List Ins
  | 0 => []
  | m + 1 => saveTemps m ++ [.addi SP (-16), .st 8 (XMM (8 + m)) (.base SP 0)]

/-- src/backend/x86_64/compile.c:2145-2155, `load_caller_saved_registers`. -/
def loadTemps : Nat → List Ins
  | 0 => []
  | m + 1 => [.ld 8 (XMM (8 + m)) (.base SP 0), .addi SP 16] ++ loadTemps m

/-- What is called, and where the result goes if it is of class MEMORY.  `fn` is the variable
with the address of the function, if the call does not name a function. -/
structure Call where
  args : List Arg
  vararg : Bool
  result : Option Arg
  fn : Option Src

/-- The address of the result, src/backend/x86_64/compile.c:2177-2180. -/
def resultCode : Option Arg → Option (List Ins)
  | some a => loadAddress a.src DI
  | none => some []

/-- The address of the function, src/backend/x86_64/compile.c:2182-2188. -/
def fnCode : Option Src → Option (List Ins)
  | some f => load 8 .unsigned f R11
  | none => some []

/-- src/backend/x86_64/compile.c:2163-2198, `compile_call`, up to the call, with `m` vector
registers allocated: code, and bytes of stack used for arguments. -/
def callCode (m : Nat) (c : Call) (ra : Int) : Option (List Ins × Nat) := do
  let (args, used) ← pushFunctionArguments c.args c.result.isSome c.vararg
  let res ← resultCode c.result
  let fn ← fnCode c.fn
  some (saveTemps m ++ args ++ res ++ fn ++ [.call ra], used)

/-- src/backend/x86_64/compile.c:2191-2195: what follows the call. -/
def afterCall (m used : Nat) : List Ins := (if used = 0 then [] else [.addi SP used]) ++ loadTemps m

end Verif.Abi
