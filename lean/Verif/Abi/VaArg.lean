import Verif.Abi.Code
import Verif.Abi.Copy

/-!
# Variable arguments

`va_start` and `va_arg`, src/backend/x86_64/compile.c:1875-2131, without position
independent code.  An object of the type `va_list` has the members

    unsigned gp_offset;         offset 0
    unsigned fp_offset;         offset 4
    void *overflow_arg_area;    offset 8
    void *reg_save_area;        offset 16

(src/parser/builtin.c:152-167, `deconstruct_va_arg` 1887-1907).
-/

namespace Verif.Abi

/-- The operand of `va_start` and `va_arg`: an object of the type `va_list`, at an offset
from the start of a variable, or a pointer to its only element. -/
inductive Ap
  | object (p : Place) (o : Nat)
  | pointer (p : Place)
  deriving DecidableEq, Repr

/-- `store` of a register, src/backend/x86_64/compile.c:1226-1334, to something which is no
bit-field; `real` selects `movs` instead of `mov`. -/
def store (w : Nat) (real : Bool) (r : Nat) (dst : Src) : Option (List Ins) :=
  match dst with
  | .place (.temp x) => some [(if real then Op.movs w else Op.mov w).fromReg x r]
  | .place p => do some [.st w r (← p.ea)]
  | .deref p o => do some ((← loadInt 8 false (.place p) R11 8) ++ [.st w r (.base R11 o)])
  | _ => none

/-- A constant stored in a member of the `va_list`, lines 1926-1938. -/
def storeConst (v : Int) (dst : Src) : Option (List Ins) :=
  match dst with
  | .place p => do some [.sti 4 v (← p.ea)]
  | _ => do some (.movi 4 AX v :: (← store 4 false AX dst))

/-- General purpose registers used for parameters. -/
def intsUsed : List (PC × Bool) → Nat
  | (pc, b) :: l => (if b then ints pc else 0) + intsUsed l
  | [] => 0

/-- src/backend/x86_64/compile.c:1919-1949, `compile__builtin_va_start`, in a function with
the given frame; `resMem` if the address of the result is passed in a register.  The offsets
are those set in `enter`, 1838-1858. -/
def vaStart (f : Frame) (resMem : Bool) (ap : Ap) : Option (List Ins) := do
  let l := match ap with
    | .object p o => Src.place (p.shift o)
    | .pointer p => .deref p 0
  let i := (if resMem then 1 else 0) + intsUsed f.classes
  some ((← storeConst (8 * i : Nat) l) ++ (← storeConst (48 + 16 * sseUsed f.classes : Nat) (l.shift 4)) ++
    [.lea AX (.base BP f.overflow)] ++ (← store 8 false AX (l.shift 8)) ++
    [.lea AX (.base BP (-176))] ++ (← store 8 false AX (l.shift 16)))

/-- Lines 1969-1975: the object the members are read from.  The code asserts that there is
no offset. -/
def Ap.list : Ap → Option Src
  | .object p o => if o = 0 then some (.place p) else none
  | .pointer p => some (.deref p 0)

/-- The loop over eightbytes, lines 2034-2058; `ni` and `ns` are `integer_regs_loaded` and
`sse_regs_loaded`, `off` is `slice.offset`. -/
def vaSlices (t : Ty) (pc : PC) (res : Src) : (n i ni ns off : Nat) → Option (List Ins)
  | 0, _, _, _, _ => some []
  | n + 1, i, ni, ns, off =>
    if pc[i]? = some .integer then do
      let (w, _) ← sliceType t pc i
      let c ← store w false AX (res.shift off)
      some (.ld w AX (.index SI CX (8 * ni : Nat)) :: c ++ (← vaSlices t pc res n (i + 1) (ni + 1) ns (off + w)))
    else if pc[i]? = some .sse then do
      let c ← store 8 true (XMM 0) (res.shift off)
      some (.ld 8 (XMM 0) (.index SI DX (16 * ns : Nat)) :: c ++ (← vaSlices t pc res n (i + 1) ni (ns + 1) (off + 8)))
    else none

/-- Adding to a member, lines 2064-2085 and 2117-2124. -/
def addTo (w : Nat) (v : Int) (dst : Src) : Option (List Ins) :=
  match dst with
  | .place p => do some [.addm w v (← p.ea)]
  | _ => do some ((← load w .unsigned dst AX) ++ .addw w AX v :: (← store w false AX dst))

/-- Whether an object fits a register: `is_standard_register_width`. -/
def standard (w : Nat) : Bool := w == 1 || w == 2 || w == 4 || w == 8

/-- Reading the object at `%rsi`, lines 2098-2112.  A `mov` to a vector register is encoded
as one to the general purpose register with the same number.  Objects of more than 64 bytes
are copied by the library function, which is not modelled. -/
def vaRead (t : Ty) (res : Src) : Option (List Ins) :=
  match standard t.size, res with
  | true, .place (.temp x) => some [.ld t.size (if 17 ≤ x then x - 16 else x) (.base SI 0)]
  | true, .place p => do some [.ld t.size AX (.base SI 0), .st t.size AX (← p.ea)]
  | _, _ => if t.size ≤ 64 then do some ((← loadAddress res DI) ++ copyCode t.size) else none

/-- Lines 2097-2124: the argument is on the stack. -/
def vaStack (t : Ty) (res l : Src) : Option (List Ins) := do
  some ((← load 8 .unsigned (l.shift 8) SI) ++ (← vaRead t res) ++ (← addTo 8 (8 * eightbytes t : Nat) (l.shift 8)))

/-- Loading an offset to compare, if there are registers of that kind. -/
def vaLoad (n : Nat) (src : Src) (r : Nat) : Option (List Ins) :=
  if n = 0 then some [] else load 4 .unsigned src r

def vaAdd (n k : Nat) (dst : Src) : Option (List Ins) :=
  if n = 0 then some [] else addTo 4 (k * n : Nat) dst

/-- The code of `va_arg`, src/backend/x86_64/compile.c:1956-2131: loads of the two offsets,
code for an argument in registers, and for one on the stack. -/
structure VaCode where
  gp : List Ins
  fp : List Ins
  regs : List Ins
  stack : List Ins

def vaCode (t : Ty) (pc : PC) (res l : Src) : Option VaCode := do
  let gp ← vaLoad (ints pc) l CX
  let fp ← vaLoad (sses pc) (l.shift 4) DX
  let area ← load 8 .unsigned (l.shift 16) SI
  let body ← vaSlices t pc res (eightbytes t) 0 0 0 0
  let a1 ← vaAdd (ints pc) 8 l
  let a2 ← vaAdd (sses pc) 16 (l.shift 4)
  let stack ← vaStack t res l
  some ⟨gp, fp, area ++ body ++ a1 ++ a2, stack⟩

/-- Running it: the comparisons are of 32 bits, unsigned. -/
def VaCode.run (c : VaCode) (pc : PC) (s : M) : M :=
  let s1 := Abi.run s c.gp
  if ints pc ≠ 0 ∧ s1.reg CX % 256 ^ 4 > 48 - 8 * ints pc then Abi.run s1 c.stack
  else
    let s2 := Abi.run s1 c.fp
    if sses pc ≠ 0 ∧ s2.reg DX % 256 ^ 4 > 176 - 16 * sses pc then Abi.run s2 c.stack
    else Abi.run s2 c.regs

/-- `res = va_arg(ap, t)`; none if the compiler fails.  With a pointer, the result must not
be an object behind a pointer (the assertion in line 1973). -/
def vaArg (t : Ty) (res : Src) (ap : Ap) (s : M) : Option M := do
  let l ← ap.list
  let pc ← classify t
  match ap, res with
  | .pointer _, .deref _ _ => none
  | _, _ =>
    if pc.head? = some .integer ∨ pc.head? = some .sse then do
      let c ← vaCode t pc res l
      some (c.run pc s)
    else do
      let c ← vaStack t res l
      some (run s c)

end Verif.Abi
