import Verif.Abi.VaArg

/-!
# Assignment of objects

`compile_cast`, src/backend/x86_64/compile.c:2824-2908, of a structure or union, with
`store_copy_object` (2805-2822), without position independent code.
-/

namespace Verif.Abi

/-- The top of the x87 stack, `enum reg` in src/backend/x86_64/encoding.h.  `fldt` and `fstpt`
move ten bytes unchanged. -/
def ST0 : Nat := 34

/-- `load_x87` of a `long double`, lines 895-919. -/
def loadX87 (l : Src) : Option (List Ins) :=
  match l with
  | .place p => do some [.ld 10 ST0 (← p.ea)]
  | .deref _ _ => do
    some ((← loadAddress l SI) ++ [.pushm (.base SI 8), .pushm (.base SI 0), .ld 10 ST0 (.base SP 0), .addi SP 16])
  | _ => none

/-- `store_x87`, lines 1178-1206. -/
def storeX87 (target : Src) : Option (List Ins) :=
  match target with
  | .place p => do some [.st 10 ST0 (← p.ea)]
  | .deref _ _ => do
    some ((← loadAddress target CX) ++ [.addi SP (-16), .st 10 ST0 (.base SP 0), .pop AX, .st 8 AX (.base CX 0), .pop AX,
      .st 8 AX (.base CX 8)])
  | _ => none

/-- Lines 2824-2908: how an object of structure or union type is copied. -/
inductive Copy
  /-- Through a register, `w` bytes. -/
  | reg (w : Nat) (real : Bool)
  | x87
  /-- Byte by byte, as by `memcpy`. -/
  | object
  deriving DecidableEq, Repr

def copyKind (t : Ty) : Option Copy :=
  if standard t.size = false ∧ t.size < 8 then
    match t.size with
    | 3 => some (.reg 4 false)
    | 5 | 6 | 7 => some (.reg 8 false)
    | _ => none
  else do
    let pc ← classify t
    match pc with
    | .x87 :: _ => some .x87
    | .integer :: .no :: _ | .sse :: .no :: _ => do
      let (w, k) ← sliceType t pc 0
      some (.reg w (k == .real))
    | .integer :: _ | .sse :: _ | .memory :: _ => some .object
    | _ => none

/-- Code that copies an object.  With `lib`, the declaration of `memcpy` is there (it is not
with `-nostdinc`), and objects of more than 64 bytes are copied by it; the call itself is not
modelled. -/
def assign (lib : Bool) (t : Ty) (l target : Src) : Option (List Ins) := do
  match ← copyKind t with
  | .reg w real => do
    let r := if real then XMM 0 else AX
    some ((← load w (if real then .real else .unsigned) l r) ++ (← store w real r target))
  | .x87 => do some ((← loadX87 l) ++ (← storeX87 target))
  | .object => do
    let addrs := (← loadAddress l SI) ++ (← loadAddress target DI)
    if t.size ≤ 64 ∨ lib = false then some (addrs ++ copyCode t.size)
    else some (addrs ++ [.movi 8 DX t.size])

/-- What an instruction reads or writes in memory: addresses and numbers of bytes. -/
def Ins.touches (s : M) : Ins → List (Int × Int)
  | .ld w _ a | .ldx _ w _ _ a | .st w _ a | .sti w _ a | .addm w _ a => [(s.ea a, w)]
  | .push _ | .pushi _ | .call _ => [(s.reg SP - 8, 8)]
  | .pushm a => [(s.ea a, 8), (s.reg SP - 8, 8)]
  | .pop _ | .ret => [(s.reg SP, 8)]
  | .leave => [(s.reg BP, 8)]
  | .repMovsq => [(s.reg SI, 8 * s.reg CX), (s.reg DI, 8 * s.reg CX)]
  | .lea _ _ | .mov _ _ _ | .movx _ _ _ _ _ | .movi _ _ _ | .zero _ | .addi _ _ | .addw _ _ _ => []

def touches (s : M) : List Ins → List (Int × Int)
  | [] => []
  | i :: is => i.touches s ++ touches (step s i) is

end Verif.Abi
