import Verif.Abi.Assign
import Verif.Abi.Locate

/-!
# Results of functions

`compile_return`, src/backend/x86_64/compile.c:3077-3138, and the end of `compile_call`,
2195-2215.

A result of scalar type is computed in a register by `compile_expression`; here is the case
that it is a variable or a constant.  Code for other expressions ends with the value in
`%rax` as well (C87).  Results of type `long double` are not modelled.
-/

namespace Verif.Abi

/-- Registers for results, src/backend/x86_64/compile.c:55-56. -/
def retInt : List Nat := [AX, DX]
def retSse : List Nat := [XMM 0, XMM 1]

/-- Eightbytes of a result and their registers, for classes INTEGER and SSE. -/
def resultSlices (t : Ty) : Option (List (Nat × Nat × Kind × Nat)) := do
  let pc ← classify t
  match pc.head? with
  | some .integer | some .sse => slices t pc (eightbytes t) 0 retInt retSse
  | _ => none

/-- Lines 3091-3117: a result in registers. -/
def returnCode (a : Arg) : Option (List Ins) := do loadSlices a.src (← resultSlices a.ty)

/-- Lines 3124-3135: a result in memory, of `n` bytes; `ro` is `return_address_offset`.  The
code compares the addresses and jumps over the copy if they are the same.  Objects of more
than 64 bytes are copied by the library function, which is not modelled. -/
def returnMemory (n : Nat) (src : Src) (ro : Int) (s : M) : Option M := do
  let l ← loadAddress src SI
  let s := run s (l ++ [.ld 8 DI (.base BP ro)])
  if s.reg DI = s.reg SI then some s
  else if n ≤ 64 then some (run s (copyCode n ++ [.ld 8 AX (.base BP ro)]))
  else none

/-- Stores of slices: `store_object_from_registers`, src/backend/x86_64/compile.c:1364-1427. -/
def putSlices (dst : Src) : List (Nat × Nat × Kind × Nat) → Option (List Ins)
  | [] => some []
  | (i, w, k, r) :: l => do some ((← store w (k == .real) r (dst.shift (8 * i))) ++ (← putSlices dst l))

/-- Lines 2204-2211: what the caller does with the result. -/
def resultStore (t : Ty) (target : Src) : Option (List Ins) := do putSlices target (← resultSlices t)

end Verif.Abi

/-!
## What the ABI says

Section 3.2.3, "Returning of values".
-/

namespace Verif.Abi.SysV

open Abi (Ty Cls)

/-- `%rax` and `%rdx`. -/
def resultGeneral : List Nat := [1, 3]
/-- `%xmm0` and `%xmm1`. -/
def resultVector : List Nat := [17, 18]

/-- "If the class is INTEGER, the next available register of the sequence %rax, %rdx is
used.  If the class is SSE, the next available vector register of the sequence %xmm0, %xmm1
is used."  The registers of the eightbytes; none if the result is in memory, or on the
floating point stack. -/
def resultRegs (t : Ty) : Option (List Nat) :=
  match passing t with
  | .memory => none
  | .eightbytes cs => (assign cs resultGeneral resultVector).map (·.1)

end Verif.Abi.SysV
