import Verif.Asm.MatchRep

/-! Every mnemonic with every kind of operands, by representatives. -/

namespace Verif.Asm

open Att (Arg gprName xmmName Form)
open Encode.Intel (Mem Opnd Ins)
open Encode (Addr Imm ImmVal Ops Instr Enc memOf)

def entries (m : Bytes) : List (Nat × Nat × Enc) := entriesFrom m 0 rows

/-- Both rows of `add` are about the same instruction, but only the first has its
number. -/
def norm (op : Nat) : Nat := if op = 1 then 0 else op

/-- A variable in memory has the size the instruction accesses; long doubles have 16
bytes, of which ten are accessed. -/
def sizedB (w : Nat) (ins : Ins) : Bool :=
  w == 0 || ins.ops.all fun o => match o with
    | .mem k => k == 0 || w == (if k = 10 then 16 else k)
    | _ => true

def memWidth : Ops → Nat
  | .mem w _ | .regMem _ _ w _ | .memReg w _ _ _ | .immMem _ w _ => w
  | _ => 0

/-- `cvtsi2sd` with an address says nothing about the size of the number there. -/
def ambiguous (m : Bytes) : Ops → Bool
  | .memReg w _ _ _ => w == 0 && m == str% "cvtsi2sd"
  | _ => false

def chk (m : Bytes) (f : Form) (o : Ops) : Bool :=
  match Att.meaning f (argsOf o) with
  | none => true
  | some ins =>
    !sizedB (memWidth o) ins || ambiguous m o ||
      match pick o (entries m) with
      | none => true
      | some (op, ws, wd) => Encode.meaning ⟨norm op, 0, 0, withWidths o ws wd⟩ = some ins

def repRegs : List (Nat × Nat) :=
  [(1, 1), (1, 2), (1, 3), (2, 1), (2, 2), (2, 3), (4, 1), (4, 2), (4, 3), (8, 1), (8, 2), (8, 3),
    (0, 17), (4, 17), (8, 17)]

def repWidths : List Nat := [0, 1, 2, 4, 8, 16]

def repInts : List Int := [0, 2147483648, 1099511627776]

theorem chk_regReg : ∀ p ∈ Att.names, ∀ x ∈ repRegs, ∀ y ∈ repRegs,
    chk p.1 p.2 (.regReg x.1 x.2 y.1 y.2) = true := by decide +kernel

theorem chk_memReg : ∀ p ∈ Att.names, ∀ w ∈ repWidths, ∀ y ∈ repRegs,
    chk p.1 p.2 (.memReg w noAddr y.1 y.2) = true := by decide +kernel

theorem chk_regMem : ∀ p ∈ Att.names, ∀ x ∈ repRegs, ∀ w ∈ repWidths,
    chk p.1 p.2 (.regMem x.1 x.2 w noAddr) = true := by decide +kernel

theorem chk_immReg : ∀ p ∈ Att.names, ∀ q ∈ repInts, ∀ y ∈ repRegs,
    chk p.1 p.2 (.immReg ⟨0, .int q⟩ y.1 y.2) = true := by decide +kernel

theorem chk_immMem : ∀ p ∈ Att.names, ∀ q ∈ repInts, ∀ w ∈ repWidths,
    chk p.1 p.2 (.immMem ⟨0, .int q⟩ w noAddr) = true := by decide +kernel

theorem chk_reg : ∀ p ∈ Att.names, ∀ y ∈ repRegs, chk p.1 p.2 (.reg y.1 y.2) = true := by decide +kernel

theorem chk_mem : ∀ p ∈ Att.names, ∀ w ∈ repWidths, chk p.1 p.2 (.mem w noAddr) = true := by decide +kernel

theorem chk_imm : ∀ p ∈ Att.names, ∀ q ∈ repInts, chk p.1 p.2 (.imm ⟨0, .int q⟩) = true := by decide +kernel

theorem chk_target : ∀ p ∈ Att.names,
    chk p.1 p.2 (.imm ⟨8, .addr ⟨some (.normal, 0), 0, 0, 0, 0⟩⟩) = true := by decide +kernel

end Verif.Asm
