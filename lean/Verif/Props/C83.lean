import Verif.Asm.OutAll
import Verif.Asm.Model
import Verif.Props.C42

/-!
# C83: the assembly text says what the object code does

`asmText` is the line printed for an instruction with `-S`, `encode` the bytes written
with `-c`.  `Gas.instruction` reads a line by the manual of the GNU assembler,
`Intel.decode` reads bytes by the manual of the processor; neither refers to the
compiler.
-/

namespace Verif.Asm

open Encode (Instr encode Good oADD oMOV oCALL oJcc oSUB oCMP oMOV_STR oNOT AX CX SI)
open Encode.Intel (Ins decode)
open Gas (instruction)
open Printed (Printable Written Named Place)

/-- **C83 (partial): one instruction.**  A request is printed as a line and encoded as
bytes, and both are the same instruction: the line as the assembler reads it, the bytes
as the processor does, whatever follows them.  Also the symbol referred to and its offset
are those of the line, and they are what the bytes leave open for the linker (`Links`).

`Good` are the requests C43 is about.  `Printable` leaves out addresses that are not
relative to the instruction pointer but have a symbol, indexes without a scale
(`C83_scale_violated`), addresses with no register, and names of more
than 200 bytes (`C83_long_name_violated`).  Names are to be read back as the symbol they
were printed for. -/
theorem C83_instruction_partial (syms : Bytes → Option Nat) (name : Nat → Bytes) (i : Instr) (h : Good i)
    (hp : Printable syms name i) :
    ∃ text code ins, asmText name i = some text ∧ encode i = some code
      ∧ instruction syms text = some (ins, i.ref)
      ∧ (∀ t, decode (code.val ++ t) = some (ins, t))
      ∧ Encode.Links i code ins := by
  obtain ⟨text, ins, h1, h2, h3⟩ := Printed.good_reads h hp
  obtain ⟨code, ins', k1, k2, k3⟩ := Encode.C43_instruction_partial i h
  obtain ⟨ins'', k4, k5⟩ := Encode.C43_open i h code k1
  rw [h2] at k2 k4
  cases k2
  cases k4
  exact ⟨text, code, ins, h1, k1, h3, k3, k5⟩

/-! ### Examples -/

/-- A program with one variable. -/
def exName (s : Nat) : Bytes := if s = 7 then str% "table" else str% ".LC0"
def exSyms (n : Bytes) : Option Nat := if n = str% "table" then some 7 else if n = str% ".LC0" then some 8 else none

theorem ex_named : Named exSyms exName 7 :=
  ⟨by decide, by decide, ⟨_, _, rfl, by decide⟩, by decide⟩

/-- `addl $70000, table+12(%rip)` -/
def exAdd : Instr := ⟨oADD, 0, 0, .immMem ⟨4, .int 70000⟩ 4 ⟨some (.normal, 7), 12, 33, 0, 0⟩⟩

example : Good exAdd := ⟨rfl, ⟨by decide, by decide, by decide⟩, by decide, by decide, rfl, by decide⟩
example : Printable exSyms exName exAdd :=
  ⟨by unfold Printed.IntRange; decide, ex_named, rfl, rfl, rfl, .inl rfl⟩
example : asmText exName exAdd = some (str% "\taddl\t$70000, table+12(%rip)\n") := by decide +kernel
example : instruction exSyms (str% "\taddl\t$70000, table+12(%rip)\n")
    = some (⟨.add, [.mem 4, .imm 4], some (.rip 0), some 70000⟩, some (.normal, 7, 12)) := by decide +kernel

/-- `movq -8(%rbp,%rcx,4), %r9` and `jne table` -/
example : asmText exName ⟨oMOV, 0, 0, .memReg 8 ⟨none, -8, 6, 2, 4⟩ 8 10⟩
      = some (str% "\tmovq\t-8(%rbp,%rcx,4), %r9\n")
    ∧ asmText exName ⟨oJcc, 5, 0, .imm ⟨8, .addr ⟨some (.normal, 7), 0, 0, 0, 0⟩⟩⟩ = some (str% "\tjne\ttable\n")
    ∧ asmText exName ⟨oMOV_STR, 0, 0xF3, .none 8⟩ = some (str% "\trep movsq\n") := by decide +kernel
example : Place exSyms exName ⟨some (.normal, 7), 0, 0, 0, 0⟩ :=
  ⟨_, 7, rfl, ex_named, by unfold Printed.IntRange; decide, .inl rfl, rfl, rfl, rfl⟩

/-! ### Violations -/

/-- **C83 violated: indexes without a scale.**  An address `(%rax,%rcx)` in inline assembly
has scale 0; the encoder takes 0 for 1, but the text has the 0 (`assemble.c:139`), and the
assembler rejects that. -/
theorem C83_scale_violated :
    ∃ i text code ins, assembleLine ⟨[], []⟩ (str% "mov (%%rax,%%rcx), %%rbx") = .ok [i]
      ∧ asmText exName i = some text ∧ text = str% "\tmovq\t(%rax,%rcx,0), %rbx\n" ∧ encode i = some code
      ∧ decode code.val = some (ins, []) ∧ ins.mem = some (.sib (some 0) (some (1, 1)) 0)
      ∧ instruction exSyms text = none :=
  ⟨⟨oMOV, 0, 0, .memReg 8 ⟨none, 0, 1, 2, 0⟩ 8 4⟩, str% "\tmovq\t(%rax,%rcx,0), %rbx\n", ⟨[0x48, 0x8B, 0x1C, 0x08], []⟩,
    ⟨.mov, [.gpr 3 8, .mem 8], some (.sib (some 0) (some (1, 1)) 0), none⟩,
    by decide +kernel, by decide +kernel, rfl, by decide +kernel, by decide +kernel, rfl, by decide +kernel⟩

/-- **C83 violated: long names.**  Operands are put together in an array of 256 bytes
(`assemble.c:109`) with nothing checked: the name of a variable with 250 bytes, of which C
has only the first 31 significant but allows all, is written past its end. -/
theorem C83_long_name_violated :
    asmText (fun _ => List.replicate 250 (chr% 'a')) ⟨oMOV, 0, 0, .memReg 4 ⟨some (.normal, 7), 0, 33, 0, 0⟩ 4 1⟩ = none
    ∧ Good ⟨oMOV, 0, 0, .memReg 4 ⟨some (.normal, 7), 0, 33, 0, 0⟩ 4 1⟩ :=
  ⟨by decide +kernel, rfl, ⟨by decide, by decide, by decide⟩, .inl (by decide)⟩

/-- **C83 violated: an instruction printed right but encoded wrong.**  `-S` prints
`movb %sil, %al`, and the assembler makes that of it; the object code of `-c` has
`%dh`.  `-S` prints `subq (%rax), %rcx`, the object code subtracts the other way. -/
theorem C83_object_violated :
    (asmText exName ⟨oMOV, 0, 0, .regReg 1 SI 1 AX⟩ = some (str% "\tmovb\t%sil, %al\n")
      ∧ instruction exSyms (str% "\tmovb\t%sil, %al\n") = some (⟨.mov, [.gpr 0 1, .gpr 6 1], none, none⟩, none)
      ∧ ((encode ⟨oMOV, 0, 0, .regReg 1 SI 1 AX⟩).bind fun c => decode c.val)
        ≠ some (⟨.mov, [.gpr 0 1, .gpr 6 1], none, none⟩, []))
    ∧ asmText exName ⟨oSUB, 0, 0, .memReg 8 ⟨none, 0, AX, 0, 0⟩ 8 CX⟩ = some (str% "\tsubq\t(%rax), %rcx\n")
      ∧ instruction exSyms (str% "\tsubq\t(%rax), %rcx\n")
        = some (⟨.sub, [.gpr 1 8, .mem 8], some (.sib (some 0) none 0), none⟩, none)
      ∧ ((encode ⟨oSUB, 0, 0, .memReg 8 ⟨none, 0, AX, 0, 0⟩ 8 CX⟩).bind fun c => decode c.val)
        = some (⟨.sub, [.mem 8, .gpr 1 8], some (.sib (some 0) none 0), none⟩, []) :=
  ⟨⟨by decide +kernel, by decide +kernel, by decide +kernel⟩, by decide +kernel, by decide +kernel, by decide +kernel⟩

/-- **C83 violated: a label that is not jumped to.**  `mov %l0, %%rax` in an `asm goto`
statement is printed as `movq table, %rax`, which loads from memory; the bytes are a move
of an immediate, the distance to the label. -/
theorem C83_label_violated :
    ∃ i code, assembleLine ⟨[], [7]⟩ (str% "mov %l0, %%rax") = .ok [i]
      ∧ asmText exName i = some (str% "\tmovq\ttable, %rax\n") ∧ encode i = some code
      ∧ (decode code.val).map (·.1.ops) = some [.gpr 0 8, .imm 8] :=
  ⟨⟨oMOV, 0, 0, .immReg ⟨8, .addr ⟨some (.normal, 7), 0, 0, 0, 0⟩⟩ 8 AX⟩, _, by decide +kernel, by decide +kernel, rfl,
    by decide +kernel⟩

end Verif.Asm
