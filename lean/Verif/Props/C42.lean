import Verif.Encode.All

/-!
# C42 addresses, C43 instructions, C44 the size of an instruction
-/

namespace Verif.Encode

open Intel (Mn Opnd Mem Ins Head modrmHead address decode)

/-! ## C42: the bytes of an address

`Intel.modrmHead` and `Intel.address` read a ModR/M byte, a SIB byte and a displacement
by the rules of the processor's manual; they are written without reference to the
encoder. -/

/-- `-8(%rbp, %rax, 4)`, and `x+12` for a symbol. -/
def exFrame : Addr := ⟨none, -8, BP, AX, 4⟩
def exSym : Addr := ⟨some (.normal, 7), 12, 0, 0, 0⟩

theorem exFrame_ok : exFrame.Ok := by
  refine ⟨.inr (by decide), .inr (by decide), by decide, by decide, by decide⟩

theorem exSym_ok : exSym.Ok := by
  refine ⟨(fun g => nomatch g), by decide, by decide⟩

/-- **C42 (partial).**  For every well-formed address and any register number beside
it, the encoder appends at most six bytes to what is already there.  A processor that
has read a REX prefix with the extension bits of the base and index, and then reads
these bytes whatever follows them, finds the register number and exactly the base,
index, scale and displacement asked for, and goes on with what follows.

Well-formed (`Addr.Ok`) are all combinations of base, index other than `%rsp`, scale and
a 32-bit displacement, and symbols; left out are an index `%rsp`, which cannot be
encoded but is accepted (`C42_rsp_index_violated`), and a displacement without a base,
on which an assertion fails (`C42_no_base_violated`). -/
theorem C42_address_partial (c : Code) (reg : Nat) (a : Addr) (trailing : Nat) (h : Head)
    (ok : a.Ok) (hx : h.x = if is64 a.index then 8 else 0) (hb : h.b = if is64 a.base then 8 else 0) :
    ∃ bs fix, encodeAddress c reg a trailing = some (⟨c.val ++ bs, c.fix ++ fix⟩, bs.length)
      ∧ (∀ b ∈ bs, b < 256) ∧ bs.length ≤ 6
      ∧ ∀ t, ∃ m l, modrmHead h (bs ++ t) = some (m, l) ∧ m.reg = reg % 8 + h.r
        ∧ address m.rm l = some (some (memOf a), t) := by
  obtain ⟨bs, e, hby, hl, _, hd⟩ := address_decode c reg a trailing h ok ⟨hx, hb⟩
  refine ⟨bs, _, e, hby, hl, fun t => ?_⟩
  obtain ⟨m, l, h1, h2, _, h4⟩ := hd t
  exact ⟨m, l, h1, h2, h4⟩

example : ∃ h : Head, h.x = (if is64 exFrame.index then 8 else 0)
    ∧ h.b = (if is64 exFrame.base then 8 else 0) :=
  ⟨⟨false, 0, none, false, 0x8B⟩, by decide, by decide⟩
example : memOf exFrame = .sib (some 5) (some (0, 4)) (-8) := by decide
example : encodeAddress ⟨[], []⟩ 1 exFrame 0 = some (⟨[0x4C, 0x85, 0xF8], []⟩, 3) := by decide
example : encodeAddress ⟨[], []⟩ 1 exSym 0
    = some (⟨[0x0D, 0, 0, 0, 0], [.reloc relPC32 7 1 12]⟩, 5) := by decide

/-- **C42 (symbols).**  The displacement of a symbol is left to the linker: four zero
bytes that the relocation points at.  The linker stores `S + A - P`, where `A` is the
recorded addend less four (`elf.c:464-470`), and the processor adds the address of the
next instruction, `P + 4 + trailing`; the sum is the symbol plus the displacement. -/
theorem C42_symbol (c : Code) (reg : Nat) (a : Addr) (trailing : Nat) (t : AType) (s : Nat)
    (hs : a.sym = some (t, s)) (ok : a.Ok) :
    ∃ m ty A, encodeAddress c reg a trailing
        = some (⟨c.val ++ [m, 0, 0, 0, 0], c.fix ++ [.reloc ty s (c.val.length + 1) A]⟩, 5)
      ∧ (t = .normal → ty = 2) ∧ (t = .got → ty = 9)
      ∧ ∀ S P : Int, (P + 4 + trailing) + (S + (A - 4) - P) = S + a.disp := by
  have hn : t ≠ .plt := by
    have := ok
    simp only [Addr.Ok, hs] at this
    exact this.1
  refine ⟨reg % 8 * 8 ||| 5, if t = .got then relGOTPCREL else relPC32, a.disp - trailing, ?_, ?_, ?_, ?_⟩
  · cases t with
    | plt => exact absurd rfl hn
    | normal => simp [encodeAddress, hs, Code.push]
    | got => simp [encodeAddress, hs, Code.push]
  · intro g; subst g; rfl
  · intro g; subst g; rfl
  · intro S P; omega

example : exSym.sym = some (.normal, 7) ∧ exSym.Ok := ⟨rfl, exSym_ok⟩

/-- **C42 violated: the stack pointer as index.**  `(%rax,%rsp,2)`, which inline
assembly can ask for (`assembler.c:277-287` takes any register), is encoded as `(%rax)`
with nothing said. -/
theorem C42_rsp_index_violated :
    ∃ c, encode ⟨oMOV, 0, 0, .memReg 8 ⟨none, 0, AX, SP, 2⟩ 8 CX⟩ = some c
      ∧ decode c.val = some (⟨.mov, [G CX 8, .mem 8], some (.sib (some 0) none 0), none⟩, []) :=
  ⟨⟨[0x48, 0x8B, 0x0C, 0x60], []⟩, by decide +kernel, by decide +kernel⟩

/-- **C42 violated: no base.**  `5(,%rcx,4)` is a valid address; an assertion fails. -/
theorem C42_no_base_violated :
    encode ⟨oMOV, 0, 0, .memReg 8 ⟨none, 5, 0, CX, 4⟩ 8 AX⟩ = none
      ∧ decode [0x48, 0x8B, 0x04, 0x8D, 5, 0, 0, 0]
        = some (⟨.mov, [G AX 8, .mem 8], some (.sib none (some (1, 4)) 5), none⟩, []) := by
  decide +kernel

/-! ## C43: the bytes of an instruction

`meaning` gives the instruction a request stands for, `Intel.decode` reads an
instruction from bytes by the opcode maps of the manual. -/

/-- **C43 (partial).**  Every request of `Good` is encoded, and the bytes, whatever
follows them, are read by the processor as exactly the operation asked for, with its
operands, widths, address and immediate.

`Good` has all of the two-operand arithmetic, moves, tests, shifts, extensions,
multiplication and division, stack, call and jump instructions, the vector instructions
and the floating-point stack instructions on memory, with every register, width,
well-formed address and immediate, except the forms listed as violations below and the
floating-point stack instructions on registers (`C43_x87_register_violated`). -/
theorem C43_instruction_partial (i : Instr) (h : Good i) :
    ∃ c ins, encode i = some c ∧ meaning i = some ins
      ∧ ∀ t, decode (c.val ++ t) = some (ins, t) := by
  obtain ⟨c, ins, h1, h2, h3, _⟩ := good_right i h
  exact ⟨c, ins, h1, h2, h3⟩

/-- **C43 (distances left open).**  Of such a request, one without a symbol is complete as
it is; one with a symbol has four bytes left open, whose place, symbol and addend the
encoder reports (`Links`).  Whatever is stored there later, the bytes are read as the
same operation with what was stored as distance. -/
theorem C43_open (i : Instr) (h : Good i) (c : Code) (hc : encode i = some c) :
    ∃ ins, meaning i = some ins ∧ Links i c ins := by
  obtain ⟨c', ins, h1, h2, _, h4⟩ := good_right i h
  rw [hc] at h1
  cases h1
  exact ⟨ins, h2, h4⟩

example : Instr.ref ⟨oADD, 0, 0, .immMem ⟨4, .int 70000⟩ 4 exSym⟩ = some (.normal, 7, 12)
    ∧ encode ⟨oADD, 0, 0, .immMem ⟨4, .int 70000⟩ 4 exSym⟩
      = some ⟨[0x81, 0x05] ++ ([0, 0, 0, 0] ++ [0x70, 0x11, 1, 0]), [.reloc 2 7 2 8]⟩ := by
  decide +kernel

/-- Examples of requests: `addl -8(%rbp,%rax,4), %r8d`, `movb %sil, x+12`,
`cvtsi2sdq %rax, %xmm9`, `andq $-16, %rsp`, `setbe %cl`, `rep movsq`. -/
example : Good ⟨oADD, 0, 0, .memReg 4 exFrame 4 9⟩ :=
  ⟨rfl, exFrame_ok, .inl ⟨rfl, (by decide), rfl, (by decide), (by decide)⟩⟩
example : Good ⟨oMOV, 0, 0, .regMem 1 SI 1 exSym⟩ :=
  ⟨rfl, exSym_ok, .inl ⟨rfl, rfl, (by decide), (by decide)⟩⟩
example : Good ⟨oCVTSI2S, 0, 0, .regReg 8 AX 8 26⟩ :=
  ⟨rfl, .inr (.inr (.inl ⟨_, _, _, _, rfl, (by decide), (by decide)⟩))⟩
example : Good ⟨oAND, 0, 0, .immReg ⟨8, .int (-16)⟩ 8 SP⟩ :=
  ⟨rfl, (by decide), (by decide), .inl ⟨rfl, rfl, (by decide)⟩⟩
example : Good ⟨oSETcc, 6, 0, .reg 1 CX⟩ :=
  ⟨rfl, .inr (.inr ⟨rfl, (by decide), rfl, (by decide)⟩)⟩
example : Good ⟨oMOV_STR, 0, 0xF3, .none 8⟩ := .inr (.inr ⟨rfl, .inr rfl, (by decide)⟩)
example : meaning ⟨oADD, 0, 0, .memReg 4 exFrame 4 9⟩
    = some ⟨.add, [.gpr 8 4, .mem 4], some (.sib (some 5) (some (0, 4)) (-8)), none⟩ := by
  decide +kernel
example : (encode ⟨oADD, 0, 0, .memReg 4 exFrame 4 9⟩).map (·.val) = some [0x44, 0x03, 0x44, 0x85, 0xF8] := by
  decide +kernel
example : (encode ⟨oMOV, 0, 0, .regMem 1 SI 1 exSym⟩).map (·.val) = some [0x40, 0x88, 0x35, 0, 0, 0, 0] := by
  decide +kernel

/-- The table is found by position: every operation's number is the position of a row
of that operation, and the rows tried for it are rows of that operation. -/
theorem C43_table (op : Nat) (h : op ∈ opcodes) :
    candidates op ≠ [] ∧ ∀ e ∈ candidates op, e ∈ encodings ∧ e.opc = op :=
  ⟨(candidates_opc op h).1, fun e he => ⟨candidates_mem he, (candidates_opc op h).2 e he⟩⟩

example : opcodes.length = 52 ∧ encodings.length = 103 := by decide

/-- The bytes emitted for a request are not the instruction asked for. -/
def Wrong (i : Instr) : Prop :=
  ∃ c ins, encode i = some c ∧ meaning i = some ins ∧ decode c.val ≠ some (ins, [])

/-- Decided by evaluation. -/
def wrong (i : Instr) : Bool :=
  match encode i, meaning i with
  | some c, some ins => decode c.val != some (ins, [])
  | _, _ => false

theorem wrong_iff (i : Instr) : wrong i = true ↔ Wrong i := by
  unfold wrong Wrong
  constructor
  · intro h
    split at h
    · rename_i c ins hc hi
      exact ⟨c, ins, hc, hi, by simpa using h⟩
    · cases h
  · rintro ⟨c, ins, hc, hi, hn⟩
    rw [hc, hi]
    simpa using hn

/-- Nothing claimed right by the theorem is one of these. -/
theorem C43_wrong_not_good (i : Instr) (h : Wrong i) : ¬ Good i := by
  intro g
  obtain ⟨c, ins, h1, h2, h3⟩ := h
  obtain ⟨c', ins', k1, k2, k3, _⟩ := good_right i g
  rw [h1] at k1
  rw [h2] at k2
  cases k1
  cases k2
  apply h3
  simpa using k3 []

/-- **C43 violated: subtraction from a register.**  `subq (%rax), %rcx` stores into
memory: the row of `sub` lacks the direction bit. -/
theorem C43_sub_violated :
    Wrong ⟨oSUB, 0, 0, .memReg 8 ⟨none, 0, AX, 0, 0⟩ 8 CX⟩
      ∧ ((encode ⟨oSUB, 0, 0, .memReg 8 ⟨none, 0, AX, 0, 0⟩ 8 CX⟩).bind fun c => decode c.val)
        = some (⟨.sub, [.mem 8, G CX 8], some (.sib (some 0) none 0), none⟩, []) :=
  ⟨(wrong_iff _).mp (by decide +kernel), by decide +kernel⟩

/-- **C43 violated: single bytes in memory.**  `addb $5, (%rax)` and the like are given
opcode `82`, which is invalid in 64-bit mode. -/
theorem C43_byte_memory_violated (op : Nat) (h : op ∈ [oADD, oAND, oCMP, oOR, oSUB, oXOR]) :
    Wrong ⟨op, 0, 0, .immMem ⟨1, .int 5⟩ 1 ⟨none, 0, AX, 0, 0⟩⟩ := by
  have : ∀ op ∈ [oADD, oAND, oCMP, oOR, oSUB, oXOR],
      wrong ⟨op, 0, 0, .immMem ⟨1, .int 5⟩ 1 ⟨none, 0, AX, 0, 0⟩⟩ = true := by decide +kernel
  exact (wrong_iff _).mp (this op h)

/-- **C43 violated: a byte to a register.**  `movb $5, %cl` is emitted as `B9 05`, the
four-byte form with three bytes missing: the processor takes the next three bytes of
code as part of the number.  Reached from C by assigning a constant to a `char`
variable that is a register operand of an `asm` statement. -/
theorem C43_mov_byte_violated :
    (encode ⟨oMOV, 0, 0, .immReg ⟨1, .int 5⟩ 1 CX⟩).map (·.val) = some [0xB9, 5]
      ∧ ∀ x y z t, decode ([0xB9, 5] ++ ([x, y, z] ++ t))
        ≠ some (⟨.mov, [G CX 1, .imm 1], none, some 5⟩, [x, y, z] ++ t) := by
  refine ⟨by decide +kernel, ?_⟩
  intro x y z t h
  have : ∃ v, decode ([0xB9, 5] ++ ([x, y, z] ++ t)) = some (⟨.mov, [.gpr 1 4, .imm 4], none, v⟩, t) :=
    ⟨_, rfl⟩
  obtain ⟨v, hv⟩ := this
  rw [hv] at h
  cases h

/-- **C43 violated: byte registers.**  `%sil`, `%dil`, `%spl` and `%bpl` need a REX
prefix; the register forms lack it and name `%dh`, `%bh`, `%ah` and `%ch`. -/
theorem C43_byte_register_violated (r : Nat) (h : r ∈ [SP, BP, SI, DI]) :
    Wrong ⟨oMOV, 0, 0, .regReg 1 r 1 AX⟩ ∧ Wrong ⟨oNOT, 0, 0, .reg 1 r⟩
      ∧ Wrong ⟨oSETcc, 4, 0, .reg 1 r⟩ ∧ Wrong ⟨oMOVZX, 0, 0, .regReg 1 r 4 AX⟩
      ∧ Wrong ⟨oMOVSX, 0, 0, .regReg 1 r 4 AX⟩ := by
  have : ∀ r ∈ [SP, BP, SI, DI],
      (wrong ⟨oMOV, 0, 0, .regReg 1 r 1 AX⟩ && wrong ⟨oNOT, 0, 0, .reg 1 r⟩
      && wrong ⟨oSETcc, 4, 0, .reg 1 r⟩ && wrong ⟨oMOVZX, 0, 0, .regReg 1 r 4 AX⟩
      && wrong ⟨oMOVSX, 0, 0, .regReg 1 r 4 AX⟩) = true := by decide +kernel
  have k := this r h
  simp only [Bool.and_eq_true] at k
  exact ⟨(wrong_iff _).mp k.1.1.1.1, (wrong_iff _).mp k.1.1.1.2, (wrong_iff _).mp k.1.1.2,
    (wrong_iff _).mp k.1.2, (wrong_iff _).mp k.2⟩

/-- The same for memory and immediate forms with `%spl` and `%bpl`. -/
theorem C43_byte_stack_register_violated (r : Nat) (h : r ∈ [SP, BP]) :
    Wrong ⟨oMOV, 0, 0, .memReg 1 ⟨none, 0, AX, 0, 0⟩ 1 r⟩
      ∧ Wrong ⟨oAND, 0, 0, .immReg ⟨1, .int 5⟩ 1 r⟩ := by
  have : ∀ r ∈ [SP, BP], (wrong ⟨oMOV, 0, 0, .memReg 1 ⟨none, 0, AX, 0, 0⟩ 1 r⟩
      && wrong ⟨oAND, 0, 0, .immReg ⟨1, .int 5⟩ 1 r⟩) = true := by decide +kernel
  have k := this r h
  simp only [Bool.and_eq_true] at k
  exact ⟨(wrong_iff _).mp k.1, (wrong_iff _).mp k.2⟩

/-- **C43 violated: `movzx` from 4 to 8 bytes** reads two bytes only. -/
theorem C43_movzx_violated : Wrong ⟨oMOVZX, 0, 0, .regReg 4 AX 8 CX⟩ :=
  (wrong_iff _).mp (by decide +kernel)

/-- **C43 violated: eight-byte immediates.**  `cmpq $1000, %rcx` and `testq $5, %rcx`
are emitted with eight bytes of immediate; the processor takes four, and the other four
are executed. -/
theorem C43_cmp_immediate_violated :
    Wrong ⟨oCMP, 0, 0, .immReg ⟨8, .int 1000⟩ 8 CX⟩ ∧ Wrong ⟨oTEST, 0, 0, .immReg ⟨8, .int 5⟩ 8 CX⟩
      ∧ ((encode ⟨oCMP, 0, 0, .immReg ⟨8, .int 1000⟩ 8 CX⟩).bind fun c => decode c.val)
        = some (⟨.cmp, [G CX 8, .imm 8], none, some 1000⟩, [0, 0, 0, 0]) :=
  ⟨(wrong_iff _).mp (by decide +kernel), (wrong_iff _).mp (by decide +kernel), by decide +kernel⟩

/-- **C43 violated: floating-point stack registers.**  The number of a stack register is
taken modulo 8 after subtracting one, as for general registers, but stack registers
start at 34: `fld %st(0)` is emitted as `fld %st(1)`. -/
theorem C43_x87_register_violated (n : Nat) (h : n ∈ List.range 8) :
    ((encode ⟨oFLD, 0, 0, .reg 16 (34 + n)⟩).bind fun c => decode c.val)
      = some (⟨.fld, [.st ((n + 1) % 8)], none, none⟩, []) := by
  revert n
  decide +kernel

/-! ## C44: at most fifteen bytes -/

/-- **C44 (partial).**  Whatever the request, with an operation the table has or the
position of a row that only inline assembly gets to (`Numbered`), if it is encoded at all then the bytes fit in the fifteen that are set aside, and each is a
byte.  The exception is a comparison of memory with a number of eight bytes, see
`C44_cmp_violated`.  A prefix is only ever given to string moves. -/
theorem C44_size_partial (i : Instr) (c : Code) (hop : Numbered i.opcode)
    (hp : i.pfx = 0 ∨ i.pfx < 256 ∧ ∃ w, i.ops = .none w) (hcc : i.cc < 16)
    (hw : i.ops.destWidth < 256) (hn : ¬ Wide i) (h : encode i = some c) :
    c.val.length ≤ 15 ∧ ∀ b ∈ c.val, b < 256 := by
  rcases hp with hp | ⟨hp, w, ho⟩
  · have := encode_fine hop hp hcc hw hn h
    exact ⟨this.len, this.byte⟩
  · have := encode_none_fine hp ho h
    exact ⟨this.len, this.byte⟩

example : (encode ⟨oADD, 0, 0, .immMem ⟨4, .int 70000⟩ 4 ⟨none, 70000, 16, 15, 8⟩⟩).map (·.val.length)
    = some 12 := by decide +kernel
example : ¬ Wide ⟨oADD, 0, 0, .immMem ⟨4, .int 70000⟩ 4 ⟨none, 70000, 16, 15, 8⟩⟩ :=
  fun h => absurd h.1 (by decide)

/-- **C44 violated.**  `cmpq $1000, 1000(%rax,%rcx,2)` takes sixteen bytes: one is
written past the end of the array.  (The compiler itself compares with immediates of less
than eight bytes only, `compile.c:2260-2309`, and inline assembly has no `cmpq`, see C82:
the request is one the encoder's interface allows, but no program gets there.) -/
theorem C44_cmp_violated :
    (encode ⟨oCMP, 0, 0, .immMem ⟨8, .int 1000⟩ 8 ⟨none, 1000, AX, CX, 2⟩⟩).map (·.val.length)
      = some 16 := by decide +kernel

end Verif.Encode
