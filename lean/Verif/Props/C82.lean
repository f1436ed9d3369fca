import Verif.Asm.Line
import Verif.Props.C42

/-!
# C82: inline assembly

`LineText` says how a line of assembly is written, `Att.att` what instruction it is, both
by the manual of the GNU assembler.  `assembleLine` is what the compiler makes of the
line, `assembleInline` of a template.
-/

namespace Verif.Asm

open Att (Arg att)
open Encode (Instr encode meaning Good)
open Encode.Intel (Ins decode)

/-- The compiler's name for the second row of `add` is 1 where its other parts say 0. -/
def request (i : Instr) : Instr := { i with opcode := if i.opcode = 1 then 0 else i.opcode }

/-- `i` is the instruction `ins` with the symbol `ref`; unless it is one of those C43 is not
about, its bytes are read by the processor as this instruction. -/
def Right (i : Instr) (ins : Ins) (ref : Option (Encode.AType × Nat × Int)) : Prop :=
  meaning (request i) = some ins ∧ i.ref = ref
    ∧ (Good (request i) → ∃ c, encode i = some c ∧ ∀ t, decode (c.val ++ t) = some (ins, t))

theorem sized_iff {n : Nat} {ins : Ins} (h : Sized n ins) : sizedB n ins = true := by
  rw [sizedB_eq, Bool.or_eq_true]
  rcases h with rfl | h
  · exact .inl rfl
  · right
    rw [List.all_eq_true]
    intro o ho
    cases o with
    | mem k =>
      simp only [sizeOk, Bool.or_eq_true, beq_iff_eq]
      exact h k ho
    | _ => rfl

theorem right_of {m : Bytes} {f : Att.Form} {n op ws wd : Nat} {args : List Arg} {o : Encode.Ops} {ins : Ins}
    (hm : (m, f) ∈ Att.names) (ho : OpsOk n args o) (h : Att.meaning f args = some ins) (hs : Sized n ins)
    (ha : m = str% "cvtsi2sd" → ∀ x r, Arg.mem x r ∉ args) (hp : pick o (entries m) = some (op, ws, wd)) :
    Right ⟨op, 0, 0, withWidths o ws wd⟩ ins (refs args) := by
  have hr := ops_right hm ho h (sized_iff hs) (ambiguous_ok ho ha) hp
  refine ⟨hr, ?_, fun hg => ?_⟩
  · rw [ref_withWidths]
    exact ho.ref op 0 0
  · obtain ⟨c, ins', h1, h2, h3⟩ := Encode.C43_instruction_partial _ hg
    have : ins' = ins := by
      have h2' : meaning (request ⟨op, 0, 0, withWidths o ws wd⟩) = some ins := hr
      rw [h2'] at h2
      cases h2
      rfl
    subst this
    refine ⟨c, ?_, h3⟩
    rw [encode_norm (fun h1 => pick_one (fun x hx => row_one _ hm x hx) (by rw [h1] at hp; exact hp)) ho.not_none]
    exact h1

/-- **C82 (partial): a line is never taken for another instruction.**  If the compiler
accepts a line, it is one instruction, the one written: with its operands, widths,
address and immediate, and the symbol or label written.

The line may have blanks, registers, decimal immediates, addresses with all their parts,
operands of the statement by number, and labels.  Left out are names of operands
(`C82_name_violated`), numbers with a sign or an octal or hexadecimal prefix
(`C82_immediate_violated`), variables in memory of another size than the instruction
accesses (`C82_size_violated`), and `cvtsi2sd` from memory (`C82_cvtsi2sd_violated`).
A line that is not valid assembly is not in the claim (`C82_invalid_violated`). -/
theorem C82_line_partial {e : Env} {n : Nat} {m : Bytes} {args : List Arg} {text : Bytes} {ins : Ins} {is : List Instr}
    (ht : LineText e n m args text) (h : att m args = some ins) (hs : Sized n ins)
    (ha : m = str% "cvtsi2sd" → ∀ x r, Arg.mem x r ∉ args) (hr : assembleLine e text = .ok is) :
    ∃ i, is = [i] ∧ Right i ins (refs args) := by
  obtain ⟨f, hf, h⟩ := Option.bind_eq_some_iff.mp h
  have hm := lookup_mem hf
  obtain ⟨_, o, ho, hl⟩ := one_or_two hm ht h
  rw [hl] at hr
  cases hk : matchMnemonic m o with
  | error x => rw [hk] at hr; cases hr
  | ok p =>
    obtain ⟨op, o'⟩ := p
    obtain ⟨ws, wd, hp, rfl⟩ := pick_of_match hk
    rw [hk] at hr
    cases hr
    exact ⟨_, rfl, right_of hm ho h hs ha hp⟩

/-- **C82 (partial): lines that are accepted.**  A line with one of the instructions of
`spoken` is accepted, whatever its operands, and is the instruction written. -/
theorem C82_accepted_partial {e : Env} {n : Nat} {m : Bytes} {args : List Arg} {text : Bytes} {ins : Ins}
    (hm : m ∈ spoken) (ht : LineText e n m args text) (h : att m args = some ins) (hs : Sized n ins) :
    ∃ i, assembleLine e text = .ok [i] ∧ Right i ins (refs args) := by
  obtain ⟨f, hf, h⟩ := Option.bind_eq_some_iff.mp h
  have hmem := lookup_mem hf
  obtain ⟨_, o, ho, hl⟩ := one_or_two hmem ht h
  have hp := ops_accept hm hf ho h (sized_iff hs)
  obtain ⟨⟨op, ws, wd⟩, hp⟩ := Option.isSome_iff_exists.mp hp
  have hne : m ≠ [] := (names_words _ hmem).1
  rw [matchMnemonic_pick hne hp] at hl
  exact ⟨_, hl, right_of hmem ho h hs (fun hc => absurd hc (spoken_not m hm)) hp⟩

/-- `mov` and the vector instructions are accepted with most operands. -/
example : assembleLine ⟨[], []⟩ (str% "mov $7, %%rax") = .ok [⟨18, 0, 0, .immReg ⟨8, .int 7⟩ 8 1⟩]
    ∧ assembleLine ⟨[], []⟩ (str% "addss %%xmm1, %%xmm2") = .ok [⟨50, 0, 0, .regReg 4 18 4 19⟩] := by
  decide +kernel

/-! ### An example: `addl -8(%rbp,%rcx,4), %0` with `%0` in `%ebx` -/

def exEnv : Env := ⟨[([], .reg 4 4), ([], .mem 8 ⟨none, -16, 6, 0, 0⟩), (str% "a", .reg 8 2)], [77]⟩
def exLine : Bytes := str% "\taddl -8(%%rbp, %%rcx,4), %0 "

theorem ex_text : LineText exEnv 0 (str% "addl") [.mem (.sib (some 5) (some (1, 4)) (-8)) none, .gpr 3 4] exLine :=
  .two (b0 := str% "\t") (b1 := str% " ") (b2 := []) (b3 := str% " ") (b4 := str% " ")
    (.disp (dt := str% "-8") (b := []) (.minus (by simp) (by decide) (by decide)) (by intro c h; cases h)
      (.scale (t := str% "%%rbp") (t' := str% "%%rcx") (b1 := []) (b2 := []) (b3 := str% " ") (b4 := []) (b5 := []) (b6 := [])
        ⟨str% "rbp", by decide, rfl⟩ ⟨str% "rcx", by decide, rfl⟩ (s := 4) (by decide) (ds := str% "4") (by decide)
        (by decide) (by decide) (by decide) (by decide) (by decide) (by decide)))
    (.operand (k := 0) (al := []) (o := .reg 4 4) (ds := str% "0") rfl (by decide) (by simp) (by decide) (by decide) (by decide))
    (by decide) (by decide) (by simp) (by decide) (by decide) (by decide)

def exIns : Ins := ⟨.add, [.gpr 3 4, .mem 4], some (.sib (some 5) (some (1, 4)) (-8)), none⟩

example : att (str% "addl") [.mem (.sib (some 5) (some (1, 4)) (-8)) none, .gpr 3 4] = some exIns
    ∧ Sized 0 exIns ∧ str% "addl" ∈ spoken := ⟨by decide +kernel, .inl rfl, by decide⟩
example : assembleLine exEnv exLine = .ok [⟨0, 0, 0, .memReg 4 ⟨none, -8, 6, 2, 4⟩ 4 4⟩] := by decide +kernel
example : (encode ⟨0, 0, 0, .memReg 4 ⟨none, -8, 6, 2, 4⟩ 4 4⟩).map (·.val) = some [0x03, 0x5C, 0x8D, 0xF8] := by
  decide +kernel
example : Good ⟨0, 0, 0, .memReg 4 ⟨none, -8, 6, 2, 4⟩ 4 4⟩ :=
  ⟨rfl, ⟨.inr (by decide), .inr (by decide), by decide, by decide, by decide⟩, .inl (by decide)⟩
example : decode [0x03, 0x5C, 0x8D, 0xF8] = some (exIns, []) := by decide +kernel

/-- A variable in memory, with `n` = 8, and a label of the statement. -/
example : Text exEnv 8 (.mem (.sib (some 5) none (-16)) none) (str% "%1") :=
  .operand (k := 1) (al := []) (o := .mem 8 ⟨none, -16, 6, 0, 0⟩) (ds := str% "1") rfl (by decide) (by simp) (by decide)
    (by decide) (by decide)
example : Text exEnv 8 (.target 77) (str% "%l3") :=
  .label (k := 0) (ds := str% "3") rfl (by simp) (by decide) (by decide) (by decide)

/-! ### Templates -/

/-- `assemble_inline` with enough rounds for the template. -/
def assembleInline (e : Env) (template : Bytes) : Res (List Instr) := assemble e (template.length + 1) template

/-- One line of a template: its text and what it says. -/
structure Line where
  text : Bytes
  size : Nat
  name : Bytes
  args : List Arg
  ins : Ins

def Line.Ok (e : Env) (l : Line) : Prop :=
  LineText e l.size l.name l.args l.text ∧ chr% '\n' ∉ l.text ∧ l.name ∈ spoken ∧ att l.name l.args = some l.ins
    ∧ Sized l.size l.ins

def template (ls : List Line) : Bytes := ls.flatMap fun l => l.text ++ str% "\n"

/-- **C82 (partial): templates.**  Of a template of such lines, each ended by a newline, the
instructions are the ones written, in order. -/
theorem C82_template_partial {e : Env} {ls : List Line} (h : ∀ l ∈ ls, l.Ok e) :
    ∃ is : List Instr, assembleInline e (template ls) = .ok is ∧ is.length = ls.length
      ∧ ∀ k (h1 : k < is.length) (h2 : k < ls.length), Right is[k] ls[k].ins (refs ls[k].args) := by
  have key : ∀ (ls : List Line) (fuel : Nat), (∀ l ∈ ls, l.Ok e) → ls.length < fuel →
      ∃ is : List Instr, assemble e fuel (template ls) = .ok is ∧ is.length = ls.length
        ∧ ∀ k (h1 : k < is.length) (h2 : k < ls.length), Right is[k] ls[k].ins (refs ls[k].args) := by
    intro ls
    induction ls with
    | nil =>
      intro fuel _ hf
      obtain ⟨fuel, rfl⟩ : ∃ f, fuel = f + 1 := ⟨fuel - 1, by simp at hf; omega⟩
      refine ⟨[], rfl, rfl, ?_⟩
      intro k h1
      simp at h1
    | cons l ls ih =>
      intro fuel h hf
      obtain ⟨fuel, rfl⟩ : ∃ f, fuel = f + 1 := ⟨fuel - 1, by simp at hf; omega⟩
      obtain ⟨h1, h2, h3, h4, h5⟩ := h l (by simp)
      obtain ⟨i, hi, hr⟩ := C82_accepted_partial h3 h1 h4 h5
      obtain ⟨js, hj, hjl, hjr⟩ := ih fuel (fun x hx => h x (by simp [hx])) (by simp at hf; omega)
      have hz : NoZero l.text := by
        obtain ⟨f, hf, h⟩ := Option.bind_eq_some_iff.mp h4
        exact (one_or_two (lookup_mem hf) h1 h).1
      have hread : Input.readLine (template (l :: ls)) = .line l.text (template ls) 1 := by
        have := readLine_inert (r := template ls) hz h2
        rw [← this, template, List.flatMap_cons, List.append_assoc]
        rfl
      refine ⟨i :: js, ?_, by simp [hjl], ?_⟩
      · rw [assemble, hread]
        simp only [hi, hj, List.cons_append, List.nil_append]
      · intro k h1 h2
        cases k with
        | zero => exact hr
        | succ k => exact hjr k (by simpa using h1) (by simpa using h2)
  refine key ls _ h ?_
  have : ∀ ls : List Line, ls.length ≤ (template ls).length := by
    intro ls
    induction ls with
    | nil => exact Nat.le_refl _
    | cons l ls ih =>
      rw [template, List.flatMap_cons]
      simp only [List.length_append, List.length_cons, List.length_nil]
      have : (template ls).length = (List.flatMap (fun l : Line => l.text ++ str% "\n") ls).length := rfl
      omega
  have := this ls
  omega

example : (⟨exLine, 0, str% "addl", [.mem (.sib (some 5) (some (1, 4)) (-8)) none, .gpr 3 4], exIns⟩ : Line).Ok exEnv :=
  ⟨ex_text, by decide, by decide, by decide +kernel, .inl rfl⟩
example : assembleInline exEnv (str% "add %%rax, %%rbx\n\n  jmp %l3\n")
    = .ok [⟨0, 0, 0, .regReg 8 1 8 4⟩, ⟨15, 0, 0, .imm ⟨8, .addr ⟨some (.normal, 77), 0, 0, 0, 0⟩⟩⟩] := by
  decide +kernel

/-! ### Violations -/

/-- **C82 violated: the last line.**  A template whose last line is not ended by a newline,
such as `"add %%rax, %%rbx"`, is accepted, and the line is dropped without a word:
`read_line` returns 0 for an incomplete line, which ends the loop (`assembler.c:433`). -/
theorem C82_last_line_violated :
    assembleInline exEnv (str% "add %%rax, %%rbx") = .ok []
    ∧ att (str% "add") [.gpr 0 8, .gpr 3 8] = some ⟨.add, [.gpr 3 8, .gpr 0 8], none, none⟩ := by
  decide +kernel

/-- **C82 violated: the size of a variable.**  `movl $5, %1` and `movl %%eax, %1` with a
variable of eight bytes write eight bytes, the suffix notwithstanding: the width of the
operands is asked before the suffix (`encoding.c:934-978`). -/
theorem C82_size_violated :
    (∃ i, assembleLine exEnv (str% "movl $5, %1") = .ok [i]
      ∧ (meaning (request i)).map (·.ops) = some [.mem 8, .imm 8])
    ∧ (∃ i, assembleLine exEnv (str% "movl %%eax, %1") = .ok [i]
      ∧ (encode i).map (·.val) = some [0x48, 0x89, 0x45, 0xF0])
    ∧ (att (str% "movl") [.imm 5, .mem (.sib (some 5) none (-16)) none]).map (·.ops) = some [.mem 4, .imm 4]
    ∧ (att (str% "movl") [.gpr 0 4, .mem (.sib (some 5) none (-16)) none]).map (·.ops) = some [.mem 4, .gpr 0 4] :=
  ⟨⟨⟨18, 0, 0, .immMem ⟨8, .int 5⟩ 8 ⟨none, -16, 6, 0, 0⟩⟩, by decide +kernel, by decide +kernel⟩,
    ⟨⟨18, 0, 0, .regMem 4 1 8 ⟨none, -16, 6, 0, 0⟩⟩, by decide +kernel, by decide +kernel⟩,
    by decide +kernel, by decide +kernel⟩

/-- **C82 violated: names of operands.**  The characters skipped for `%[a]` are one too many
(`assembler.c:125`).  The comma after it is lost, or the parenthesis, and at the end of a
line the zero byte; the line is accepted if there is a blank. -/
theorem C82_name_violated :
    assembleLine exEnv (str% "add %[a], %%rax") = .error .exit
    ∧ assembleLine exEnv (str% "mov (%[a]), %%rax") = .error .exit
    ∧ assembleLine exEnv (str% "add %%rax, %[a]") = .error .overread
    ∧ assembleLine exEnv (str% "add %[a] , %%rax") = .ok [⟨0, 0, 0, .regReg 8 2 8 1⟩] := by
  decide +kernel

/-- **C82 violated: immediates.**  `$-1` and `$0x10` are rejected; `$` without a number and `$08`
are taken for 0. -/
theorem C82_immediate_violated :
    assembleLine exEnv (str% "mov $-1, %%eax") = .error .exit
    ∧ assembleLine exEnv (str% "mov $0x10, %%eax") = .error .exit
    ∧ assembleLine exEnv (str% "mov $, %%eax") = .ok [⟨18, 0, 0, .immReg ⟨4, .int 0⟩ 4 1⟩]
    ∧ assembleLine exEnv (str% "mov $08, %%eax") = .ok [⟨18, 0, 0, .immReg ⟨4, .int 0⟩ 4 1⟩] := by
  decide +kernel

/-- **C82 violated: `cvtsi2sd` from memory** reads eight bytes; without a suffix there are four. -/
theorem C82_cvtsi2sd_violated :
    (∃ i, assembleLine exEnv (str% "cvtsi2sd (%%rax), %%xmm0") = .ok [i]
      ∧ (encode i).map (fun c => decode c.val)
        = some (some (⟨.cvtsi2sd, [.xmm 0, .mem 8], some (.sib (some 0) none 0), none⟩, [])))
    ∧ att (str% "cvtsi2sd") [.mem (.sib (some 0) none 0) none, .xmm 0]
        = some ⟨.cvtsi2sd, [.xmm 0, .mem 4], some (.sib (some 0) none 0), none⟩ :=
  ⟨⟨⟨56, 0, 0, .memReg 8 ⟨none, 0, 1, 0, 0⟩ 8 17⟩, by decide +kernel, by decide +kernel⟩, by decide +kernel⟩

/-- **C82 violated: instructions that are missing.**  Conditional jumps, condition codes, the
instructions without operands and names with a suffix (except `add`, `mov`, `lea`, and
those of the floating-point stack) are rejected with a diagnostic, though the compiler
itself emits them. -/
theorem C82_missing_violated :
    (∀ c ∈ Att.conditions, ∀ t : Bytes,
      t ∈ [str% "j" ++ c.1 ++ str% " %l3", str% "set" ++ c.1 ++ str% " %%al"] → assembleLine exEnv t = .error .exit)
    ∧ (∀ m ∈ [str% "ret", str% "leave", str% "cltd", str% "cqto"], assembleLine exEnv m = .error .exit)
    ∧ (∀ m ∈ [str% "and", str% "cmp", str% "or", str% "sub", str% "test", str% "xor"],
        assembleLine exEnv (m ++ str% "l %%eax, %%ebx") = .error .exit
        ∧ ∃ ins, att (m ++ str% "l") [.gpr 0 4, .gpr 3 4] = some ins) := by
  refine ⟨by decide +kernel, by decide +kernel, ?_⟩
  intro m hm
  have : ∀ m ∈ [str% "and", str% "cmp", str% "or", str% "sub", str% "test", str% "xor"],
      assembleLine exEnv (m ++ str% "l %%eax, %%ebx") = .error .exit
      ∧ (att (m ++ str% "l") [.gpr 0 4, .gpr 3 4]).isSome := by decide +kernel
  exact ⟨(this m hm).1, Option.isSome_iff_exists.mp (this m hm).2⟩

/-- **C82 violated: what is no instruction is accepted.**  Without a word, `j` is an overflow
jump and `set` stores the overflow flag; registers of different widths or kinds are taken
by their number, so that `movq %%xmm0, %%rax` moves `%rax` to itself (it is valid
assembly, for another instruction); a base of four bytes is taken for one of eight;
parentheses need not close and displacements are cut to 32 bits. -/
theorem C82_invalid_violated :
    (assembleLine exEnv (str% "j %l3")).map (·.map (fun i => (encode i).map (·.val.take 2))) = .ok [some [0x0F, 0x80]]
    ∧ (assembleLine exEnv (str% "set %%al")).map (·.map (fun i => (encode i).map (·.val))) = .ok [some [0x0F, 0x90, 0xC0]]
    ∧ (assembleLine exEnv (str% "movq %%xmm0, %%rax")).map (·.map (fun i => (encode i).map (fun c => decode c.val)))
      = .ok [some (some (⟨.mov, [.gpr 0 8, .gpr 0 8], none, none⟩, []))]
    ∧ (assembleLine exEnv (str% "mov %%eax, %%rbx")).map (·.map (fun i => (encode i).map (fun c => decode c.val)))
      = .ok [some (some (⟨.mov, [.gpr 3 8, .gpr 0 8], none, none⟩, []))]
    ∧ (assembleLine exEnv (str% "addss %%eax, %%ecx")).map (·.map (fun i => (encode i).map (fun c => decode c.val)))
      = .ok [some (some (⟨.addss, [.xmm 1, .xmm 0], none, none⟩, []))]
    ∧ (∀ t ∈ [str% "mov (%%eax), %%rbx", str% "mov (%%rax %%rcx), %%rbx"],
        assembleLine exEnv t = .ok [⟨18, 0, 0, .memReg 8 ⟨none, 0, 1, 0, 0⟩ 8 4⟩])
    ∧ assembleLine exEnv (str% "mov 4294967300(%%rax), %%rbx") = .ok [⟨18, 0, 0, .memReg 8 ⟨none, 4, 1, 0, 0⟩ 8 4⟩] := by
  refine ⟨by decide +kernel, by decide +kernel, ?_, ?_, ?_, by decide +kernel, by decide +kernel⟩
  · have h : assembleLine exEnv (str% "movq %%xmm0, %%rax") = .ok [⟨18, 0, 0, .regReg 8 17 8 1⟩] := by decide +kernel
    rw [h]
    exact congrArg (fun x => Except.ok [x]) (by decide +kernel)
  · have h : assembleLine exEnv (str% "mov %%eax, %%rbx") = .ok [⟨18, 0, 0, .regReg 4 1 8 4⟩] := by decide +kernel
    rw [h]
    exact congrArg (fun x => Except.ok [x]) (by decide +kernel)
  · have h : assembleLine exEnv (str% "addss %%eax, %%ecx") = .ok [⟨50, 0, 0, .regReg 4 1 4 2⟩] := by decide +kernel
    rw [h]
    exact congrArg (fun x => Except.ok [x]) (by decide +kernel)

end Verif.Asm
