import Verif.Listing.Whole

/-!
# C93: the listing of a translation unit says what its object file has

`Listing.text` is what is printed with `-S` for a sequence of symbols, data and
instructions; `Elf.Obj` is what the object file written with `-c` for the same sequence
contains (C45, C47).  `Gas.read` reads a listing by the manual of the GNU assembler and
does not refer to the compiler.
-/

namespace Verif.Listing

open Gas
open Asm.Printed (Named IntRange)

/-- **C93 (partial): listings.**  A sequence of symbols, data and instructions is printed as
a text and written as an object, and the assembler reads the text as the same contents:

* the bytes of `.data` and `.rodata`, with padding;
* the places in `.data` that become addresses, of which symbol and with what added;
* the places of objects, constants and string literals;
* the instructions, each being for the assembler what the bytes are for the processor, and
  functions and labels at the same instructions;
* which names are global, and which objects without initialiser are common or local, with
  their sizes.

The text also gives sizes and types of names and the alignment of common objects, those of
the types.

Missing: `-fno-common`, under which the text has objects in `.data` which the object has in
`.bss`; the alignment of common objects, which is not that of the object
(`C93_common_violated`); debug information, which has no text. -/
theorem C93_listing_partial (syms : Bytes → Option Nat) (name : Nat → Bytes) (file : Bytes) (ops : List Op)
    (hn : ∀ s, (10 : UInt8) ∉ name s) (hfile : (10 : UInt8) ∉ file) (hok : Ok syms name .none ops) :
    ∃ t es a, text false name none ops = some t ∧ ops.mapM (Op.elf name) = some es ∧
      Gas.read syms {} (fileText file ++ t) = some a ∧ Same a ((Elf.obj0 (toNats file) false).run es) ∧
      a.sizes = ops.filterMap sizeOf ∧ a.types = ops.filterMap typeOf ∧ a.commons = ops.filterMap alignOf := by
  have h0 : Same {} (Elf.obj0 (toNats file) false) := ⟨rfl, rfl, rfl, rfl, rfl, rfl, rfl, .nil, .nil⟩
  have hf : Fit {} (Elf.obj0 (toNats file) false) := ⟨rfl, by simp⟩
  have hi : Inv syms name .none none {} := ⟨fun _ => rfl, fun e => Place.noConfusion e, fun f hf => by cases hf⟩
  obtain ⟨t, a, es, h1, h2, h3, h4, h5, h6, h7⟩ := text_does hn ops hok hi h0 hf rfl
  refine ⟨t, es, a, h1, h2, ?_, h4, by rw [h5]; rfl, by rw [h6]; rfl, by rw [h7]; rfl⟩
  have hd : Does syms {} (fileText file) {} :=
    does_arg (w := str% ".file") (d := .file) (c := 9) (x := [chr% '"'] ++ (file ++ str% "\"")) (by decide) (by decide)
      (by decide) (by decide)
      ((flat_of (by decide)).append (Flat.append hfile (flat_of (by decide)))) ⟨chr% '"', _, rfl, by decide⟩ rfl
  have := hd.trans h3
  have := this []
  rw [List.append_nil] at this
  exact this

/-! ### Examples -/

/-- `x`, `p`, `main`, `.LC0` and `.LC1`. -/
def exNames : List (Nat × Bytes) := [(1, str% "x"), (2, str% "p"), (3, str% "main"), (4, str% ".LC0"), (5, str% "b")]
def exName (s : Nat) : Bytes := (exNames.lookup s).getD (str% "other")
def exSyms (n : Bytes) : Option Nat := (exNames.find? fun e => e.2 = n).map (·.1)

/-- `short x[2] = {-5, 300}; static char *p = "a\"\n" + 1; int main(void) { push; ... } char b[3];` -/
def exOps : List Op := [
  .symbol ⟨1, false, .data 4 16⟩, .datum (.int 2 (-5)), .datum (.int 2 300),
  .symbol ⟨2, true, .data 8 8⟩, .datum (.addr 4 1),
  .symbol ⟨3, false, .func true⟩, .code ⟨Encode.oMOV, 0, 0, .memReg 8 ⟨some (.normal, 2), 0, 33, 0, 0⟩ 8 1⟩, .endFunction,
  .symbol ⟨4, true, .literal (str% "a\"\n") 16⟩,
  .symbol ⟨5, false, .tentative 3 1 16⟩]

theorem ex_named (s : Nat) (h : s ∈ [1, 2, 3, 4, 5]) : Named exSyms exName s := by
  have : ∀ s ∈ [1, 2, 3, 4, 5], exSyms (exName s) = some s ∧ (∀ c ∈ exName s, Asm.Gas.isWord c = true) ∧
      (exName s).length ≤ 200 ∧ (exName s).head?.any Asm.Gas.isLetter = true := by decide +kernel
  obtain ⟨h1, h2, h3, h4⟩ := this s h
  refine ⟨h1, h2, ?_, h3⟩
  cases e : exName s with
  | nil => rw [e] at h4; cases h4
  | cons c t => rw [e] at h4; exact ⟨c, t, rfl, h4⟩

/-- The hypotheses hold for it. -/
theorem ex_ok : Ok exSyms exName .none exOps := by
  have n := ex_named
  refine ⟨⟨n 1 (by decide), by decide⟩, _, rfl, ⟨by decide, by decide⟩, _, rfl, ⟨by decide, by decide⟩, _, rfl,
    ⟨n 2 (by decide), by decide⟩, _, rfl, ⟨n 4 (by decide), by unfold IntRange; decide⟩, _, rfl,
    ⟨n 3 (by decide), trivial⟩, _, rfl, ⟨?_, ?_⟩, _, rfl, trivial, _, rfl,
    ⟨n 4 (by decide), by decide⟩, _, rfl, ⟨n 5 (by decide), trivial⟩, _, rfl, trivial⟩
  · exact ⟨rfl, ⟨by decide, by decide, by decide⟩, .inl ⟨by decide, by decide, rfl, by decide, by decide⟩⟩
  · exact ⟨by unfold IntRange; decide, n 2 (by decide), rfl, rfl, rfl, .inl rfl⟩

example : text false exName none exOps = some (str%
    "\t.data\n\t.globl\tx\n\t.align\t16\n\t.type\tx, @object\n\t.size\tx, 4\nx:\n\t.short\t-5\n\t.short\t300\n\t.data\n\t.align\t8\n\t.type\tp, @object\n\t.size\tp, 8\np:\n\t.quad\t.LC0+1\n\t.text\n\t.globl\tmain\n\t.type\tmain, @function\nmain:\n\tmovq\tp(%rip), %rax\n\t.size\tmain, .-main\n\t.section\t.rodata\n\t.align\t16\n\t.type\t.LC0, @object\n\t.size\t.LC0, 4\n.LC0:\n\t.string\t\"a\\\"\\n\"\n\t.comm\tb,3,1\n") := by
  decide +kernel

/-- Numbers of three bytes, and constants. -/
example : text false exName none [.symbol ⟨4, true, .float 0x3F800000⟩, .symbol ⟨1, true, .data 3 1⟩, .datum (.int 3 (-2))]
    = some (str% "\t.section\t.rodata\n\t.align\t4\n.LC0:\n\t.long\t1065353216\n\t.data\n\t.align\t1\n\t.type\tx, @object\n\t.size\tx, 3\nx:\n\t.byte\t-2\n\t.byte\t-1\n\t.byte\t-1\n") := by
  decide +kernel

/-- What is read is not arbitrary: a different number gives different contents, and text that
is not a listing is not read. -/
example : (Gas.read exSyms {} (str% "\t.data\nx:\n\t.short\t-5\n")).map (·.data) = some [251, 255]
    ∧ (Gas.read exSyms {} (str% "\t.data\nx:\n\t.short\t70000\n")).isNone
    ∧ (Gas.read exSyms {} (str% "\t.data\ny:\n")).isNone
    ∧ (Gas.read exSyms {} (str% "\t.data\n\tret\n")).isNone
    ∧ (Gas.read exSyms {} (str% "\t.data\n\t.string\t\"a\\101\\t\"\n")).map (·.data) = some [97, 65, 9, 0] := by
  decide +kernel

/-! ### Violations -/

/-- src/backend/x86_64/abi.c:139-151, `sym_alignment`. -/
def symAlignment (array : Bool) (talign : Nat) : Nat := if array && talign < 16 then 16 else talign

/-- **C93 violated: alignment of common objects.**  For `char b[3];` the object file asks for
a common object at a multiple of 16, the alignment the compiler gives to arrays, and the
listing for one at any address: `.comm` is printed with the alignment of the type
(`assemble.c:203`), every other directive with that of the symbol. -/
theorem C93_common_violated :
    ∃ ops t es a e, ops = [.symbol ⟨5, false, .tentative 3 1 (symAlignment true 1)⟩] ∧
      text false exName none ops = some t ∧ Gas.read exSyms {} t = some a ∧ a.commons = [(5, 3, 1)] ∧
      ops.mapM (Op.elf exName) = some es ∧ ((Elf.obj0 [] false).run es).decls = [e] ∧ e.sym.id = 5 ∧ e.value = 16 :=
  ⟨_, str% "\t.comm\tb,3,1\n", [.symbol ⟨5, [98], false, .object true 3 16⟩], { commons := [(5, 3, 1)] },
    ⟨⟨5, [98], false, .object true 3 16⟩, 2, 16, 3⟩, rfl, by decide +kernel, by decide +kernel, rfl, by decide +kernel, by decide +kernel,
    rfl, rfl⟩

end Verif.Listing
