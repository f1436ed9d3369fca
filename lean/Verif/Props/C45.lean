import Verif.Elf.Objects
import Verif.Elf.Sample
import Verif.Elf.Caps

/-!
# C45 jumps, C46 sections, C47 names, C48 symbols, C49 relocations, C78 placement, C79
# several files

Everything is said of the finished file as a reader finds it: `Reader` knows the layout
of object files from the ABI and nothing of the compiler.  `Compiled file pic noCommon
ops f` says that `f` is written for the calls `ops` of a translation unit (`Calls`), and
has less than 2^31 bytes.

`Reader.linked base addr` is what a linker makes of a section: it is loaded at `base`,
and `addr` gives the address meant by a relocation of a type against an entry of the
symbol table.  `Intel.decode` reads an instruction by the processor's manual.
-/

namespace Verif.Elf

open Encode (Code Instr Good encode meaning refType reach)
open Encode.Intel (Ins decode)

variable {file : List Nat} {pic nc : Bool} {ops : List Op} {f : List Nat}

/-- The code of a file, linked. -/
def linkedText (f : List Nat) (base : Int) (addr : Nat → Nat → Int) : List Nat :=
  Reader.linked base addr (Reader.relas (Reader.contents f 9)) (Reader.contents f 8)

/-- The data of a file, linked. -/
def linkedData (f : List Nat) (base : Int) (addr : Nat → Nat → Int) : List Nat :=
  Reader.linked base addr (Reader.relas (Reader.contents f 7)) (Reader.contents f 6)

/-- A translation unit is always written: no assertion of the writer fails. -/
theorem C46_written (file : List Nat) (pic nc : Bool) (ops : List Op) (h : Calls ops) :
    ∃ f, assemble file pic nc ops = some f := by
  obtain ⟨f, _, h1, _⟩ := assemble_written file pic nc ops (h.ok file nc)
  exact ⟨f, h1⟩

example : Calls sample := sample_calls
example : Compiled [97, 46, 99] false false sample sampleFile := sample_compiled

/-! ## C45: jumps -/

/-- **C45.**  Wherever a jump is in the code and wherever its label is, before or after:
in the finished and linked file the processor reads the jump where it was emitted, with
a distance that added to the address of the following instruction gives the position
the label had when it was declared. -/
theorem C45_jump (h : Compiled file pic nc ops f) (base : Int) (addr : Nat → Nat → Int)
    {a b : List Op} {c : Code} (hops : ops = a ++ .text c :: b) (hend : .endFunction ∈ b)
    {i : Instr} (hi : Good i) (he : encode i = some c) (hj : i.jumps = true) {l : Nat} (hr : i.ref = some (.normal, l, 0))
    {a' b' : List Op} {s : Sym} (hl : ops = a' ++ .symbol s :: b') (hk : s.kind = .label) (hs : s.id = l) :
    ∃ ins d, meaning i = some ins
      ∧ decode ((linkedText f base addr).drop (codeLen a))
        = some (reach ins d, (linkedText f base addr).drop (codeLen a + c.val.length))
      ∧ ((codeLen a + c.val.length : Nat) : Int) + d = codeLen a' := by
  obtain ⟨ins, m, _, _⟩ := good_links hi he
  have := (h.made.walk h.calls.coded hops hend hi he m base addr).2.1 l a' b' s hj hr hl hk hs
  exact ⟨ins, _, m, this, by omega⟩

/-- In the sample, `je` jumps forward over an instruction of ten bytes, `jmp` back. -/
example : sample = sample.take 2 ++ .text cJe :: sample.drop 3 ∧ iJe.jumps = true
    ∧ iJe.ref = some (.normal, 2, 0) ∧ sample = sample.take 4 ++ .symbol sL :: sample.drop 5
    ∧ codeLen (sample.take 2) = 1 ∧ codeLen (sample.take 4) = 17 := by decide
example : (Reader.contents sampleFile 8)
    = [85, 15, 132, 10, 0, 0, 0, 199, 5, 0, 0, 0, 0, 7, 0, 0, 0, 232, 0, 0, 0, 0, 233, 246, 255, 255, 255, 195] := by
  decide +kernel

/-! ## C46: sections -/

/-- **C46 (partial).**  The file has ten section headers, and a table of their names;
names, types and flags are those of the ABI, and the links between sections are right.
The contents of every section are within the file, after the file header and the section
headers (704 bytes), and before those of the next.

What is missing is that contents start at a multiple of the section's alignment: that is
false, see `C46_alignment_violated`. -/
theorem C46_sections_partial (h : Compiled file pic nc ops f) :
    Reader.shnum f = 10 ∧ Reader.shstrndx f = 1
      ∧ (∀ k, 1 ≤ k → k ≤ 9 → Reader.str (Reader.contents f 1) (Reader.shName f k) = some (shName k)
        ∧ (Reader.shType f k, Reader.shFlags f k, Reader.shLink f k) = secFacts k)
      ∧ Reader.shInfo f 7 = 6 ∧ Reader.shInfo f 9 = 8
      ∧ (∀ k, 1 ≤ k → k ≤ 9 → k ≠ 4 → 704 ≤ Reader.shOffset f k ∧ Reader.shOffset f k + Reader.shSize f k ≤ f.length)
      ∧ ∀ i j, 1 ≤ i → i < j → j ≤ 9 → i ≠ 4 → j ≠ 4 →
        Reader.shOffset f i + Reader.shSize f i ≤ Reader.shOffset f j := by
  obtain ⟨off, w, _⟩ := h.made.written
  exact ⟨w.shnum, w.shstrndx, fun k h1 h2 => ⟨w.names k h1 h2, w.heads k h1 h2⟩, w.infoData, w.infoText, w.inside,
    w.apart⟩

/-- **C46 violated: alignment.**  The padding before a section is the remainder of the
offset (elf.c:203), not what is missing to the next multiple: in the file of the sample,
`.text` has alignment 16 and is at an offset that is not a multiple of 16; likewise the
symbol table, with alignment 4, `.rodata`, with 16, and `.data`, with 8. -/
theorem C46_alignment_violated :
    (Reader.shAlign sampleFile 8, Reader.shOffset sampleFile 8 % 16) = (16, 8)
      ∧ (Reader.shAlign sampleFile 3, Reader.shOffset sampleFile 3 % 4) = (4, 2)
      ∧ (Reader.shAlign sampleFile 5, Reader.shOffset sampleFile 5 % 16) = (16, 4)
      ∧ (Reader.shAlign sampleFile 6, Reader.shOffset sampleFile 6 % 8) = (8, 6) := by
  decide +kernel

/-- The contents of the sections that the code generator fills have the sizes of what
was emitted. -/
theorem C46_sizes (h : Compiled file pic nc ops f) :
    (Reader.contents f 8).length = codeLen ops ∧ Reader.shSize f 8 = codeLen ops
      ∧ (Reader.contents f 7).length = 24 * dataRefs ops
      ∧ (Reader.contents f 9).length = 24 * (codeRefs 0 ops).length := by
  obtain ⟨off, w, _⟩ := h.made.written
  have h8 := text_length w
  rw [run_len] at h8
  have h0 : (obj0 file nc).len = 0 := rfl
  rw [h0, Nat.zero_add] at h8
  refine ⟨h8, ?_, ?_, ?_⟩
  · rw [← size_of_contents (w.inside 8 (by decide) (by decide) (by decide)).2, h8]
  · rw [w.relData, relas_length]
    obtain ⟨x, g1, g2, _⟩ := run_dataRel (obj0 file nc) ops
    rw [g1, ← g2]
    rfl
  · rw [w.relText, relas_length]
    have := congrArg List.length (run_refs (obj0 file nc) ops)
    rw [List.length_map] at this
    rw [this]
    rfl

/-! ## C47, C48: names and symbols -/

/-- **C47.**  The name recorded in a symbol's entry is the position at which exactly its
name is found in the string table, whatever was added before or after. -/
theorem C47_names (h : Compiled file pic nc ops f) (j : Nat) (s : Sym) (hj : (order ops)[j]? = some s) :
    Reader.str (Reader.contents f 2) (Reader.symbol (Reader.contents f 3) (8 + j)).name = some s.name := by
  obtain ⟨off, w, _⟩ := h.made.written
  obtain ⟨d, h1, h2, h3, h4⟩ := h.made.at w hj
  rw [h.made.entry w h1, w.strs, ← h2]
  exact ((w.sane.named d h4).mono _).str

example : (order sample)[3]? = some sF := by decide
example : Reader.str (Reader.contents sampleFile 2) (Reader.symbol (Reader.contents sampleFile 3) 11).name = some [102] := by
  decide +kernel

/-- **C48.**  Symbols have one entry each, after eight fixed ones; those local to the file
come first, and either group is in the order of declaration.  The entry says whether the
symbol is local, whether it is a function or an object, and where it is defined.  With
position-independent code there is one more entry, for the global offset table. -/
theorem C48_entries (h : Compiled file pic nc ops f) :
    (Reader.contents f 3).length = 24 * (8 + (order ops).length + if pic then 1 else 0)
      ∧ (∀ (j : Nat) (s : Sym), (order ops)[j]? = some s →
        ∃ name value size, Reader.symbol (Reader.contents f 3) (8 + j)
          = ⟨name, if s.intern then 0 else 1, symType s, home nc s, value, size⟩)
      ∧ (∀ s, s ∈ order ops ↔ .symbol s ∈ ops ∧ s.kind ≠ .label)
      ∧ ∀ (i j : Nat) (s t : Sym), (order ops)[i]? = some s → (order ops)[j]? = some t → s.intern = true → t.intern = false → i < j := by
  obtain ⟨off, w, _⟩ := h.made.written
  refine ⟨?_, ?_, ?_, ?_⟩
  · rw [w.syms, entries_length]
    have := congrArg List.length (order_decls (file := file) (nc := nc) ops)
    rw [List.length_map] at this
    unfold entries gotEnts
    rw [List.length_append, List.length_append, List.length_map, this]
    cases pic <;> rfl
  · intro j s hj
    obtain ⟨d, h1, h2, h3, h4⟩ := h.made.at w hj
    rw [h.made.entry w h1, h2]
    exact ⟨_, _, _, rfl⟩
  · intro s
    rw [order_mem, declared_mem]
  · intro i j s t hi hj hs ht
    unfold order at hi hj
    rcases Nat.lt_or_ge i ((declared ops).filter (·.intern)).length with g | g
    · rcases Nat.lt_or_ge j ((declared ops).filter (·.intern)).length with g' | g'
      · rw [List.getElem?_append_left g'] at hj
        have := (List.mem_filter.mp (List.mem_of_getElem? hj)).2
        rw [ht] at this
        cases this
      · omega
    · rw [List.getElem?_append_right g] at hi
      have := (List.mem_filter.mp (List.mem_of_getElem? hi)).2
      simp [hs] at this

example : order sample = [sC, sB, sB', sF, sD, sE, sX, sG] := by decide

/-- **C48 (partial): the first global symbol.**  When there is a global symbol, or with
position-independent code, the section header's info field is the index of the first
global entry: everything before it is local. -/
theorem C48_info_partial (h : Compiled file pic nc ops f) (hg : pic = true ∨ ∃ s ∈ declared ops, s.intern = false) :
    Reader.shInfo f 3 = 8 + ((declared ops).filter (·.intern)).length := by
  obtain ⟨off, w, _⟩ := h.made.written
  have hd := run_declared (obj0 file nc) ops
  have h0 : (obj0 file nc).decls.map (·.sym) = [] := rfl
  rw [h0, List.nil_append] at hd
  have hn : ¬ (((obj0 file nc).run ops).globals = [] ∧ pic = false) := by
    rintro ⟨g1, g2⟩
    rcases hg with hg | ⟨s, hs, hi⟩
    · rw [hg] at g2; cases g2
    · rw [← hd] at hs
      obtain ⟨d, hdm, rfl⟩ := List.mem_map.mp hs
      have : d ∈ ((obj0 file nc).run ops).globals := List.mem_filter.mpr ⟨hdm, by simp [hi]⟩
      rw [g1] at this
      cases this
  rw [w.info, if_neg hn, ← hd, List.filter_map, List.length_map]
  rfl

example : ∃ s ∈ declared sample, s.intern = false := ⟨sF, by decide, rfl⟩
example : Reader.shInfo sampleFile 3 = 11 := by decide +kernel

/-- `static int f(void) { ... }` alone. -/
def onlyStatic : List Op := [.symbol { sF with intern := true }, .text cRet, .endFunction]

/-- **C48 violated: no global symbols.**  The info field is only set when a global
symbol is added (elf.c:253-255): a file with nothing but static functions has nine local
entries, and an info field of zero, which says that all of them, and the null entry, are
global. -/
theorem C48_info_violated :
    (assemble [97, 46, 99] false false onlyStatic).map (fun f =>
      (Reader.shInfo f 3, (Reader.contents f 3).length, (Reader.symbol (Reader.contents f 3) 8).bind))
      = some (0, 24 * 9, 0) := by
  decide +kernel

/-! ## C49: relocations -/

/-- **C49.**  Take any instruction that refers to a symbol plus an offset, other than a
jump, in any of the forms of `Good`: with an address, with an address and an immediate
after it, or a call; directly, by a stub, or through the global offset table.  Link the
file anywhere.  Then the processor reads at the place of the instruction the operation
asked for, with a distance that, added to the address of the following instruction,
gives exactly the address meant plus the offset.  (The distance has to fit in 32 bits;
a linker reports when it does not.) -/
theorem C49_code (h : Compiled file pic nc ops f) (base : Int) (addr : Nat → Nat → Int)
    {a b : List Op} {c : Code} (hops : ops = a ++ .text c :: b) (hend : .endFunction ∈ b)
    {i : Instr} (hi : Good i) (he : encode i = some c) (hj : i.jumps = false) {ty : Encode.AType} {s : Sym} {disp : Int}
    (hr : i.ref = some (ty, s.id, disp)) {j : Nat} (hs : (order ops)[j]? = some s)
    {d : Int} (hd : base + (codeLen a + c.val.length : Nat) + d = addr (refType ty) (8 + j) + disp)
    (hlo : -2 ^ 31 ≤ d) (hhi : d < 2 ^ 31) :
    ∃ ins, meaning i = some ins
      ∧ decode ((linkedText f base addr).drop (codeLen a))
        = some (reach ins d, (linkedText f base addr).drop (codeLen a + c.val.length)) := by
  obtain ⟨ins, m, _, _⟩ := good_links hi he
  have hd' : d = addr (refType ty) (8 + j) + disp - (base + (codeLen a + c.val.length : Nat)) := by omega
  subst hd'
  exact ⟨ins, m, (h.made.walk h.calls.coded hops hend hi he m base addr).2.2 ty s disp j hj hr hs hlo hhi⟩

/-- In the sample: `movl $7, x+4`, with four bytes after the distance. -/
example : sample = sample.take 3 ++ .text cMov :: sample.drop 4 ∧ Op.endFunction ∈ sample.drop 4
    ∧ iMov.jumps = false ∧ iMov.ref = some (.normal, sX.id, 4) ∧ (order sample)[6]? = some sX := by decide
example : Reader.relas (Reader.contents sampleFile 9) = [⟨9, 14, 2, -4⟩, ⟨18, 15, 4, -4⟩] := by decide +kernel

/-- **C49 (everything else).**  An instruction that refers to no symbol is read as what
was asked for; and bytes of any other instruction without reference are unchanged. -/
theorem C49_plain (h : Compiled file pic nc ops f) (base : Int) (addr : Nat → Nat → Int)
    {a b : List Op} {c : Code} (hops : ops = a ++ .text c :: b) (hend : .endFunction ∈ b) :
    (∀ i ins, Good i → encode i = some c → meaning i = some ins → i.ref = none →
      decode ((linkedText f base addr).drop (codeLen a))
        = some (ins, (linkedText f base addr).drop (codeLen a + c.val.length)))
    ∧ (c.fix = [] → (linkedText f base addr).drop (codeLen a)
        = c.val ++ (linkedText f base addr).drop (codeLen a + c.val.length)) :=
  ⟨fun _ _ hi he hm hr => (h.made.walk h.calls.coded hops hend hi he hm base addr).1 hr,
    fun hf => h.made.plain h.calls.coded hops hend hf base addr⟩

example : sample = sample.take 7 ++ .text cRet :: sample.drop 8 ∧ Op.endFunction ∈ sample.drop 8
    ∧ iRet.ref = none := by decide

/-- **C49 (data).**  Let `loc` be the address of each symbol, that is, the linker gives
`loc s` to the entry of `s`.  Then the linked data of an object are, from its address
on, the bytes given by its initialiser, with every address of a symbol plus an offset
replaced by that address, in eight bytes. -/
theorem C49_data (h : Compiled file pic nc ops f) (base : Int) (addr : Nat → Nat → Int) (loc : Nat → Int)
    (hloc : ∀ j s, (order ops)[j]? = some s → addr 1 (8 + j) = loc s.id)
    {a b : List Op} {s : Sym} (hops : ops = a ++ .symbol s :: b) {n al : Nat} (hk : s.kind = .data n al)
    {j : Nat} (hj : (order ops)[j]? = some s) :
    ∃ rest, (linkedData f base addr).drop (Reader.symbol (Reader.contents f 3) (8 + j)).value
      = dataImage loc b ++ rest := by
  obtain ⟨off, w, _⟩ := h.made.written
  have hlab : s.kind ≠ .label := by rw [hk]; intro q; cases q
  obtain ⟨d, d1, d2, d3, d4⟩ := h.entry hops hj w
  obtain ⟨d0, e1, e2, _, e4⟩ := declared_here ((obj0 file nc).run a) s hlab
  rw [d3]
  simp only
  rw [(d4 d0 e1 e2).1, e4 n al hk]
  unfold linkedData
  rw [h.made.linkedData h.calls w base addr]
  have hrun : (obj0 file nc).run ops = (((obj0 file nc).run a).symbol s).run b := by
    rw [hops, run_append, run_cons]; rfl
  have hin : RelIn (((obj0 file nc).run a).symbol s) :=
    step_relIn _ (.symbol s) (run_relIn _ a (by intro p hp; cases hp))
  obtain ⟨x, hx⟩ := run_image (fun p => addr 1 (off p.sym) + p.addend) (fun k => addr 1 (off k)) (fun _ _ _ => rfl) _ b hin
  have hl := (filled_append (fun p => addr 1 (off p.sym) + p.addend) _ _ [] hin).2
  refine ⟨x, ?_⟩
  rw [hrun, hx, List.append_assoc, ← hl, List.drop_left' rfl]
  congr 1
  apply dataImage_congr
  intro k disp hm
  obtain ⟨_, _, t, ht, rfl⟩ := h.calls.data k disp (by rw [hops]; exact List.mem_append_right _ (List.mem_cons_of_mem _ hm))
  obtain ⟨i, hi⟩ := List.mem_iff_getElem?.mp ((order_mem ops t).mpr ht)
  obtain ⟨_, _, _, ho, _⟩ := h.made.at w hi
  rw [ho, hloc i t hi]

example : sample = sample.take 10 ++ .symbol sD :: sample.drop 11 ∧ (order sample)[4]? = some sD
    ∧ dataImage (fun s => 1000 * s) (sample.drop 11) = [1, 0, 0, 0, 0, 0, 0, 0, 164, 15, 0, 0, 0, 0, 0, 0] := by
  decide

/-! ## C78: where symbols are -/

/-- **C78 (functions).**  The address of a function that is defined is that of its first
instruction, and its size that of its code. -/
theorem C78_function (h : Compiled file pic nc ops f) {a b : List Op} {s : Sym} (hops : ops = a ++ .symbol s :: b)
    (hk : s.kind = .func true) {j : Nat} (hj : (order ops)[j]? = some s) :
    ∃ name, Reader.symbol (Reader.contents f 3) (8 + j)
      = ⟨name, if s.intern then 0 else 1, 2, 8, codeLen a, bodyLen b⟩ := by
  obtain ⟨off, w, _⟩ := h.made.written
  have hlab : s.kind ≠ .label := by rw [hk]; intro q; cases q
  obtain ⟨d, d1, d2, d3, d4⟩ := h.entry hops hj w
  obtain ⟨d0, e1, e2, e3, _⟩ := declared_here ((obj0 file nc).run a) s hlab
  obtain ⟨g1, g2⟩ := d4 d0 e1 e2
  obtain ⟨k1, k2⟩ := e3 true hk
  have hfn : (((obj0 file nc).run a).symbol s).fn = some s.id := by rw [symbol_fn, hk]
  rw [hfn, if_pos rfl, k1, Nat.zero_add] at g2
  have h0 : (obj0 file nc).len = 0 := rfl
  rw [k2 rfl, run_len, h0, Nat.zero_add] at g1
  refine ⟨d.name, ?_⟩
  rw [d3, g1, g2]
  simp only [symType, home, hk, if_true]

/-- **C78 (the code is divided among functions).**  Every byte of the code is in the
range of exactly one of the functions defined. -/
theorem C78_functions_cover (h : Compiled file pic nc ops f) (p : Nat) (hp : p < Reader.shSize f 8) :
    ∃ j s, ((order ops)[j]? = some s ∧ s.kind = .func true
        ∧ (Reader.symbol (Reader.contents f 3) (8 + j)).value ≤ p
        ∧ p < (Reader.symbol (Reader.contents f 3) (8 + j)).value + (Reader.symbol (Reader.contents f 3) (8 + j)).size)
      ∧ ∀ i t, (order ops)[i]? = some t → t.kind = .func true →
        (Reader.symbol (Reader.contents f 3) (8 + i)).value ≤ p →
        p < (Reader.symbol (Reader.contents f 3) (8 + i)).value + (Reader.symbol (Reader.contents f 3) (8 + i)).size →
        i = j := by
  obtain ⟨off, w, _⟩ := h.made.written
  rw [(C46_sizes h).2.1, ← (C46_sizes h).1, text_length w] at hp
  obtain ⟨d, hd, h1, h2⟩ := cover_find w.sane.cover p (Nat.zero_le _) hp
  obtain ⟨hm, hkf⟩ := List.mem_filter.mp hd
  have hkf : d.sym.kind = .func true := by simpa using hkf
  have hmem : d ∈ ((obj0 file nc).run ops).locals ++ ((obj0 file nc).run ops).globals := by
    by_cases q : d.sym.intern = true
    · exact List.mem_append_left _ (List.mem_filter.mpr ⟨hm, q⟩)
    · exact List.mem_append_right _ (List.mem_filter.mpr ⟨hm, by simpa using q⟩)
  obtain ⟨j, hj⟩ := List.mem_iff_getElem?.mp hmem
  have hord : (order ops)[j]? = some d.sym := by
    rw [← order_decls (file := file) (nc := nc), List.getElem?_map, hj]; rfl
  refine ⟨j, d.sym, ⟨hord, hkf, by rw [h.made.entry w hj]; exact h1, by rw [h.made.entry w hj]; exact h2⟩, ?_⟩
  intro i t hi ht g1 g2
  by_contra hne
  obtain ⟨e, k1, k2, k3, k4⟩ := h.made.at w hi
  rw [h.made.entry w k1] at g1 g2
  simp only at g1 g2
  have hef : e ∈ ((obj0 file nc).run ops).functions := List.mem_filter.mpr ⟨k4, by simp [k2, ht]⟩
  have hdn := decl_ne hi hord hne h.made w k2 rfl
  rcases pairwise_apart (cover_apart w.sane.cover) hef hd hdn with q | q <;> omega

example : Reader.shSize sampleFile 8 = 28 ∧ Reader.symbol (Reader.contents sampleFile 3) 11 = ⟨5, 1, 2, 8, 0, 28⟩ := by
  decide +kernel

/-- **C78 (objects).**  An object with an initialiser has the size asked for and is at a
multiple of its alignment in `.data`; a constant likewise in `.rodata`, where its bytes
are; an object without initialiser is in `.bss`, at a multiple of its alignment and
within the section, or is left to the linker as a common symbol with size and
alignment, or is undefined. -/
theorem C78_objects (h : Compiled file pic nc ops f) {j : Nat} {s : Sym} (hj : (order ops)[j]? = some s) :
    let e := Reader.symbol (Reader.contents f 3) (8 + j)
    match s.kind with
    | .data n al => e.shndx = 6 ∧ e.size = n ∧ e.value % al = 0 ∧ e.value ≤ Reader.shSize f 6
    | .const bytes al => e.shndx = 5 ∧ e.size = bytes.length ∧ e.value % al = 0
        ∧ ((Reader.contents f 5).drop e.value).take e.size = bytes
    | .object tentative n al =>
      if s.intern ∨ tentative ∧ nc then
        e.shndx = 4 ∧ e.size = n ∧ e.value % al = 0 ∧ e.value + e.size ≤ Reader.shSize f 4
      else if tentative then e.shndx = 0xFFF2 ∧ e.size = n ∧ e.value = al
      else e.shndx = 0
    | .func false => e.shndx = 0
    | _ => True := by
  obtain ⟨off, w, _⟩ := h.made.written
  obtain ⟨d, h1, h2, h3, h4⟩ := h.made.at w hj
  have hs := w.sane.sits d h4
  intro e
  have he : e = ⟨d.name, if d.sym.intern then 0 else 1, symType d.sym, home nc d.sym, d.value, d.size⟩ :=
    h.made.entry w h1
  subst h2
  unfold Sits at hs
  have hnc : ((obj0 file nc).run ops).noCommon = nc := run_noCommon _ _
  cases hk : d.sym.kind with
  | label => trivial
  | func df =>
    cases df with
    | true => trivial
    | false => simp only [he, home, hk]; rfl
  | data n al =>
    rw [hk] at hs
    simp only [he, home, hk]
    rw [← size_of_contents (w.inside 6 (by decide) (by decide) (by decide)).2, w.data]
    exact ⟨trivial, hs.2.2, hs.1, hs.2.1⟩
  | const b al =>
    rw [hk] at hs
    simp only [he, home, hk, w.rodata]
    exact ⟨trivial, hs.2.1, hs.1, hs.2.2.2⟩
  | object t n al =>
    rw [hk] at hs
    simp only [hnc] at hs
    simp only [he, home, hk, w.bss]
    by_cases q : d.sym.intern = true ∨ t = true ∧ nc = true
    · rw [if_pos q] at hs
      simp only [q, if_true]
      exact ⟨trivial, hs.2.2, hs.1, by rw [hs.2.2]; exact hs.2.1⟩
    · rw [if_neg q] at hs
      simp only [q, if_false]
      by_cases q2 : t = true
      · rw [if_pos q2] at hs
        simp only [q2, if_true]
        exact ⟨trivial, hs.2, hs.1⟩
      · simp only [q2]; trivial

example : (order sample)[0]? = some sC ∧ (order sample)[4]? = some sD ∧ (order sample)[6]? = some sX := by decide
example : Reader.symbol (Reader.contents sampleFile 3) 14 = ⟨17, 1, 1, 0xFFF2, 4, 8⟩ := by decide +kernel

/-- **C78 (apart).**  Objects of `.bss` do not overlap, nor do constants. -/
theorem C78_apart (h : Compiled file pic nc ops f) {i j : Nat} {s t : Sym} (hi : (order ops)[i]? = some s)
    (hj : (order ops)[j]? = some t) (hne : i ≠ j) (k : Nat) (hk : k = 4 ∨ k = 5) (hs : home nc s = k) (ht : home nc t = k) :
    let d := Reader.symbol (Reader.contents f 3) (8 + i)
    let e := Reader.symbol (Reader.contents f 3) (8 + j)
    d.value + d.size ≤ e.value ∨ e.value + e.size ≤ d.value := by
  obtain ⟨off, w, _⟩ := h.made.written
  obtain ⟨d, a1, a2, a3, a4⟩ := h.made.at w hi
  obtain ⟨e, b1, b2, b3, b4⟩ := h.made.at w hj
  have hne := decl_ne hi hj hne h.made w a2 b2
  have hnc : ((obj0 file nc).run ops).noCommon = nc := run_noCommon _ _
  simp only [h.made.entry w a1, h.made.entry w b1]
  rcases hk with rfl | rfl
  · refine pairwise_apart w.sane.spaces ?_ ?_ hne <;> unfold Obj.spaces <;> rw [List.mem_filter, hnc]
    · exact ⟨a4, by rw [a2, hs]; rfl⟩
    · exact ⟨b4, by rw [b2, ht]; rfl⟩
  · refine pairwise_apart w.sane.consts ?_ ?_ hne <;> unfold Obj.consts <;> rw [List.mem_filter, hnc]
    · exact ⟨a4, by rw [a2, hs]; rfl⟩
    · exact ⟨b4, by rw [b2, ht]; rfl⟩

example : (order sample)[1]? = some sB ∧ (order sample)[2]? = some sB' ∧ home false sB = 4 ∧ home false sB' = 4 := by
  decide
example : Reader.symbol (Reader.contents sampleFile 3) 9 = ⟨13, 0, 1, 4, 0, 1⟩
    ∧ Reader.symbol (Reader.contents sampleFile 3) 10 = ⟨15, 0, 1, 4, 8, 8⟩ := by decide +kernel

/-- **C78 (data objects apart).**  An object with an initialiser starts after the last
byte of the initialiser of any object before it. -/
theorem C78_data_apart (h : Compiled file pic nc ops f) {a b c : List Op} {s t : Sym}
    (hops : ops = a ++ .symbol s :: (b ++ .symbol t :: c)) {n al m bl : Nat} (hs : s.kind = .data n al)
    (ht : t.kind = .data m bl) {i j : Nat} (hi : (order ops)[i]? = some s) (hj : (order ops)[j]? = some t) :
    (Reader.symbol (Reader.contents f 3) (8 + i)).value + (dataBytes (b ++ .symbol t :: c)).length
      ≤ (Reader.symbol (Reader.contents f 3) (8 + j)).value := by
  obtain ⟨off, w, _⟩ := h.made.written
  have l1 : s.kind ≠ .label := by rw [hs]; intro q; cases q
  have l2 : t.kind ≠ .label := by rw [ht]; intro q; cases q
  obtain ⟨d, d1, d2, d3, d4⟩ := h.entry hops hi w
  obtain ⟨e, e1, e2, e3, e4⟩ := h.entry (a := a ++ .symbol s :: b) (b := c) (by rw [hops]; simp) hj w
  obtain ⟨d0, p1, p2, _, p4⟩ := declared_here ((obj0 file nc).run a) s l1
  obtain ⟨e0, q1, q2, _, q4⟩ := declared_here ((obj0 file nc).run (a ++ .symbol s :: b)) t l2
  rw [d3, e3]
  simp only
  rw [(d4 d0 p1 p2).1, (e4 e0 q1 q2).1, p4 n al hs, q4 m bl ht, nodata_after ht]
  obtain ⟨x, hx, _⟩ := run_data (((obj0 file nc).run a).symbol s) b
  obtain ⟨y, hy⟩ := symbol_data_grows ((obj0 file nc).run (a ++ .symbol s :: b)) t
  have hr : (obj0 file nc).run (a ++ .symbol s :: b) = (((obj0 file nc).run a).symbol s).run b := by
    rw [run_append, run_cons]; rfl
  rw [hy, hr, hx]
  simp only [List.length_append]
  omega

example : sample = sample.take 10 ++ .symbol sD :: ((sample.take 13).drop 11 ++ .symbol sE :: sample.drop 14)
    ∧ (order sample)[4]? = some sD ∧ (order sample)[5]? = some sE
    ∧ (dataBytes ((sample.take 13).drop 11 ++ .symbol sE :: sample.drop 14)).length = 16 := by decide

/-- **C78 (section alignment).**  With the alignments of the ABI (1, 2, 4, 8, 16), the
alignment of `.bss`, `.rodata` and `.data` is a multiple of that of every object in it,
so that objects stay aligned wherever the linker puts the section. -/
theorem C78_section_alignment (h : Compiled file pic nc ops f) (hp : PowOps ops) (s : Sym) (hs : .symbol s ∈ ops) (k : Nat)
    (hk : k = 4 ∨ k = 5 ∨ k = 6) (hh : home nc s = k) : s.kind.align ∣ Reader.shAlign f k := by
  obtain ⟨off, _, g⟩ := h.made.written
  exact g hp s hs k hk hh

example : PowOps sample := by
  intro s hs
  simp only [sample, List.mem_cons, Op.symbol.injEq, reduceCtorEq, List.not_mem_nil, or_false, false_or] at hs
  rcases hs with rfl | rfl | rfl | rfl | rfl | rfl | rfl | rfl | rfl <;> decide

/-! ## C79: several files in one invocation -/

/-- A unit with one call, and one with ten. -/
def oneCall : List Op := [.symbol sF, .text cPush, .text cCall, .text cRet, .endFunction, .symbol sG]
def tenCalls : List Op :=
  [.symbol sF, .text cPush] ++ List.replicate 10 (.text cCall) ++ [.text cRet, .endFunction, .symbol sG]

/-- **C79 violated.**  The capacities of the section buffers are static and survive from
one file to the next, while sizes start again from zero.  A first write that is not
smaller than the capacity left from before then fails `assert(offset)` (elf.c:129).
Either of two files is compiled without complaint, and so are both in one order, but
`lacc a.c b.c` is aborted when `a.c` has one reference to a symbol and `b.c` has ten. -/
theorem C79_files_violated :
    (assemble [97] false false oneCall).isSome = true ∧ (assemble [98] false false tenCalls).isSome = true
      ∧ (assembleAll (fun _ => 0) false false [([98], tenCalls), ([97], oneCall)]).isSome = true
      ∧ assembleAll (fun _ => 0) false false [([97], oneCall), ([98], tenCalls)] = none := by
  decide +kernel

/-- **C79, partial.**  If an invocation with several files comes to an end, each object
file is the one that compiling its source alone would give: nothing but the failing
assertion carries over in the writer.  Missing: that it comes to an end, which
`C79_files_violated` refutes. -/
theorem C79_files_partial (us : List (List Nat × List Op)) (hu : ∀ u ∈ us, Calls u.2) (pic nc : Bool)
    (fs : List (List Nat)) (h : assembleAll (fun _ => 0) pic nc us = some fs) :
    fs.map some = us.map fun u => assemble u.1 pic nc u.2 :=
  all_alone us _ pic nc fs h hu

example : (assembleAll (fun _ => 0) false false [([98], sample), ([97], sample)]).isSome = true
    ∧ ∀ u ∈ [([98], sample), (([97] : List Nat), sample)], Calls u.2 :=
  ⟨by decide +kernel, by simp [sample_calls]⟩

end Verif.Elf
