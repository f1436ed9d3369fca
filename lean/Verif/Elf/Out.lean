import Verif.Elf.Align
import Verif.Elf.Read

/-! A whole file, from the calls to what a reader finds. -/

namespace Verif.Elf

open Encode (le Code Fix le_length le_lt value_le)

/-- Type, flags and link of each section: gABI chapter 4, and the x86-64 ABI. -/
def secFacts : Nat → Nat × Nat × Nat
  | 1 => (3, 0, 0)
  | 2 => (3, 0, 0)
  | 3 => (2, 0, 2)
  | 4 => (8, 3, 0)
  | 5 => (1, 2, 0)
  | 6 => (1, 3, 0)
  | 7 => (4, 0, 3)
  | 8 => (1, 6, 0)
  | 9 => (4, 0, 3)
  | _ => (0, 0, 0)

/-- What a reader finds in the file. -/
structure Written (f : List Nat) (o : Obj) (pic : Bool) (off : Nat → Nat) : Prop where
  shnum : Reader.shnum f = 10
  shstrndx : Reader.shstrndx f = 1
  names : ∀ k, 1 ≤ k → k ≤ 9 → Reader.str (Reader.contents f 1) (Reader.shName f k) = some (shName k)
  heads : ∀ k, 1 ≤ k → k ≤ 9 → (Reader.shType f k, Reader.shFlags f k, Reader.shLink f k) = secFacts k
  info : Reader.shInfo f 3 = if o.globals = [] ∧ pic = false then 0 else 8 + o.locals.length
  infoData : Reader.shInfo f 7 = 6
  infoText : Reader.shInfo f 9 = 8
  inside : ∀ k, 1 ≤ k → k ≤ 9 → k ≠ 4 → 704 ≤ Reader.shOffset f k ∧ Reader.shOffset f k + Reader.shSize f k ≤ f.length
  apart : ∀ i j, 1 ≤ i → i < j → j ≤ 9 → i ≠ 4 → j ≠ 4 → Reader.shOffset f i + Reader.shSize f i ≤ Reader.shOffset f j
  strs : Reader.contents f 2 = o.strs ++ gotStr pic
  syms : Reader.contents f 3 = (entries base o pic).flatMap Ent.bytes
  bss : Reader.shSize f 4 = o.bss
  rodata : Reader.contents f 5 = o.rodata
  data : Reader.contents f 6 = o.data
  relData : Reader.contents f 7 = o.dataRel.flatMap (relaBytes off)
  text : Reader.contents f 8 = o.items.flatMap (Item.bytes off)
  relText : Reader.contents f 9 = (o.items.flatMap Item.relocs).flatMap (relaBytes off)
  index : ∀ j d, (o.locals ++ o.globals)[j]? = some d → off d.sym.id = 8 + j
  labels : ∀ p ∈ o.labels, off p.1 = p.2
  ok : ObjOk o
  sane : Sane o

theorem size_of_contents {f : List Nat} {k : Nat} (h : Reader.shOffset f k + Reader.shSize f k ≤ f.length) :
    (Reader.contents f k).length = Reader.shSize f k := by
  unfold Reader.contents
  rw [List.length_take, List.length_drop]
  omega

theorem get9 {P : Nat → Prop} (h1 : P 1) (h2 : P 2) (h3 : P 3) (h4 : P 4) (h5 : P 5) (h6 : P 6) (h7 : P 7) (h8 : P 8)
    (h9 : P 9) (k : Nat) (hk : 1 ≤ k) (hk9 : k ≤ 9) : P k := by
  have : k = 1 ∨ k = 2 ∨ k = 3 ∨ k = 4 ∨ k = 5 ∨ k = 6 ∨ k = 7 ∨ k = 8 ∨ k = 9 := by omega
  rcases this with rfl | rfl | rfl | rfl | rfl | rfl | rfl | rfl | rfl <;> assumption

/-- **The whole of the writer.** -/
theorem assemble_written (file : List Nat) (pic noCommon : Bool) (ops : List Op) (h : OpsOk (obj0 file noCommon) ops) :
    ∃ f off, assemble file pic noCommon ops = some f
      ∧ (f.length < 2 ^ 32 → ((obj0 file noCommon).run ops).bss < 2 ^ 64 →
        Written f ((obj0 file noCommon).run ops) pic off
        ∧ (PowOps ops → ∀ s, .symbol s ∈ ops → ∀ k, k = 4 ∨ k = 5 ∨ k = 6 → home noCommon s = k →
          s.kind.align ∣ Reader.shAlign f k)) := by
  obtain ⟨st0, a1, a2, a3, a4, a5, a6, a7⟩ := init_sim file pic noCommon
  obtain ⟨st, b1, b2⟩ := run_sim a2 ops h
  have hs := run_sane a2 (sane0 file noCommon) ops h
  obtain ⟨st1, st2, st3, c1, c2, c3, c4⟩ := finish_sim b2 a4 a5 a6.symtab.2.2.2.2
  have hal := finish_same c1 c2 c3
  have hra := fun hp => run_align (st := st0) b1 ⟨by rw [a6.aligns.2.2]; decide, by rw [a6.aligns.2.1]; decide,
    by rw [a6.aligns.1]; decide⟩ hp
  have hnc : st.noCommon = noCommon := by rw [b2.noCommon, run_noCommon]; rfl
  obtain ⟨d1, d2, d3, _⟩ := hal
  generalize he : ({ st3 with disp := [] } : St) = st4 at c4
  have e1 : st4.data = st.data := by rw [← he]; exact d1
  have e2 : st4.rodata = st.rodata := by rw [← he]; exact d2
  have e3 : st4.bss = st.bss := by rw [← he]; exact d3
  generalize (obj0 file noCommon).run ops = o at b2 hs c4
  have n1 : st4.strtab.name = (shNames 1).length := c4.kStr.name.trans a6.strtab.1
  have n2 : st4.symtab.name = (shNames 2).length := c4.kTab.name.trans a6.symtab.1
  have n3 : st4.bss.name = (shNames 3).length := c4.kBss.name.trans a6.bss.1
  have n4 : st4.rodata.name = (shNames 4).length := c4.kRodata.name.trans a6.rodata.1
  have n5 : st4.data.name = (shNames 5).length := c4.kData.name.trans a6.data.1
  have n6 : st4.relaData.name = (shNames 6).length := c4.kRelaData.name.trans a6.relaData.1
  have n7 : st4.text.name = (shNames 7).length := c4.kText.name.trans a6.text.1
  have n8 : st4.relaText.name = (shNames 8).length := c4.kRelaText.name.trans a6.relaText.1
  have n0 : st4.shstrtab.name = 1 := by rw [c4.shstrtab]; exact a6.shstrtab.1
  have t0 : st4.shstrtab.type = .strtab := by rw [c4.shstrtab]; exact a6.shstrtab.2.1
  have t1 : st4.strtab.type = .strtab := c4.kStr.type.trans a6.strtab.2.1
  have t2 : st4.symtab.type = .symtab := c4.kTab.type.trans a6.symtab.2.1
  have t3 : st4.bss.type = .nobits := c4.kBss.type.trans a6.bss.2.1
  have t4 : st4.rodata.type = .progbits := c4.kRodata.type.trans a6.rodata.2.1
  have t5 : st4.data.type = .progbits := c4.kData.type.trans a6.data.2.1
  have t6 : st4.relaData.type = .rela := c4.kRelaData.type.trans a6.relaData.2.1
  have t7 : st4.text.type = .progbits := c4.kText.type.trans a6.text.2.1
  have t8 : st4.relaText.type = .rela := c4.kRelaText.type.trans a6.relaText.2.1
  have f0 : st4.shstrtab.flags = 0 := by rw [c4.shstrtab]; exact a6.shstrtab.2.2.1
  have f1 : st4.strtab.flags = 0 := c4.kStr.flags.trans a6.strtab.2.2.1
  have f2 : st4.symtab.flags = 0 := c4.kTab.flags.trans a6.symtab.2.2.1
  have f3 : st4.bss.flags = 3 := c4.kBss.flags.trans a6.bss.2.2.1
  have f4 : st4.rodata.flags = 2 := c4.kRodata.flags.trans a6.rodata.2.2.1
  have f5 : st4.data.flags = 3 := c4.kData.flags.trans a6.data.2.2.1
  have f6 : st4.relaData.flags = 0 := c4.kRelaData.flags.trans a6.relaData.2.2.1
  have f7 : st4.text.flags = 6 := c4.kText.flags.trans a6.text.2.2.1
  have f8 : st4.relaText.flags = 0 := c4.kRelaText.flags.trans a6.relaText.2.2.1
  have l0 : st4.shstrtab.link = 0 := by rw [c4.shstrtab]; exact a6.shstrtab.2.2.2.1
  have l1 : st4.strtab.link = 0 := c4.kStr.link.trans a6.strtab.2.2.2.1
  have l2 : st4.symtab.link = 2 := c4.kTab.link.trans a6.symtab.2.2.2.1
  have l3 : st4.bss.link = 0 := c4.kBss.link.trans a6.bss.2.2.2.1
  have l4 : st4.rodata.link = 0 := c4.kRodata.link.trans a6.rodata.2.2.2.1
  have l5 : st4.data.link = 0 := c4.kData.link.trans a6.data.2.2.2.1
  have l6 : st4.relaData.link = 3 := c4.kRelaData.link.trans a6.relaData.2.2.2.1
  have l7 : st4.text.link = 0 := c4.kText.link.trans a6.text.2.2.2.1
  have l8 : st4.relaText.link = 3 := c4.kRelaText.link.trans a6.relaText.2.2.2.1
  have hsh : Holds st4.shstrtab (shNames 9) := by rw [c4.shstrtab]; exact a3
  obtain ⟨tab, body, w1, w2, w3, w4⟩ := table_read {}
    [st4.strtab, st4.symtab, st4.bss, st4.rodata, st4.data, st4.relaData, st4.text, st4.relaText] st4.shstrtab rfl
    (by rw [t0]; decide)
    (by
      simp only [List.forall_mem_cons]
      exact ⟨hsh.align, c4.str.align, c4.tab.align, c4.bss.align, c4.rodata.align, c4.data.align, c4.relaData.align,
        c4.text.align, c4.relaText.align, by simp⟩)
    (by
      simp only [List.forall_mem_cons]
      exact ⟨fun _ => hsh.ok.len, fun _ => c4.str.ok.len, fun _ => c4.tab.ok.len, fun q => absurd t3 q,
        fun _ => c4.rodata.ok.len, fun _ => c4.data.ok.len, fun _ => c4.relaData.ok.len, fun _ => c4.text.ok.len,
        fun _ => c4.relaText.ok.len, by simp⟩)
    (by
      simp only [List.forall_mem_cons, t0, t1, t2, t3, t4, t5, t6, t7, t8]
      exact ⟨(nomatch ·), (nomatch ·), (nomatch ·), fun _ => c4.bss.offset, (nomatch ·), (nomatch ·), (nomatch ·),
        (nomatch ·), (nomatch ·), by simp⟩)
    (by
      simp only [List.forall_mem_cons, n0, n1, n2, n3, n4, n5, n6, n7, n8, f0, f1, f2, f3, f4, f5, f6, f7, f8,
        l0, l1, l2, l3, l4, l5, l6, l7, l8]
      decide)
  have hchain : chainOffsets st4.table = some tab := w1
  refine ⟨header tab.length 1 ++ tab.flatMap Sec.header ++ body, st4.off, ?_, ?_⟩
  · unfold assemble flush
    simp only [a1, b1, c1, c2, c3, Option.bind_eq_bind, Option.bind_some]
    rw [he, hchain]
    simp only [Option.bind_some, w2]
  intro hlen hbss
  obtain ⟨v1, v2, v3, v4⟩ := w4 _ rfl hlen
    (by
      simp only [List.forall_mem_cons]
      have i0 : st4.shstrtab.info = 0 := by rw [c4.shstrtab]; exact a6.shstrtab.2.2.2.2
      have hcount : (entries base o st0.pic).length = 8 + o.locals.length + o.globals.length + (gotEnts o st0.pic).length := by
        simp only [entries, List.length_append, List.length_map, show base.length = 8 from rfl]; omega
      have hsz : st4.symtab.size = 24 * (entries base o st0.pic).length := by
        rw [c4.tab.size, entries_length]
      have i2 : st4.symtab.info ≤ st4.symtab.size := by
        rw [c4.info, hsz, hcount]
        split_ifs
        · omega
        · show 8 + o.locals.length ≤ _
          omega
      refine ⟨.inl (by rw [i0]; decide), .inl ?_, .inr ⟨by rw [t2]; decide, i2⟩, .inl ?_, .inl ?_, .inl ?_, .inl ?_,
        .inl ?_, .inl ?_, by simp⟩
      · rw [c4.kStr.info, a6.strtab.2.2.2.2]; decide
      · rw [c4.kBss.info, a6.bss.2.2.2.2]; decide
      · rw [c4.kRodata.info, a6.rodata.2.2.2.2]; decide
      · rw [c4.kData.info, a6.data.2.2.2.2]; decide
      · rw [c4.kRelaData.info, a6.relaData.2.2.2.2]; decide
      · rw [c4.kText.info, a6.text.2.2.2.2]; decide
      · rw [c4.kRelaText.info, a6.relaText.2.2.2.2]; decide)
    (by
      simp only [List.forall_mem_cons, t0, t1, t2, t3, t4, t5, t6, t7, t8]
      exact ⟨(nomatch ·), (nomatch ·), (nomatch ·), fun _ => by rw [c4.bss.size]; exact hbss, (nomatch ·),
        (nomatch ·), (nomatch ·), (nomatch ·), (nomatch ·), by simp⟩)
  generalize header tab.length 1 ++ tab.flatMap Sec.header ++ body = f at hlen v1 v2 v3 v4
  have r1 := v3 0 _ rfl
  have r2 := v3 1 _ rfl
  have r3 := v3 2 _ rfl
  have r4 := v3 3 _ rfl
  have r5 := v3 4 _ rfl
  have r6 := v3 5 _ rfl
  have r7 := v3 6 _ rfl
  have r8 := v3 7 _ rfl
  have r9 := v3 8 _ rfl
  have q0 : st4.shstrtab.type ≠ .nobits := by rw [t0]; decide
  have q1 : st4.strtab.type ≠ .nobits := by rw [t1]; decide
  have q2 : st4.symtab.type ≠ .nobits := by rw [t2]; decide
  have q4 : st4.rodata.type ≠ .nobits := by rw [t4]; decide
  have q5 : st4.data.type ≠ .nobits := by rw [t5]; decide
  have q6 : st4.relaData.type ≠ .nobits := by rw [t6]; decide
  have q7 : st4.text.type ≠ .nobits := by rw [t7]; decide
  have q8 : st4.relaText.type ≠ .nobits := by rw [t8]; decide
  have hc1 : Reader.contents f 1 = shNames 9 := by rw [r1.contents q0, hsh.buf]
  have hnt : ∀ i x, ([st4.shstrtab, st4.strtab, st4.symtab, st4.bss, st4.rodata, st4.data, st4.relaData, st4.text,
      st4.relaText] : List Sec)[i]? = some x → i ≠ 3 → x.type ≠ .nobits := by
    intro i x hi h3
    have hi9 : i < 9 := by
      rcases Nat.lt_or_ge i 9 with g | g
      · exact g
      · rw [List.getElem?_eq_none (by simpa using g)] at hi; cases hi
    have : i = 0 ∨ i = 1 ∨ i = 2 ∨ i = 4 ∨ i = 5 ∨ i = 6 ∨ i = 7 ∨ i = 8 := by omega
    rcases this with rfl | rfl | rfl | rfl | rfl | rfl | rfl | rfl <;> cases hi <;> assumption
  have hex : ∀ k, 1 ≤ k → k ≤ 9 → ∃ x, ([st4.shstrtab, st4.strtab, st4.symtab, st4.bss, st4.rodata, st4.data,
      st4.relaData, st4.text, st4.relaText] : List Sec)[k - 1]? = some x :=
    get9 ⟨_, rfl⟩ ⟨_, rfl⟩ ⟨_, rfl⟩ ⟨_, rfl⟩ ⟨_, rfl⟩ ⟨_, rfl⟩ ⟨_, rfl⟩ ⟨_, rfl⟩ ⟨_, rfl⟩
  refine ⟨?_, ?_⟩
  · constructor
    case shnum => exact v1
    case shstrndx => exact v2
    case names =>
      rw [hc1]
      apply get9
      · rw [r1.name, n0]; exact shNames_str 0 (by decide)
      · rw [r2.name, n1]; exact shNames_str 1 (by decide)
      · rw [r3.name, n2]; exact shNames_str 2 (by decide)
      · rw [r4.name, n3]; exact shNames_str 3 (by decide)
      · rw [r5.name, n4]; exact shNames_str 4 (by decide)
      · rw [r6.name, n5]; exact shNames_str 5 (by decide)
      · rw [r7.name, n6]; exact shNames_str 6 (by decide)
      · rw [r8.name, n7]; exact shNames_str 7 (by decide)
      · rw [r9.name, n8]; exact shNames_str 8 (by decide)
    case heads =>
      apply get9
      · rw [r1.type, r1.flags, r1.link, t0, f0, l0]; rfl
      · rw [r2.type, r2.flags, r2.link, t1, f1, l1]; rfl
      · rw [r3.type, r3.flags, r3.link, t2, f2, l2]; rfl
      · rw [r4.type, r4.flags, r4.link, t3, f3, l3]; rfl
      · rw [r5.type, r5.flags, r5.link, t4, f4, l4]; rfl
      · rw [r6.type, r6.flags, r6.link, t5, f5, l5]; rfl
      · rw [r7.type, r7.flags, r7.link, t6, f6, l6]; rfl
      · rw [r8.type, r8.flags, r8.link, t7, f7, l7]; rfl
      · rw [r9.type, r9.flags, r9.link, t8, f8, l8]; rfl
    case info => rw [r3.info, c4.info, a7]; rfl
    case infoData => rw [r7.info, c4.kRelaData.info, a6.relaData.2.2.2.2]
    case infoText => rw [r9.info, c4.kRelaText.info, a6.relaText.2.2.2.2]
    case inside =>
      intro k hk hk9 hk4
      obtain ⟨x, hx⟩ := hex k hk hk9
      have hr := v3 (k - 1) x hx
      rw [Nat.sub_add_cancel hk] at hr
      rw [hr.size]
      exact hr.inside (hnt _ _ hx (by omega))
    case apart =>
      intro i j hi hij hj hi4 hj4
      obtain ⟨x, hx⟩ := hex i hi (by omega)
      obtain ⟨y, hy⟩ := hex j (by omega) hj
      have := v4 (i - 1) (j - 1) x y hx hy (by omega) (hnt _ _ hx (by omega)) (hnt _ _ hy (by omega))
      rw [Nat.sub_add_cancel hi, Nat.sub_add_cancel (by omega)] at this
      exact this
    case strs => rw [r2.contents q1, c4.str.buf, a7]
    case syms => rw [r3.contents q2, c4.tab.buf, a7]
    case bss => rw [r4.size, c4.bss.size]
    case rodata => rw [r5.contents q4, c4.rodata.buf]
    case data => rw [r6.contents q5, c4.data.buf]
    case relData => rw [r7.contents q6, c4.relaData.buf]
    case text => rw [r8.contents q7, c4.text.buf]
    case relText => rw [r9.contents q8, c4.relaText.buf]
    case index => exact c4.off
    case labels => exact c4.offLab
    case ok => exact c4.ok
    case sane => exact hs
  · intro hp s hsy k hk hh
    obtain ⟨_, _, g3⟩ := hra hp
    have g3 := g3 s hsy
    unfold homeAlign at g3
    rw [hnc, hh] at g3
    rcases hk with rfl | rfl | rfl
    · rw [r4.align, e3]; exact g3
    · rw [r5.align, e2]; exact g3
    · rw [r6.align, e1]; exact g3

end Verif.Elf
