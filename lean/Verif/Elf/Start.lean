import Verif.Elf.Finish

/-! Starting an object file. -/

namespace Verif.Elf

open Encode (le Code Fix le_length le_lt value_le)

/-- The object before any call. -/
def obj0 (file : List Nat) (noCommon : Bool) : Obj :=
  ⟨[0] ++ (file ++ [0]), [], [], 0, [], 0, [], [], [], none, noCommon⟩

/-- The entries every symbol table starts with: none, the file, and the sections. -/
def base : List Ent :=
  [⟨0, 0, 0, 0, 0⟩, ⟨1, 4, 0xFFF1, 0, 0⟩, ⟨0, 3, 4, 0, 0⟩, ⟨0, 3, 5, 0, 0⟩, ⟨0, 3, 6, 0, 0⟩, ⟨0, 3, 7, 0, 0⟩,
    ⟨0, 3, 8, 0, 0⟩, ⟨0, 3, 9, 0, 0⟩]

/-- The names of sections, one after the other. -/
def shNames : Nat → List Nat
  | 0 => [0]
  | k + 1 => shNames k ++ (shName (k + 1) ++ [0])

theorem shNames_ne (k : Nat) : shNames k ≠ [] := by
  cases k <;> simp [shNames]

theorem addEntry_first {s : Sec} (h : Holds s []) (e : Ent) (he : e.info < 16) :
    ∃ s', s.addEntry e = some (s', 1) ∧ Holds s' ([⟨0, 0, 0, 0, 0⟩, e].flatMap Ent.bytes) ∧ Same s s' := by
  obtain ⟨s1, k1, k2, k3, _⟩ := h.write (List.replicate 24 0)
  obtain ⟨s2, l1, l2, l3, _⟩ := k2.write e.bytes
  have hs : s.size = 0 := by rw [h.size]; rfl
  refine ⟨s2, ?_, ?_, k3.trans l3⟩
  · unfold Sec.addEntry
    have hb : s2.buf.getD 4 0 = 0 := by rw [l2.buf]; rfl
    simp only [hs, Nat.zero_div, if_true, k1, l1, Option.map_some, Option.bind_eq_bind, Option.bind_some]
    rw [if_neg (by omega), if_pos (.inr (by simp only [Nat.sub_self, Nat.mul_zero, Nat.zero_add, hb]; omega))]
  · simp only [List.flatMap_cons, bytes_zero, List.flatMap_nil, List.append_nil]
    simpa using l2

theorem Holds.named {s : Sec} {b : List Nat} (h : Holds s b) (n : Nat) : Holds { s with name := n } b :=
  ⟨⟨h.ok.len, h.ok.cap, h.ok.fresh⟩, h.type, h.align, h.buf⟩

theorem holds_new (ty : SType) (hty : ty ≠ .nobits) (name flags link info align entsize : Nat) (ha : align ≤ 16) :
    Holds { name := name, type := ty, flags := flags, link := link, info := info, align := align, entsize := entsize } [] :=
  ⟨⟨rfl, Nat.le_refl _, .inl rfl⟩, hty, ha, rfl⟩

theorem initSec_eq {shstr sym : Sec} {k : Nat} {L : List Ent} (s : Sec)
    (h1 : Holds shstr (shNames k)) (h2 : Holds sym (L.flatMap Ent.bytes)) (hne : L ≠ []) (hL : ∀ x ∈ L, x.info < 16) :
    ∃ shstr' sym', initSec shstr sym (k + 1) s = some (shstr', sym', { s with name := (shNames k).length })
      ∧ Holds shstr' (shNames (k + 1)) ∧ Holds sym' ((L ++ [Ent.mk 0 3 (k + 1) 0 0]).flatMap Ent.bytes)
      ∧ Same shstr shstr' ∧ Same sym sym' := by
  obtain ⟨a, a1, a2, a3⟩ := h1.addString (shNames_ne k) (shName (k + 1))
  obtain ⟨b, b1, b2, b3⟩ := addEntry_local h2 hne ⟨0, 3, k + 1, 0, 0⟩ hL (show 3 < 16 by decide)
  exact ⟨a, b, by simp only [initSec, a1, b1]; rfl, a2, b2, a3, b3⟩

/-- What the headers say at the start. -/
structure Heads (st : St) : Prop where
  shstrtab : st.shstrtab.name = 1 ∧ st.shstrtab.type = .strtab ∧ st.shstrtab.flags = 0 ∧ st.shstrtab.link = 0
    ∧ st.shstrtab.info = 0
  strtab : st.strtab.name = (shNames 1).length ∧ st.strtab.type = .strtab ∧ st.strtab.flags = 0 ∧ st.strtab.link = 0
    ∧ st.strtab.info = 0
  symtab : st.symtab.name = (shNames 2).length ∧ st.symtab.type = .symtab ∧ st.symtab.flags = 0 ∧ st.symtab.link = 2
    ∧ st.symtab.info = 0
  bss : st.bss.name = (shNames 3).length ∧ st.bss.type = .nobits ∧ st.bss.flags = 3 ∧ st.bss.link = 0
    ∧ st.bss.info = 0
  rodata : st.rodata.name = (shNames 4).length ∧ st.rodata.type = .progbits ∧ st.rodata.flags = 2 ∧ st.rodata.link = 0
    ∧ st.rodata.info = 0
  data : st.data.name = (shNames 5).length ∧ st.data.type = .progbits ∧ st.data.flags = 3 ∧ st.data.link = 0
    ∧ st.data.info = 0
  relaData : st.relaData.name = (shNames 6).length ∧ st.relaData.type = .rela ∧ st.relaData.flags = 0
    ∧ st.relaData.link = 3 ∧ st.relaData.info = 6
  text : st.text.name = (shNames 7).length ∧ st.text.type = .progbits ∧ st.text.flags = 6 ∧ st.text.link = 0
    ∧ st.text.info = 0
  relaText : st.relaText.name = (shNames 8).length ∧ st.relaText.type = .rela ∧ st.relaText.flags = 0
    ∧ st.relaText.link = 3 ∧ st.relaText.info = 8
  aligns : st.bss.align = 4 ∧ st.rodata.align = 16 ∧ st.data.align = 4

theorem init_sim (file : List Nat) (pic noCommon : Bool) :
    ∃ st, init (fun _ => 0) file pic noCommon = some st ∧ R base st st (obj0 file noCommon)
      ∧ Holds st.shstrtab (shNames 9) ∧ Holds st.relaData [] ∧ Holds st.relaText [] ∧ Heads st ∧ st.pic = pic := by
  obtain ⟨a1, a2, a3, a4⟩ := (holds_new .strtab (by decide) 0 0 0 0 1 0 (by decide)).addString_nil (shName 1)
  have a5 : Holds { a1 with name := 1 } (shNames 1) := a3.named 1
  obtain ⟨b1, b2, b3, b4⟩ := a5.addString (shNames_ne 1) (shName 2)
  obtain ⟨c1, c2, c3, c4⟩ := Holds.addString (b := shNames 2) b3 (shNames_ne 2) (shName 3)
  obtain ⟨s1, s2, s3, s4⟩ :=
    (holds_new .strtab (by decide) (shNames 1).length 0 0 0 1 0 (by decide)).addString_nil file
  obtain ⟨t1, t2, t3, t4⟩ := addEntry_first
    (holds_new .symtab (by decide) (shNames 2).length 0 2 0 4 24 (by decide)) ⟨1, 4, 0xFFF1, 0, 0⟩ (show 4 < 16 by decide)
  have c5 : Holds c1 (shNames 3) := c3
  obtain ⟨d1, d2, d3, d4, d5, d6, d7⟩ := initSec_eq { type := .nobits, flags := 3, align := 4 } c5 t3 (by simp) (by decide)
  obtain ⟨e1, e2, e3, e4, e5, e6, e7⟩ := initSec_eq { type := .progbits, flags := 2, align := 16 } d4 d5 (by simp) (by decide)
  obtain ⟨f1, f2, f3, f4, f5, f6, f7⟩ := initSec_eq { type := .progbits, flags := 3, align := 4 } e4 e5 (by simp) (by decide)
  obtain ⟨g1, g2, g3, g4, g5, g6, g7⟩ := initSec_eq { type := .rela, link := 3, info := 6, align := 8, entsize := 24 }
    f4 f5 (by simp) (by decide)
  obtain ⟨h1, h2, h3, h4, h5, h6, h7⟩ := initSec_eq { type := .progbits, flags := 6, align := 16 } g4 g5 (by simp) (by decide)
  obtain ⟨i1, i2, i3, i4, i5, i6, i7⟩ := initSec_eq { type := .rela, link := 3, info := 8, align := 8, entsize := 24 }
    h4 h5 (by simp) (by decide)
  simp only [Nat.reduceAdd] at d3 e3 f3 g3 h3 i3
  have hs := (((((b4.trans c4).trans d6).trans e6).trans f6).trans g6).trans (h6.trans i6)
  have ht := ((((t4.trans d7).trans e7).trans f7).trans g7).trans (h7.trans i7)
  refine ⟨?w, ?h1, ?h2⟩
  case h1 =>
    unfold init
    simp only [a2, b2, c2, s2, t2, d3, e3, f3, g3, h3, i3, Option.bind_eq_bind, Option.bind_some]
    rfl
  refine ⟨?_, i4, holds_new _ (by decide) _ _ _ _ _ _ (by decide), holds_new _ (by decide) _ _ _ _ _ _ (by decide),
    ⟨?_, ?_, ?_, ⟨rfl, rfl, rfl, rfl, rfl⟩, ⟨rfl, rfl, rfl, rfl, rfl⟩, ⟨rfl, rfl, rfl, rfl, rfl⟩,
      ⟨rfl, rfl, rfl, rfl, rfl⟩, ⟨rfl, rfl, rfl, rfl, rfl⟩, ⟨rfl, rfl, rfl, rfl, rfl⟩, ⟨rfl, rfl, rfl⟩⟩, rfl⟩
  · refine ⟨⟨by simp [obj0], by simp [obj0], by simp [obj0], trivial, rfl, by simp [obj0], by simp [obj0]⟩, s3, i5,
      ⟨by simp [base], by decide⟩, ⟨rfl, (show 4 ≤ 16 by decide), rfl, rfl⟩, holds_new _ (by decide) _ _ _ _ _ _ (by decide),
      holds_new _ (by decide) _ _ _ _ _ _ (by decide), holds_new _ (by decide) _ _ _ _ _ _ (by decide), rfl, rfl, rfl,
      rfl, rfl, rfl, ?_, ?_, fun _ _ _ => rfl, ⟨rfl, rfl, rfl, rfl, Same.rfl, Same.rfl, Same.rfl, Same.rfl,
        Same.rfl, Same.rfl⟩⟩
    · intro j d hj; simp [Obj.locals, obj0] at hj
    · intro p hp; simp [obj0] at hp
  · exact ⟨hs.name, hs.type.trans a4.type, hs.flags.trans a4.flags, hs.link.trans a4.link, hs.info.trans a4.info⟩
  · exact ⟨s4.name, s4.type, s4.flags, s4.link, s4.info⟩
  · exact ⟨ht.name, ht.type, ht.flags, ht.link, ht.info⟩

end Verif.Elf
