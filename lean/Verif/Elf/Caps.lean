import Verif.Elf.Image

/-!
# The capacities of buffers

What is written does not depend on the capacities of the buffers: two runs from states
that differ in capacities only, if both come to an end, write the same file.
-/

namespace Verif.Elf

open Encode (le Code Fix)

/-- The same but for the capacity. -/
structure Sec.Like (s t : Sec) : Prop where
  name : s.name = t.name
  type : s.type = t.type
  flags : s.flags = t.flags
  offset : s.offset = t.offset
  size : s.size = t.size
  link : s.link = t.link
  info : s.info = t.info
  align : s.align = t.align
  entsize : s.entsize = t.entsize
  buf : s.buf = t.buf

theorem Sec.Like.same {s : Sec} : s.Like s := ⟨.refl _, .refl _, .refl _, .refl _, .refl _, .refl _, .refl _, .refl _, .refl _, .refl _⟩

theorem write_out {s s' : Sec} {d : List Nat} {o : Nat} (h : s.write d = some (s', o)) :
    o = s.size ∧ ∃ c, s' = { s with cap := c, size := s.size + d.length,
                                    buf := if s.type = .nobits ∨ d.length = 0 then s.buf else s.buf ++ d } := by
  unfold Sec.write at h
  simp only at h
  split_ifs at h with h1 h2 h3 h4 h5 <;> simp only [Option.some.injEq, Prod.mk.injEq] at h <;> obtain ⟨rfl, rfl⟩ := h
  · exact ⟨rfl, s.cap, by rw [if_pos h1]⟩
  · exact ⟨rfl, _, by rw [if_neg h1]⟩
  · exact ⟨rfl, _, by rw [if_neg h1]⟩
  · exact ⟨rfl, s.cap, by rw [if_neg h1]⟩

theorem Sec.Like.write {s t s' t' : Sec} {d : List Nat} {o o' : Nat} (h : s.Like t) (hs : s.write d = some (s', o))
    (ht : t.write d = some (t', o')) : s'.Like t' ∧ o = o' := by
  obtain ⟨rfl, c, rfl⟩ := write_out hs
  obtain ⟨rfl, c', rfl⟩ := write_out ht
  obtain ⟨h1, h2, h3, h4, h5, h6, h7, h8, h9, h10⟩ := h
  exact ⟨⟨h1, h2, h3, h4, by simp only [h5], h6, h7, h8, h9, by simp only [h2, h10]⟩, h5⟩

theorem Sec.Like.writeMap {s t s' t' : Sec} {d : List Nat} (h : s.Like t) (hs : (s.write d).map (·.1) = some s')
    (ht : (t.write d).map (·.1) = some t') : s'.Like t' := by
  obtain ⟨⟨a, o⟩, h1, rfl⟩ := Option.map_eq_some_iff.mp hs
  obtain ⟨⟨b, o'⟩, h2, rfl⟩ := Option.map_eq_some_iff.mp ht
  exact (h.write h1 h2).1

theorem Sec.Like.alignTo {s t s' t' : Sec} {a : Nat} (h : s.Like t) (hs : s.alignTo a = some s')
    (ht : t.alignTo a = some t') : s'.Like t' := by
  unfold Sec.alignTo at hs ht
  rw [← h.align] at ht
  by_cases h1 : s.align < a ∧ ¬ a ≤ 16
  · rw [if_pos h1] at hs; cases hs
  rw [if_neg h1] at hs ht
  have key : (if s.align < a then { s with align := a } else s).Like (if s.align < a then { t with align := a } else t) := by
    split_ifs
    · exact ⟨h.name, h.type, h.flags, h.offset, h.size, h.link, h.info, .refl _, h.entsize, h.buf⟩
    · exact h
  simp only at hs ht
  generalize (if s.align < a then { s with align := a } else s) = x at hs key
  generalize (if s.align < a then { t with align := a } else t) = y at ht key
  rw [← key.size] at ht
  by_cases h2 : x.size % a ≠ 0
  · rw [if_pos h2] at hs ht
    exact key.writeMap hs ht
  · rw [if_neg h2] at hs ht
    cases hs; cases ht
    exact key

theorem Sec.Like.addString {s t s' t' : Sec} {d : List Nat} {o o' : Nat} (h : s.Like t)
    (hs : s.addString d = some (s', o)) (ht : t.addString d = some (t', o')) : s'.Like t' ∧ o = o' := by
  unfold Sec.addString at hs ht
  rw [← h.size] at ht
  by_cases q : s.size = 0
  · simp only [if_pos q] at hs ht
    obtain ⟨x, h1, h2⟩ := Option.bind_eq_some_iff.mp hs
    obtain ⟨y, g1, g2⟩ := Option.bind_eq_some_iff.mp ht
    exact (h.writeMap h1 g1).write h2 g2
  · simp only [if_neg q] at hs ht
    exact h.write hs ht

theorem Sec.Like.addEntry {s t s' t' : Sec} {e : Ent} {o o' : Nat} (h : s.Like t)
    (hs : s.addEntry e = some (s', o)) (ht : t.addEntry e = some (t', o')) : s'.Like t' ∧ o = o' := by
  unfold Sec.addEntry at hs ht
  rw [← h.size] at ht
  simp only at hs ht
  generalize (if s.size / 24 = 0 then 1 else s.size / 24) = i at hs ht
  have rest : ∀ {x y : Sec}, x.Like y →
      ((x.write e.bytes).map (·.1)).bind (fun x' =>
        if e.info / 16 = 1 ∧ x'.info = 0 then some ({ x' with info := i }, i)
        else if i = 0 ∨ e.info / 16 = x'.buf.getD (24 * (i - 1) + 4) 0 / 16 then some (x', i) else none) = some (s', o) →
      ((y.write e.bytes).map (·.1)).bind (fun x' =>
        if e.info / 16 = 1 ∧ x'.info = 0 then some ({ x' with info := i }, i)
        else if i = 0 ∨ e.info / 16 = x'.buf.getD (24 * (i - 1) + 4) 0 / 16 then some (x', i) else none) = some (t', o') →
      s'.Like t' ∧ o = o' := by
    intro x y k1 hs ht
    obtain ⟨x', h2, hs⟩ := Option.bind_eq_some_iff.mp hs
    obtain ⟨y', g2, ht⟩ := Option.bind_eq_some_iff.mp ht
    have k2 := k1.writeMap h2 g2
    rw [← k2.info, ← k2.buf] at ht
    by_cases q1 : e.info / 16 = 1 ∧ x'.info = 0
    · rw [if_pos q1] at hs ht
      simp only [Option.some.injEq, Prod.mk.injEq] at hs ht
      obtain ⟨rfl, rfl⟩ := hs
      obtain ⟨rfl, rfl⟩ := ht
      exact ⟨⟨k2.name, k2.type, k2.flags, k2.offset, k2.size, k2.link, rfl, k2.align, k2.entsize, by simp only [k2.buf]⟩, rfl⟩
    · rw [if_neg q1] at hs ht
      by_cases q2 : i = 0 ∨ e.info / 16 = x'.buf.getD (24 * (i - 1) + 4) 0 / 16
      · rw [if_pos q2] at hs ht
        simp only [Option.some.injEq, Prod.mk.injEq] at hs ht
        obtain ⟨rfl, rfl⟩ := hs
        obtain ⟨rfl, rfl⟩ := ht
        exact ⟨k2, rfl⟩
      · rw [if_neg q2] at hs; cases hs
  by_cases q : s.size / 24 = 0
  · rw [if_pos q] at hs ht
    obtain ⟨x, h1, hs⟩ := Option.bind_eq_some_iff.mp hs
    obtain ⟨y, g1, ht⟩ := Option.bind_eq_some_iff.mp ht
    exact rest (h.writeMap h1 g1) hs ht
  · rw [if_neg q] at hs ht
    exact rest h hs ht

/-- The same but for the capacities. -/
inductive St.Like (s : St) : St → Prop
  | mk (a b c d e f g h i : Sec) : s.shstrtab.Like a → s.strtab.Like b → s.symtab.Like c → s.bss.Like d →
      s.rodata.Like e → s.data.Like f → s.relaData.Like g → s.text.Like h → s.relaText.Like i →
      St.Like s { s with shstrtab := a, strtab := b, symtab := c, bss := d, rodata := e, data := f, relaData := g,
                         text := h, relaText := i }

theorem assoc_like {s t s' t' : St} {y : Sym} {e : Ent} {b : Bool} (h : s.Like t) (hs : assoc s y e b = some s')
    (ht : assoc t y e b = some t') : s'.Like t' := by
  obtain ⟨a1, a2, a3, a4, a5, a6, a7, a8, a9, h1, h2, h3, h4, h5, h6, h7, h8, h9⟩ := h
  unfold assoc at hs ht
  by_cases q : y.intern = true
  · rw [if_pos q] at hs ht
    obtain ⟨⟨x, i⟩, g1, hs⟩ := Option.bind_eq_some_iff.mp hs
    obtain ⟨⟨z, j⟩, g2, ht⟩ := Option.bind_eq_some_iff.mp ht
    obtain ⟨k, rfl⟩ := h3.addEntry g1 g2
    cases hs; cases ht
    exact .mk _ _ _ _ _ _ _ _ _ h1 h2 k h4 h5 h6 h7 h8 h9
  · rw [if_neg q] at hs ht
    by_cases q2 : e.info / 16 = 1
    · rw [if_pos q2] at hs ht
      cases hs; cases ht
      exact .mk _ _ _ _ _ _ _ _ _ h1 h2 h3 h4 h5 h6 h7 h8 h9
    · rw [if_neg q2] at hs; cases hs

theorem symbol_like {s t s' t' : St} {y : Sym} (h : s.Like t) (hs : symbol s y = some s') (ht : symbol t y = some t') :
    s'.Like t' := by
  obtain ⟨a1, a2, a3, a4, a5, a6, a7, a8, a9, h1, h2, h3, h4, h5, h6, h7, h8, h9⟩ := h
  unfold symbol at hs ht
  by_cases h0 : s.off y.id ≠ 0
  · rw [if_pos h0] at hs; cases hs
  rw [if_neg h0] at hs ht
  cases hk : y.kind with
  | label =>
    rw [hk] at hs ht
    cases hs; cases ht
    simp only [← h8.size]
    exact .mk _ _ _ _ _ _ _ _ _ h1 h2 h3 h4 h5 h6 h7 h8 h9
  | func df =>
    rw [hk] at hs ht
    obtain ⟨⟨x, i⟩, g1, hs⟩ := Option.bind_eq_some_iff.mp hs
    obtain ⟨⟨z, j⟩, g2, ht⟩ := Option.bind_eq_some_iff.mp ht
    obtain ⟨k, rfl⟩ := h2.addString g1 g2
    cases df with
    | true =>
      simp only [← h8.size] at ht
      exact assoc_like (by exact (.mk _ _ _ _ _ _ _ _ _ h1 k h3 h4 h5 h6 h7 h8 h9)) hs ht
    | false => exact assoc_like (by exact (.mk _ _ _ _ _ _ _ _ _ h1 k h3 h4 h5 h6 h7 h8 h9)) hs ht
  | data n a =>
    rw [hk] at hs ht
    obtain ⟨⟨x, i⟩, g1, hs⟩ := Option.bind_eq_some_iff.mp hs
    obtain ⟨⟨z, j⟩, g2, ht⟩ := Option.bind_eq_some_iff.mp ht
    obtain ⟨k, rfl⟩ := h2.addString g1 g2
    obtain ⟨x2, g3, hs⟩ := Option.bind_eq_some_iff.mp hs
    obtain ⟨z2, g4, ht⟩ := Option.bind_eq_some_iff.mp ht
    have k2 := h6.alignTo g3 g4
    rw [← k2.size] at ht
    exact assoc_like (by exact (.mk _ _ _ _ _ _ _ _ _ h1 k h3 h4 h5 k2 h7 h8 h9)) hs ht
  | const bs a =>
    rw [hk] at hs ht
    obtain ⟨⟨x, i⟩, g1, hs⟩ := Option.bind_eq_some_iff.mp hs
    obtain ⟨⟨z, j⟩, g2, ht⟩ := Option.bind_eq_some_iff.mp ht
    obtain ⟨k, rfl⟩ := h2.addString g1 g2
    obtain ⟨x2, g3, hs⟩ := Option.bind_eq_some_iff.mp hs
    obtain ⟨z2, g4, ht⟩ := Option.bind_eq_some_iff.mp ht
    have k2 := h5.alignTo g3 g4
    obtain ⟨⟨x3, o⟩, g5, hs⟩ := Option.bind_eq_some_iff.mp hs
    obtain ⟨⟨z3, o'⟩, g6, ht⟩ := Option.bind_eq_some_iff.mp ht
    obtain ⟨k3, rfl⟩ := k2.write g5 g6
    exact assoc_like (by exact (.mk _ _ _ _ _ _ _ _ _ h1 k h3 h4 k3 h6 h7 h8 h9)) hs ht
  | object tn n a =>
    rw [hk] at hs ht
    obtain ⟨⟨x, i⟩, g1, hs⟩ := Option.bind_eq_some_iff.mp hs
    obtain ⟨⟨z, j⟩, g2, ht⟩ := Option.bind_eq_some_iff.mp ht
    obtain ⟨k, rfl⟩ := h2.addString g1 g2
    simp only at hs ht
    by_cases q : y.intern = true ∨ tn = true ∧ s.noCommon = true
    · rw [if_pos q] at hs ht
      obtain ⟨x2, g3, hs⟩ := Option.bind_eq_some_iff.mp hs
      obtain ⟨z2, g4, ht⟩ := Option.bind_eq_some_iff.mp ht
      have k2 := h4.alignTo g3 g4
      rw [← k2.size] at ht
      refine assoc_like (by exact (.mk _ _ _ _ _ _ _ _ _ h1 k h3 
        ⟨k2.name, k2.type, k2.flags, k2.offset, rfl, k2.link, k2.info, k2.align, k2.entsize, k2.buf⟩ h5 h6 h7 h8 h9)) hs ht
    · rw [if_neg q] at hs ht
      by_cases q2 : tn = true
      · rw [if_pos q2] at hs ht; exact assoc_like (by exact (.mk _ _ _ _ _ _ _ _ _ h1 k h3 h4 h5 h6 h7 h8 h9)) hs ht
      · rw [if_neg q2] at hs ht; exact assoc_like (by exact (.mk _ _ _ _ _ _ _ _ _ h1 k h3 h4 h5 h6 h7 h8 h9)) hs ht

theorem grow_like {s t s' t' : St} {n : Nat} (h : s.Like t) (hs : growFunction s n = some s')
    (ht : growFunction t n = some t') : s'.Like t' := by
  obtain ⟨a1, a2, a3, a4, a5, a6, a7, a8, a9, h1, h2, h3, h4, h5, h6, h7, h8, h9⟩ := h
  unfold growFunction at hs ht
  cases hc : s.cur with
  | none => rw [hc] at hs; cases hs
  | static i =>
    simp only [hc] at hs ht
    rw [← h3.buf] at ht
    cases hs; cases ht
    exact .mk _ _ _ _ _ _ _ _ _ h1 h2
      ⟨h3.name, h3.type, h3.flags, h3.offset, h3.size, h3.link, h3.info, h3.align, h3.entsize, rfl⟩ h4 h5 h6 h7 h8 h9
  | global i =>
    simp only [hc] at hs ht
    cases hs; cases ht
    exact .mk _ _ _ _ _ _ _ _ _ h1 h2 h3 h4 h5 h6 h7 h8 h9

theorem fixup_like {s t : St} {v : List Nat} (x : Fix) (h : s.Like t) :
    (fixup s v x).1.Like (fixup t v x).1 ∧ (fixup s v x).2 = (fixup t v x).2 := by
  obtain ⟨a1, a2, a3, a4, a5, a6, a7, a8, a9, h1, h2, h3, h4, h5, h6, h7, h8, h9⟩ := h
  unfold fixup
  simp only [← h8.size]
  cases x with
  | reloc ty sy p a => exact ⟨.mk _ _ _ _ _ _ _ _ _ h1 h2 h3 h4 h5 h6 h7 h8 h9, rfl⟩
  | label l p a =>
    simp only
    split_ifs
    · exact ⟨.mk _ _ _ _ _ _ _ _ _ h1 h2 h3 h4 h5 h6 h7 h8 h9, rfl⟩
    · exact ⟨.mk _ _ _ _ _ _ _ _ _ h1 h2 h3 h4 h5 h6 h7 h8 h9, rfl⟩

theorem fixups_like {s t : St} {v : List Nat} (x : List Fix) (h : s.Like t) :
    (fixups s v x).1.Like (fixups t v x).1 ∧ (fixups s v x).2 = (fixups t v x).2 := by
  induction x generalizing s t v with
  | nil => exact ⟨h, rfl⟩
  | cons a x ih =>
    obtain ⟨h1, h2⟩ := fixup_like a h (v := v)
    simp only [fixups, ← h2]
    exact ih h1

theorem St.Like.text {s t : St} (h : s.Like t) : s.text.Like t.text := by
  obtain ⟨a1, a2, a3, a4, a5, a6, a7, a8, a9, h1, h2, h3, h4, h5, h6, h7, h8, h9⟩ := h
  exact h8

theorem St.Like.withText {s t : St} (h : s.Like t) {x z : Sec} (k : x.Like z) :
    St.Like { s with text := x } { t with text := z } := by
  obtain ⟨a1, a2, a3, a4, a5, a6, a7, a8, a9, h1, h2, h3, h4, h5, h6, h7, h8, h9⟩ := h
  exact .mk _ _ _ _ _ _ _ _ _ h1 h2 h3 h4 h5 h6 h7 k h9

theorem text_like {s t s' t' : St} {c : Code} (h : s.Like t) (hs : text s c = some s') (ht : text t c = some t') :
    s'.Like t' := by
  unfold text at hs ht
  obtain ⟨h1, h2⟩ := fixups_like c.fix h (v := c.val)
  simp only at hs ht
  rw [← h2] at ht
  by_cases q : (fixups s c.val c.fix).2.getD 0 0 ≠ 0x90
  · rw [if_pos q] at hs ht
    obtain ⟨⟨x, o⟩, g1, hs⟩ := Option.bind_eq_some_iff.mp hs
    obtain ⟨⟨z, o'⟩, g2, ht⟩ := Option.bind_eq_some_iff.mp ht
    exact grow_like (h1.withText (h1.text.write g1 g2).1) hs ht
  · rw [if_neg q] at hs ht
    cases hs; cases ht
    exact h1

theorem flushText_like {s t s' t' : St} (h : s.Like t) (hs : flushText s = some s') (ht : flushText t = some t') :
    s'.Like t' := by
  obtain ⟨a1, a2, a3, a4, a5, a6, a7, a8, a9, h1, h2, h3, h4, h5, h6, h7, h8, h9⟩ := h
  unfold flushText at hs ht
  simp only [← h8.buf] at ht
  obtain ⟨b, g1, hs⟩ := Option.bind_eq_some_iff.mp hs
  obtain ⟨b', g2, ht⟩ := Option.bind_eq_some_iff.mp ht
  rw [g1] at g2
  cases g2
  cases hs; cases ht
  exact .mk _ _ _ _ _ _ _ _ _ h1 h2 h3 h4 h5 h6 h7
    ⟨h8.name, h8.type, h8.flags, h8.offset, h8.size, h8.link, h8.info, h8.align, h8.entsize, rfl⟩ h9

theorem datum_like {s t s' t' : St} {d : Datum} (h : s.Like t) (hs : datum s d = some s') (ht : datum t d = some t') :
    s'.Like t' := by
  obtain ⟨a1, a2, a3, a4, a5, a6, a7, a8, a9, h1, h2, h3, h4, h5, h6, h7, h8, h9⟩ := h
  unfold datum at hs ht
  cases d with
  | bytes b =>
    obtain ⟨⟨x, o⟩, g1, hs⟩ := Option.bind_eq_some_iff.mp hs
    obtain ⟨⟨z, o'⟩, g2, ht⟩ := Option.bind_eq_some_iff.mp ht
    cases hs; cases ht
    exact .mk _ _ _ _ _ _ _ _ _ h1 h2 h3 h4 h5 (h6.write g1 g2).1 h7 h8 h9
  | addr sy disp =>
    simp only [← h6.size] at ht
    obtain ⟨⟨x, o⟩, g1, hs⟩ := Option.bind_eq_some_iff.mp hs
    obtain ⟨⟨z, o'⟩, g2, ht⟩ := Option.bind_eq_some_iff.mp ht
    cases hs; cases ht
    exact .mk _ _ _ _ _ _ _ _ _ h1 h2 h3 h4 h5 (h6.write g1 g2).1 h7 h8 h9

theorem run_like {s t s' t' : St} {ops : List Op} (h : s.Like t) (hs : run s ops = some s') (ht : run t ops = some t') :
    s'.Like t' := by
  induction ops generalizing s t with
  | nil => cases hs; cases ht; exact h
  | cons op ops ih =>
    obtain ⟨x, g1, hs⟩ := Option.bind_eq_some_iff.mp hs
    obtain ⟨z, g2, ht⟩ := Option.bind_eq_some_iff.mp ht
    refine ih ?_ hs ht
    cases op with
    | symbol y => exact symbol_like h g1 g2
    | text c => exact text_like h g1 g2
    | data d => exact datum_like h g1 g2
    | endFunction => exact flushText_like h g1 g2

theorem flushGlobals_like {s t s' t' : St} {l : List (Nat × Ent)} (h : s.Like t) (hs : flushGlobals s l = some s')
    (ht : flushGlobals t l = some t') : s'.Like t' := by
  induction l generalizing s t with
  | nil =>
    obtain ⟨a1, a2, a3, a4, a5, a6, a7, a8, a9, h1, h2, h3, h4, h5, h6, h7, h8, h9⟩ := h
    cases hs; cases ht
    exact .mk _ _ _ _ _ _ _ _ _ h1 h2 h3 h4 h5 h6 h7 h8 h9
  | cons p l ih =>
    obtain ⟨a1, a2, a3, a4, a5, a6, a7, a8, a9, h1, h2, h3, h4, h5, h6, h7, h8, h9⟩ := h
    obtain ⟨id, e⟩ := p
    obtain ⟨⟨x, i⟩, g1, hs⟩ := Option.bind_eq_some_iff.mp hs
    obtain ⟨⟨z, j⟩, g2, ht⟩ := Option.bind_eq_some_iff.mp ht
    obtain ⟨k, rfl⟩ := h3.addEntry g1 g2
    exact ih (by exact (.mk _ _ _ _ _ _ _ _ _ h1 h2 k h4 h5 h6 h7 h8 h9)) hs ht

theorem flushGot_like {s t s' t' : St} (h : s.Like t) (hs : flushGot s = some s') (ht : flushGot t = some t') :
    s'.Like t' := by
  obtain ⟨a1, a2, a3, a4, a5, a6, a7, a8, a9, h1, h2, h3, h4, h5, h6, h7, h8, h9⟩ := h
  unfold flushGot at hs ht
  by_cases q : s.pic = true
  · rw [if_pos q] at hs ht
    obtain ⟨⟨x, i⟩, g1, hs⟩ := Option.bind_eq_some_iff.mp hs
    obtain ⟨⟨z, j⟩, g2, ht⟩ := Option.bind_eq_some_iff.mp ht
    obtain ⟨k, rfl⟩ := h2.addString g1 g2
    obtain ⟨⟨x2, i2⟩, g3, hs⟩ := Option.bind_eq_some_iff.mp hs
    obtain ⟨⟨z2, j2⟩, g4, ht⟩ := Option.bind_eq_some_iff.mp ht
    obtain ⟨k2, _⟩ := h3.addEntry g3 g4
    cases hs; cases ht
    exact .mk _ _ _ _ _ _ _ _ _ h1 k k2 h4 h5 h6 h7 h8 h9
  · rw [if_neg q] at hs ht
    cases hs; cases ht
    exact .mk _ _ _ _ _ _ _ _ _ h1 h2 h3 h4 h5 h6 h7 h8 h9

theorem flushRelocs_like {s t s' t' : St} (h : s.Like t) (hs : flushRelocs s = some s') (ht : flushRelocs t = some t') :
    s'.Like t' := by
  obtain ⟨a1, a2, a3, a4, a5, a6, a7, a8, a9, h1, h2, h3, h4, h5, h6, h7, h8, h9⟩ := h
  unfold flushRelocs at hs ht
  obtain ⟨⟨x, i⟩, g1, hs⟩ := Option.bind_eq_some_iff.mp hs
  obtain ⟨⟨z, j⟩, g2, ht⟩ := Option.bind_eq_some_iff.mp ht
  obtain ⟨⟨x2, i2⟩, g3, hs⟩ := Option.bind_eq_some_iff.mp hs
  obtain ⟨⟨z2, j2⟩, g4, ht⟩ := Option.bind_eq_some_iff.mp ht
  cases hs; cases ht
  exact .mk _ _ _ _ _ _ _ _ _ h1 h2 h3 h4 h5 h6 (h7.write g1 g2).1 h8 (h9.write g3 g4).1

/-! ## Headers and contents -/

/-- Lists of sections alike. -/
inductive Alike : List Sec → List Sec → Prop
  | nil : Alike [] []
  | cons {s t a b} : s.Like t → Alike a b → Alike (s :: a) (t :: b)

theorem Alike.length {a b : List Sec} (h : Alike a b) : a.length = b.length := by
  induction h with
  | nil => rfl
  | cons _ _ ih => simp [ih]

theorem chain_like {a b a' b' : List Sec} (h : Alike a b) {e : Nat} (ha : chain e a = some a') (hb : chain e b = some b') :
    Alike a' b' := by
  induction h generalizing e a' b' with
  | nil => cases ha; cases hb; exact .nil
  | @cons s t a b k _ ih =>
    simp only [chain] at ha hb
    rw [← k.type, ← k.align, ← k.size] at hb
    by_cases q : s.type = .nobits
    · rw [if_pos q] at ha hb
      obtain ⟨x, h1, rfl⟩ := Option.map_eq_some_iff.mp ha
      obtain ⟨y, h2, rfl⟩ := Option.map_eq_some_iff.mp hb
      exact .cons k (ih h1 h2)
    · rw [if_neg q] at ha hb
      generalize (if s.align > 1 then e % s.align else 0) = pad at ha hb
      by_cases q2 : s.align > 1 ∧ ¬ pad < 16
      · rw [if_pos q2] at ha; cases ha
      · rw [if_neg q2] at ha hb
        obtain ⟨x, h1, rfl⟩ := Option.map_eq_some_iff.mp ha
        obtain ⟨y, h2, rfl⟩ := Option.map_eq_some_iff.mp hb
        exact .cons ⟨k.name, by simp only [k.type], k.flags, rfl, by simp only [k.size], k.link, k.info, by simp only [k.align], k.entsize, k.buf⟩ (ih h1 h2)

theorem first_like {n : Nat} {a b a' b' : List Sec} (h : Alike a b) (ha : chainOffsets.first n a = some a')
    (hb : chainOffsets.first n b = some b') : Alike a' b' := by
  induction h generalizing a' b' with
  | nil => cases ha
  | @cons s t a b k hab ih =>
    simp only [chainOffsets.first] at ha hb
    rw [← k.type, ← k.size] at hb
    by_cases q : s.type = .nobits
    · rw [if_pos q] at ha hb
      obtain ⟨x, h1, rfl⟩ := Option.map_eq_some_iff.mp ha
      obtain ⟨y, h2, rfl⟩ := Option.map_eq_some_iff.mp hb
      exact .cons k (ih h1 h2)
    · rw [if_neg q] at ha hb
      obtain ⟨x, h1, rfl⟩ := Option.map_eq_some_iff.mp ha
      obtain ⟨y, h2, rfl⟩ := Option.map_eq_some_iff.mp hb
      exact .cons ⟨k.name, by simp only [k.type], k.flags, rfl, by simp only [k.size], k.link, k.info, by simp only [k.align], k.entsize, k.buf⟩ (chain_like hab h1 h2)

theorem chainOffsets_like {a b a' b' : List Sec} (h : Alike a b) (ha : chainOffsets a = some a')
    (hb : chainOffsets b = some b') : Alike a' b' := by
  cases h with
  | nil => cases ha
  | cons k hab =>
    simp only [chainOffsets] at ha hb
    rw [← hab.length] at hb
    obtain ⟨x, h1, rfl⟩ := Option.map_eq_some_iff.mp ha
    obtain ⟨y, h2, rfl⟩ := Option.map_eq_some_iff.mp hb
    exact .cons k (first_like hab h1 h2)

theorem header_like {s t : Sec} (h : s.Like t) : s.header = t.header := by
  unfold Sec.header
  rw [h.name, h.type, h.flags, h.offset, h.size, h.link, h.info, h.align, h.entsize]

theorem headers_like {a b : List Sec} (h : Alike a b) : a.flatMap Sec.header = b.flatMap Sec.header := by
  induction h with
  | nil => rfl
  | cons k _ ih => rw [List.flatMap_cons, List.flatMap_cons, ih, header_like k]

theorem writeSections_like {a b : List Sec} (h : Alike a b) (d : Option Nat) : writeSections d a = writeSections d b := by
  induction h generalizing d with
  | nil => rfl
  | cons k _ ih =>
    simp only [writeSections]
    rw [k.type, k.offset, k.size, k.buf, ih, ih]

theorem Alike.drop {a b : List Sec} (h : Alike a b) : Alike (a.drop 1) (b.drop 1) := by
  cases h with
  | nil => exact .nil
  | cons _ k => exact k

theorem flush_like {s t : St} (h : s.Like t) {x y : St × List Sec × List Nat} (hs : flush s = some x) (ht : flush t = some y) :
    x.2.2 = y.2.2 := by
  have hg : t.globals = s.globals := by
    obtain ⟨a1, a2, a3, a4, a5, a6, a7, a8, a9, h1, h2, h3, h4, h5, h6, h7, h8, h9⟩ := h
    rfl
  unfold flush at hs ht
  rw [hg] at ht
  obtain ⟨s1, g1, hs⟩ := Option.bind_eq_some_iff.mp hs
  obtain ⟨t1, k1, ht⟩ := Option.bind_eq_some_iff.mp ht
  have l1 := flushGlobals_like h g1 k1
  obtain ⟨s2, g2, hs⟩ := Option.bind_eq_some_iff.mp hs
  obtain ⟨t2, k2, ht⟩ := Option.bind_eq_some_iff.mp ht
  have l2 := flushGot_like l1 g2 k2
  obtain ⟨s3, g3, hs⟩ := Option.bind_eq_some_iff.mp hs
  obtain ⟨t3, k3, ht⟩ := Option.bind_eq_some_iff.mp ht
  obtain ⟨a1, a2, a3, a4, a5, a6, a7, a8, a9, h1, h2, h3, h4, h5, h6, h7, h8, h9⟩ := flushRelocs_like l2 g3 k3
  obtain ⟨a, g4, hs⟩ := Option.bind_eq_some_iff.mp hs
  obtain ⟨b, k4, ht⟩ := Option.bind_eq_some_iff.mp ht
  have l4 : Alike a b := chainOffsets_like (.cons .same (.cons h1 (.cons h2 (.cons h3 (.cons h4 (.cons h5 (.cons h6
    (.cons h7 (.cons h8 (.cons h9 .nil)))))))))) g4 k4
  obtain ⟨u, g5, hs⟩ := Option.bind_eq_some_iff.mp hs
  obtain ⟨v, k5, ht⟩ := Option.bind_eq_some_iff.mp ht
  rw [writeSections_like l4.drop, k5] at g5
  cases g5
  cases hs; cases ht
  simp only [l4.length, headers_like l4]

theorem initSec_like {a a' b b' : Sec} {x y : Sec × Sec × Sec} {k : Nat} {s s' : Sec} (h : a.Like a') (g : b.Like b')
    (q : s.Like s') (hx : initSec a b k s = some x) (hy : initSec a' b' k s' = some y) :
    x.1.Like y.1 ∧ x.2.1.Like y.2.1 ∧ x.2.2.Like y.2.2 := by
  unfold initSec at hx hy
  obtain ⟨⟨u, i⟩, h1, hx⟩ := Option.bind_eq_some_iff.mp hx
  obtain ⟨⟨v, j⟩, h2, hy⟩ := Option.bind_eq_some_iff.mp hy
  obtain ⟨k1, rfl⟩ := h.addString h1 h2
  obtain ⟨⟨u2, i2⟩, h3, hx⟩ := Option.bind_eq_some_iff.mp hx
  obtain ⟨⟨v2, j2⟩, h4, hy⟩ := Option.bind_eq_some_iff.mp hy
  obtain ⟨k2, rfl⟩ := g.addEntry h3 h4
  cases hx; cases hy
  exact ⟨k1, k2, ⟨rfl, q.type, q.flags, q.offset, q.size, q.link, q.info, q.align, q.entsize, q.buf⟩⟩

theorem init_like {c c' : Nat → Nat} {file : List Nat} {pic nc : Bool} {s t : St} (hs : init c file pic nc = some s)
    (ht : init c' file pic nc = some t) : s.Like t := by
  have mk : ∀ (x : Sec) (m n : Nat), Sec.Like { x with cap := m } { x with cap := n } := fun x m n =>
    ⟨rfl, rfl, rfl, rfl, rfl, rfl, rfl, rfl, rfl, rfl⟩
  unfold init at hs ht
  obtain ⟨⟨a1, n1⟩, g1, hs⟩ := Option.bind_eq_some_iff.mp hs
  obtain ⟨⟨b1, m1⟩, k1, ht⟩ := Option.bind_eq_some_iff.mp ht
  obtain ⟨l1, rfl⟩ := (mk { type := .strtab, align := 1 } (c 1) (c' 1)).addString g1 k1
  have l1' : Sec.Like { a1 with name := n1 } { b1 with name := n1 } :=
    ⟨rfl, l1.type, l1.flags, l1.offset, l1.size, l1.link, l1.info, l1.align, l1.entsize, l1.buf⟩
  obtain ⟨⟨a2, n2⟩, g2, hs⟩ := Option.bind_eq_some_iff.mp hs
  obtain ⟨⟨b2, m2⟩, k2, ht⟩ := Option.bind_eq_some_iff.mp ht
  obtain ⟨l2, rfl⟩ := l1'.addString g2 k2
  obtain ⟨⟨a3, n3⟩, g3, hs⟩ := Option.bind_eq_some_iff.mp hs
  obtain ⟨⟨b3, m3⟩, k3, ht⟩ := Option.bind_eq_some_iff.mp ht
  obtain ⟨l3, rfl⟩ := l2.addString g3 k3
  obtain ⟨⟨a4, n4⟩, g4, hs⟩ := Option.bind_eq_some_iff.mp hs
  obtain ⟨⟨b4, m4⟩, k4, ht⟩ := Option.bind_eq_some_iff.mp ht
  obtain ⟨l4, rfl⟩ := (mk { name := n2, type := .strtab, align := 1 } (c 2) (c' 2)).addString g4 k4
  obtain ⟨⟨a5, n5⟩, g5, hs⟩ := Option.bind_eq_some_iff.mp hs
  obtain ⟨⟨b5, m5⟩, k5, ht⟩ := Option.bind_eq_some_iff.mp ht
  obtain ⟨l5, rfl⟩ := (mk { name := n3, type := .symtab, link := 2, align := 4, entsize := 24 } (c 3) (c' 3)).addEntry g5 k5
  obtain ⟨⟨p1, q1, r1⟩, g6, hs⟩ := Option.bind_eq_some_iff.mp hs
  obtain ⟨⟨u1, v1, w1⟩, k6, ht⟩ := Option.bind_eq_some_iff.mp ht
  obtain ⟨x1, y1, z1⟩ := initSec_like l3 l5 (mk { type := .nobits, flags := 3, align := 4 } _ _) g6 k6
  obtain ⟨⟨p2, q2, r2⟩, g7, hs⟩ := Option.bind_eq_some_iff.mp hs
  obtain ⟨⟨u2, v2, w2⟩, k7, ht⟩ := Option.bind_eq_some_iff.mp ht
  obtain ⟨x2, y2, z2⟩ := initSec_like x1 y1 (mk { type := .progbits, flags := 2, align := 16 } _ _) g7 k7
  obtain ⟨⟨p3, q3, r3⟩, g8, hs⟩ := Option.bind_eq_some_iff.mp hs
  obtain ⟨⟨u3, v3, w3⟩, k8, ht⟩ := Option.bind_eq_some_iff.mp ht
  obtain ⟨x3, y3, z3⟩ := initSec_like x2 y2 (mk { type := .progbits, flags := 3, align := 4 } _ _) g8 k8
  obtain ⟨⟨p4, q4, r4⟩, g9, hs⟩ := Option.bind_eq_some_iff.mp hs
  obtain ⟨⟨u4, v4, w4⟩, k9, ht⟩ := Option.bind_eq_some_iff.mp ht
  obtain ⟨x4, y4, z4⟩ := initSec_like x3 y3 (mk { type := .rela, link := 3, info := 6, align := 8, entsize := 24 } _ _) g9 k9
  obtain ⟨⟨p5, q5, r5⟩, g10, hs⟩ := Option.bind_eq_some_iff.mp hs
  obtain ⟨⟨u5, v5, w5⟩, k10, ht⟩ := Option.bind_eq_some_iff.mp ht
  obtain ⟨x5, y5, z5⟩ := initSec_like x4 y4 (mk { type := .progbits, flags := 6, align := 16 } _ _) g10 k10
  obtain ⟨⟨p6, q6, r6⟩, g11, hs⟩ := Option.bind_eq_some_iff.mp hs
  obtain ⟨⟨u6, v6, w6⟩, k11, ht⟩ := Option.bind_eq_some_iff.mp ht
  obtain ⟨x6, y6, z6⟩ := initSec_like x5 y5 (mk { type := .rela, link := 3, info := 8, align := 8, entsize := 24 } _ _) g11 k11
  cases hs; cases ht
  exact .mk _ _ _ _ _ _ _ _ _ x6 l4 y6 z1 z2 z3 z4 z5 z6

/-- Files written one after the other are those written alone. -/
theorem all_alone (us : List (List Nat × List Op)) (c : Nat → Nat) (pic nc : Bool) (fs : List (List Nat))
    (h : assembleAll c pic nc us = some fs) (hok : ∀ u ∈ us, Calls u.2) :
    fs.map some = us.map fun u => assemble u.1 pic nc u.2 := by
  induction us generalizing c fs with
  | nil => cases h; rfl
  | cons u us ih =>
    obtain ⟨file, ops⟩ := u
    simp only [assembleAll] at h
    obtain ⟨s, g1, h⟩ := Option.bind_eq_some_iff.mp h
    obtain ⟨s', g2, h⟩ := Option.bind_eq_some_iff.mp h
    obtain ⟨⟨s2, tab, f⟩, g3, h⟩ := Option.bind_eq_some_iff.mp h
    obtain ⟨fs', g4, h⟩ := Option.bind_eq_some_iff.mp h
    cases h
    obtain ⟨f', off, k, _⟩ := assemble_written file pic nc ops ((hok (file, ops) (by simp)).ok file nc)
    have k0 := k
    unfold assemble at k
    obtain ⟨t, k1, k⟩ := Option.bind_eq_some_iff.mp k
    obtain ⟨t', k2, k⟩ := Option.bind_eq_some_iff.mp k
    obtain ⟨⟨t2, tab', f2⟩, k3, k⟩ := Option.bind_eq_some_iff.mp k
    cases k
    have e : f = f' := flush_like (run_like (init_like g1 k1) g2 k2) g3 k3
    rw [List.map_cons, List.map_cons, ih _ _ g4 (fun u hu => hok u (by simp [hu])), k0, e]

end Verif.Elf
