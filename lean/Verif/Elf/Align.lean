import Verif.Elf.Calls

/-! The alignment of sections that hold objects. -/

namespace Verif.Elf

open Encode (le Code Fix)

/-- Alignments of the ABI. -/
def pows : List Nat := [1, 2, 4, 8, 16]

/-- The alignment asked for. -/
def Kind.align : Kind → Nat
  | .data _ a | .const _ a | .object _ _ a => a
  | _ => 1

theorem write_align {s s' : Sec} {d : List Nat} {o : Nat} (h : s.write d = some (s', o)) : s'.align = s.align := by
  unfold Sec.write at h
  simp only at h
  split_ifs at h <;> simp_all <;> (obtain ⟨h, _⟩ := h; subst h; rfl)

theorem alignTo_align {s s' : Sec} {a : Nat} (h : s.alignTo a = some s') :
    s'.align = if s.align < a then a else s.align := by
  unfold Sec.alignTo at h
  simp only at h
  split_ifs at h with h1 h2 h3 h4
  all_goals
    first
    | (obtain ⟨p, hp, rfl⟩ := Option.map_eq_some_iff.mp h
       rw [write_align hp]; simp_all)
    | (cases h; simp_all)

/-- The step from one alignment to the next. -/
def Step (a b : Nat) : Prop := a ∣ b ∧ (a ∈ pows → b ∈ pows)

theorem Step.rfl {a : Nat} : Step a a := ⟨Nat.dvd_refl a, id⟩

theorem Step.trans {a b c : Nat} (h : Step a b) (g : Step b c) : Step a c :=
  ⟨Nat.dvd_trans h.1 g.1, fun q => g.2 (h.2 q)⟩

theorem pows_step : ∀ a ∈ pows, ∀ b ∈ pows, (if a < b then b else a) ∈ pows ∧ a ∣ (if a < b then b else a)
    ∧ b ∣ (if a < b then b else a) := by decide

theorem alignTo_step {s s' : Sec} {a : Nat} (h : s.alignTo a = some s') (hs : s.align ∈ pows) (ha : a ∈ pows) :
    Step s.align s'.align ∧ a ∣ s'.align := by
  rw [alignTo_align h]
  have := pows_step _ hs _ ha
  exact ⟨⟨this.2.1, fun _ => this.1⟩, this.2.2⟩

structure Steps (a b : St) : Prop where
  data : Step a.data.align b.data.align
  rodata : Step a.rodata.align b.rodata.align
  bss : Step a.bss.align b.bss.align

theorem Steps.trans {a b c : St} (h : Steps a b) (g : Steps b c) : Steps a c :=
  ⟨h.data.trans g.data, h.rodata.trans g.rodata, h.bss.trans g.bss⟩

theorem Steps.of_eq {a b : St} (h1 : b.data.align = a.data.align) (h2 : b.rodata.align = a.rodata.align)
    (h3 : b.bss.align = a.bss.align) : Steps a b :=
  ⟨by rw [h1]; exact .rfl, by rw [h2]; exact .rfl, by rw [h3]; exact .rfl⟩

structure Pows (a : St) : Prop where
  data : a.data.align ∈ pows
  rodata : a.rodata.align ∈ pows
  bss : a.bss.align ∈ pows

theorem Pows.step {a b : St} (h : Pows a) (g : Steps a b) : Pows b :=
  ⟨g.data.2 h.data, g.rodata.2 h.rodata, g.bss.2 h.bss⟩

theorem assoc_same {st st' : St} {s : Sym} {e : Ent} {f : Bool} (h : assoc st s e f = some st') :
    st'.data = st.data ∧ st'.rodata = st.rodata ∧ st'.bss = st.bss ∧ st'.noCommon = st.noCommon := by
  unfold assoc at h
  by_cases h1 : s.intern = true
  · rw [if_pos h1] at h
    obtain ⟨p, _, h⟩ := Option.bind_eq_some_iff.mp h
    cases h
    exact ⟨rfl, rfl, rfl, rfl⟩
  · rw [if_neg h1] at h
    by_cases h2 : e.info / 16 = 1
    · rw [if_pos h2] at h
      cases h
      exact ⟨rfl, rfl, rfl, rfl⟩
    · rw [if_neg h2] at h; cases h

/-- The alignment of the section a symbol is put into; zero when it is in none. -/
def homeAlign (st : St) (s : Sym) : Nat :=
  match home st.noCommon s with
  | 4 => st.bss.align
  | 5 => st.rodata.align
  | 6 => st.data.align
  | _ => 0

theorem symbol_align {st st' : St} {s : Sym} (h : symbol st s = some st') (hp : Pows st) (ha : s.kind.align ∈ pows) :
    Steps st st' ∧ (s.kind.align ∣ homeAlign st' s) ∧ st'.noCommon = st.noCommon := by
  unfold symbol at h
  by_cases h0 : st.off s.id ≠ 0
  · rw [if_pos h0] at h; cases h
  · rw [if_neg h0] at h
    cases hk : s.kind with
    | label =>
      rw [hk] at h
      cases h
      exact ⟨.of_eq rfl rfl rfl, by simp [Kind.align], rfl⟩
    | func df =>
      rw [hk] at h
      obtain ⟨⟨tab, nm⟩, _, h⟩ := Option.bind_eq_some_iff.mp h
      have : ∃ e, assoc { st with strtab := tab } s e true = some st' := by
        cases df <;> exact ⟨_, h⟩
      obtain ⟨e, h⟩ := this
      obtain ⟨g1, g2, g3, g4⟩ := assoc_same h
      exact ⟨.of_eq (by rw [g1]) (by rw [g2]) (by rw [g3]), by simp [Kind.align], g4⟩
    | data n a =>
      rw [hk] at h ha
      obtain ⟨⟨tab, nm⟩, _, h⟩ := Option.bind_eq_some_iff.mp h
      obtain ⟨d, hd, h⟩ := Option.bind_eq_some_iff.mp h
      obtain ⟨g1, g2, g3, g4⟩ := assoc_same h
      obtain ⟨q1, q2⟩ := alignTo_step hd hp.data ha
      refine ⟨⟨by rw [g1]; exact q1, by rw [g2]; exact .rfl, by rw [g3]; exact .rfl⟩, ?_, g4⟩
      simp only [homeAlign, home, hk, g1]
      exact q2
    | const b a =>
      rw [hk] at h ha
      obtain ⟨⟨tab, nm⟩, _, h⟩ := Option.bind_eq_some_iff.mp h
      obtain ⟨d, hd, h⟩ := Option.bind_eq_some_iff.mp h
      obtain ⟨⟨d', o⟩, hd', h⟩ := Option.bind_eq_some_iff.mp h
      obtain ⟨g1, g2, g3, g4⟩ := assoc_same h
      obtain ⟨q1, q2⟩ := alignTo_step hd hp.rodata ha
      have e := write_align hd'
      refine ⟨⟨by rw [g1]; exact .rfl, by rw [g2]; simp only [e]; exact q1, by rw [g3]; exact .rfl⟩, ?_, g4⟩
      simp only [homeAlign, home, hk, g2, e]
      exact q2
    | object t n a =>
      rw [hk] at h ha
      obtain ⟨⟨tab, nm⟩, _, h⟩ := Option.bind_eq_some_iff.mp h
      simp only at h
      by_cases h1 : s.intern = true ∨ t = true ∧ st.noCommon = true
      · rw [if_pos h1] at h
        obtain ⟨b, hb, h⟩ := Option.bind_eq_some_iff.mp h
        obtain ⟨g1, g2, g3, g4⟩ := assoc_same h
        obtain ⟨q1, q2⟩ := alignTo_step hb hp.bss ha
        refine ⟨⟨by rw [g1]; exact .rfl, by rw [g2]; exact .rfl, by rw [g3]; exact q1⟩, ?_, g4⟩
        simp only [homeAlign, home, hk, g3, g4, if_pos h1]
        exact q2
      · rw [if_neg h1] at h
        have : ∃ e, assoc { st with strtab := tab } s e false = some st' := by
          split_ifs at h <;> exact ⟨_, h⟩
        obtain ⟨e, h⟩ := this
        obtain ⟨g1, g2, g3, g4⟩ := assoc_same h
        refine ⟨.of_eq (by rw [g1]) (by rw [g2]) (by rw [g3]), ?_, g4⟩
        simp only [homeAlign, home, hk, g4, if_neg h1]
        split_ifs <;> simp

/-- Every alignment asked for is a power of two. -/
def PowOps (ops : List Op) : Prop := ∀ s, .symbol s ∈ ops → s.kind.align ∈ pows

theorem fixups_same (st : St) (val : List Nat) (fs : List Fix) :
    (fixups st val fs).1.data = st.data ∧ (fixups st val fs).1.rodata = st.rodata
      ∧ (fixups st val fs).1.bss = st.bss ∧ (fixups st val fs).1.noCommon = st.noCommon := by
  induction fs generalizing st val with
  | nil => exact ⟨rfl, rfl, rfl, rfl⟩
  | cons f fs ih =>
    unfold fixups
    simp only
    have e : (fixup st val f).1.data = st.data ∧ (fixup st val f).1.rodata = st.rodata
        ∧ (fixup st val f).1.bss = st.bss ∧ (fixup st val f).1.noCommon = st.noCommon := by
      unfold fixup
      split
      · exact ⟨rfl, rfl, rfl, rfl⟩
      · split_ifs <;> exact ⟨rfl, rfl, rfl, rfl⟩
    obtain ⟨g1, g2, g3, g4⟩ := ih (fixup st val f).1 (fixup st val f).2
    exact ⟨g1.trans e.1, g2.trans e.2.1, g3.trans e.2.2.1, g4.trans e.2.2.2⟩

theorem grow_same {st st' : St} {n : Nat} (h : growFunction st n = some st') :
    st'.data = st.data ∧ st'.rodata = st.rodata ∧ st'.bss = st.bss ∧ st'.noCommon = st.noCommon := by
  unfold growFunction at h
  split at h
  · cases h
  · cases h; exact ⟨rfl, rfl, rfl, rfl⟩
  · cases h; exact ⟨rfl, rfl, rfl, rfl⟩

theorem text_same {st st' : St} {c : Code} (h : text st c = some st') :
    st'.data = st.data ∧ st'.rodata = st.rodata ∧ st'.bss = st.bss ∧ st'.noCommon = st.noCommon := by
  unfold text at h
  have e := fixups_same st c.val c.fix
  generalize fixups st c.val c.fix = q at h e
  obtain ⟨st1, val⟩ := q
  simp only at h e
  by_cases h1 : val.getD 0 0 ≠ 0x90
  · rw [if_pos h1] at h
    obtain ⟨⟨t, k⟩, _, h⟩ := Option.bind_eq_some_iff.mp h
    have := grow_same h
    exact ⟨this.1.trans e.1, this.2.1.trans e.2.1, this.2.2.1.trans e.2.2.1, this.2.2.2.trans e.2.2.2⟩
  · rw [if_neg h1] at h
    cases h
    exact e

theorem step_align {st st' : St} {op : Op} (h : step st op = some st') (hp : Pows st)
    (ha : ∀ s, op = .symbol s → s.kind.align ∈ pows) : Steps st st' ∧ st'.noCommon = st.noCommon := by
  cases op with
  | symbol s => have := symbol_align h hp (ha s rfl); exact ⟨this.1, this.2.2⟩
  | text c =>
    have e := text_same h
    exact ⟨.of_eq (by rw [e.1]) (by rw [e.2.1]) (by rw [e.2.2.1]), e.2.2.2⟩
  | data d =>
    unfold step datum at h
    cases d with
    | bytes b =>
      obtain ⟨⟨t, k⟩, h1, h⟩ := Option.bind_eq_some_iff.mp h
      cases h
      exact ⟨.of_eq (write_align h1) rfl rfl, rfl⟩
    | addr s disp =>
      obtain ⟨⟨t, k⟩, h1, h⟩ := Option.bind_eq_some_iff.mp h
      cases h
      exact ⟨.of_eq (write_align h1) rfl rfl, rfl⟩
  | endFunction =>
    unfold step flushText at h
    obtain ⟨b, _, h⟩ := Option.bind_eq_some_iff.mp h
    cases h
    exact ⟨.of_eq rfl rfl rfl, rfl⟩

theorem homeAlign_steps {a b : St} {s : Sym} (h : Steps a b) (hn : b.noCommon = a.noCommon)
    (hd : s.kind.align ∣ homeAlign a s) : s.kind.align ∣ homeAlign b s := by
  unfold homeAlign at hd ⊢
  rw [hn]
  split
  · rename_i q; rw [q] at hd; exact Nat.dvd_trans hd h.bss.1
  · rename_i q; rw [q] at hd; exact Nat.dvd_trans hd h.rodata.1
  · rename_i q; rw [q] at hd; exact Nat.dvd_trans hd h.data.1
  · simp

theorem run_align {st st' : St} {ops : List Op} (h : run st ops = some st') (hp : Pows st) (ha : PowOps ops) :
    Steps st st' ∧ st'.noCommon = st.noCommon ∧ ∀ s, .symbol s ∈ ops → s.kind.align ∣ homeAlign st' s := by
  induction ops generalizing st with
  | nil =>
    cases h
    exact ⟨.of_eq rfl rfl rfl, rfl, by simp⟩
  | cons op ops ih =>
    obtain ⟨st1, h1, h⟩ := Option.bind_eq_some_iff.mp h
    have ha1 : ∀ s, op = .symbol s → s.kind.align ∈ pows := fun s q => ha s (by simp [q])
    obtain ⟨e1, e2⟩ := step_align h1 hp ha1
    obtain ⟨g1, g2, g3⟩ := ih h (hp.step e1) (fun s hs => ha s (List.mem_cons_of_mem _ hs))
    refine ⟨e1.trans g1, g2.trans e2, ?_⟩
    intro s hs
    rcases List.mem_cons.mp hs with rfl | hs
    · exact homeAlign_steps g1 g2 (symbol_align h1 hp (ha1 s rfl)).2.1
    · exact g3 s hs

/-- Finishing changes no section of objects. -/
theorem finish_same {st st1 st2 st3 : St} (h1 : flushGlobals st st.globals = some st1) (h2 : flushGot st1 = some st2)
    (h3 : flushRelocs st2 = some st3) :
    st3.data = st.data ∧ st3.rodata = st.rodata ∧ st3.bss = st.bss ∧ st3.noCommon = st.noCommon := by
  have g1 : ∀ (gs : List (Nat × Ent)) (st st' : St), flushGlobals st gs = some st' →
      st'.data = st.data ∧ st'.rodata = st.rodata ∧ st'.bss = st.bss ∧ st'.noCommon = st.noCommon := by
    intro gs
    induction gs with
    | nil => intro st st' h; cases h; exact ⟨rfl, rfl, rfl, rfl⟩
    | cons g gs ih =>
      intro st st' h
      unfold flushGlobals at h
      obtain ⟨⟨t, i⟩, _, h⟩ := Option.bind_eq_some_iff.mp h
      simp only at h
      have := ih _ _ h
      exact this
  have g2 : st2.data = st1.data ∧ st2.rodata = st1.rodata ∧ st2.bss = st1.bss ∧ st2.noCommon = st1.noCommon := by
    unfold flushGot at h2
    by_cases q : st1.pic = true
    · rw [if_pos q] at h2
      obtain ⟨⟨t, i⟩, _, h2⟩ := Option.bind_eq_some_iff.mp h2
      obtain ⟨⟨t2, i2⟩, _, h2⟩ := Option.bind_eq_some_iff.mp h2
      cases h2
      exact ⟨rfl, rfl, rfl, rfl⟩
    · rw [if_neg q] at h2
      cases h2
      exact ⟨rfl, rfl, rfl, rfl⟩
  have g3 : st3.data = st2.data ∧ st3.rodata = st2.rodata ∧ st3.bss = st2.bss ∧ st3.noCommon = st2.noCommon := by
    unfold flushRelocs at h3
    obtain ⟨⟨t, i⟩, _, h3⟩ := Option.bind_eq_some_iff.mp h3
    obtain ⟨⟨t2, i2⟩, _, h3⟩ := Option.bind_eq_some_iff.mp h3
    cases h3
    exact ⟨rfl, rfl, rfl, rfl⟩
  have g1 := g1 _ _ _ h1
  exact ⟨g3.1.trans (g2.1.trans g1.1), g3.2.1.trans (g2.2.1.trans g1.2.1),
    g3.2.2.1.trans (g2.2.2.1.trans g1.2.2.1), g3.2.2.2.trans (g2.2.2.2.trans g1.2.2.2)⟩

end Verif.Elf
