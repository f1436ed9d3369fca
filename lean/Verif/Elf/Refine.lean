import Verif.Elf.Sim

namespace Verif.Elf

open Encode (le Code Fix le_length le_lt value_le)

/-- The object is in order. -/
structure ObjOk (o : Obj) : Prop where
  decls : (o.decls.map (·.sym.id)).Nodup
  labels : (o.labels.map (·.1)).Nodup
  apart : ∀ x ∈ o.decls.map (·.sym.id), x ∉ o.labels.map (·.1)
  placed : Placed 0 o.items
  len : o.len = total o.items
  items : ∀ i ∈ o.items, ItemOk (o.labels.map (·.1)) i
  strs : o.strs ≠ []

/-- The current function, in the state of the writer. -/
def CurOk (base : Nat) (fn : Option Nat) (L G : List Decl) (c : Cur) : Prop :=
  match fn with
  | none => c = .none
  | some k =>
    (∃ j d, L[j]? = some d ∧ d.sym.id = k ∧ c = .static (base + j))
      ∨ ∃ j d, G[j]? = some d ∧ d.sym.id = k ∧ c = .global j

/-- What no call changes before the end. -/
structure Frame (a b : St) : Prop where
  shstrtab : b.shstrtab = a.shstrtab
  relaData : b.relaData = a.relaData
  relaText : b.relaText = a.relaText
  pic : b.pic = a.pic
  strtab : Same a.strtab b.strtab
  symtab : Same a.symtab b.symtab
  bss : Same a.bss b.bss
  rodata : Same a.rodata b.rodata
  data : Same a.data b.data
  text : Same a.text b.text

structure R (B : List Ent) (st0 st : St) (o : Obj) : Prop where
  ok : ObjOk o
  str : Holds st.strtab o.strs
  tab : Holds st.symtab ((B ++ o.locals.map (Decl.ent o.noCommon)).flatMap Ent.bytes)
  base : B ≠ [] ∧ ∀ x ∈ B, x.info < 16
  bss : Space st.bss o.bss
  rodata : Holds st.rodata o.rodata
  data : Holds st.data o.data
  text : Holds st.text (o.items.flatMap (Item.bytes st.off))
  globals : st.globals = o.globals.map fun d => (d.sym.id, d.ent o.noCommon)
  pendData : st.pendData = o.dataRel
  pendText : st.pendText = o.items.flatMap Item.relocs
  disp : st.disp = o.items.flatMap Item.waiting
  noCommon : st.noCommon = o.noCommon
  cur : CurOk B.length o.fn o.locals o.globals st.cur
  offLoc : ∀ j d, o.locals[j]? = some d → st.off d.sym.id = B.length + j
  offLab : ∀ p ∈ o.labels, st.off p.1 = p.2 ∧ p.2 ≠ 0
  offZero : ∀ x, x ∉ o.locals.map (·.sym.id) → x ∉ o.labels.map (·.1) → st.off x = 0
  frame : Frame st0 st

variable {B : List Ent} {st0 st : St} {o : Obj}

theorem R.textSize (h : R B st0 st o) : st.text.size = o.len := by
  rw [h.text.size, items_length _ _ (fun i hi => (h.ok.items i hi).code), h.ok.len]

theorem R.withData (h : R B st0 st o) {d : Sec} {b : List Nat} (hd : Holds d b) (hs : Same st.data d) :
    R B st0 { st with data := d } { o with data := b } :=
  ⟨⟨h.ok.decls, h.ok.labels, h.ok.apart, h.ok.placed, h.ok.len, h.ok.items, h.ok.strs⟩, h.str, h.tab, h.base,
    h.bss, h.rodata, hd, h.text, h.globals, h.pendData, h.pendText, h.disp, h.noCommon, h.cur, h.offLoc, h.offLab,
    h.offZero, { h.frame with data := h.frame.data.trans hs }⟩

theorem R.withRodata (h : R B st0 st o) {d : Sec} {b : List Nat} (hd : Holds d b) (hs : Same st.rodata d) :
    R B st0 { st with rodata := d } { o with rodata := b } :=
  ⟨⟨h.ok.decls, h.ok.labels, h.ok.apart, h.ok.placed, h.ok.len, h.ok.items, h.ok.strs⟩, h.str, h.tab, h.base,
    h.bss, hd, h.data, h.text, h.globals, h.pendData, h.pendText, h.disp, h.noCommon, h.cur, h.offLoc, h.offLab,
    h.offZero, { h.frame with rodata := h.frame.rodata.trans hs }⟩

theorem R.withBss (h : R B st0 st o) {d : Sec} {n : Nat} (hd : Space d n) (hs : Same st.bss d) :
    R B st0 { st with bss := d } { o with bss := n } :=
  ⟨⟨h.ok.decls, h.ok.labels, h.ok.apart, h.ok.placed, h.ok.len, h.ok.items, h.ok.strs⟩, h.str, h.tab, h.base,
    hd, h.rodata, h.data, h.text, h.globals, h.pendData, h.pendText, h.disp, h.noCommon, h.cur, h.offLoc, h.offLab,
    h.offZero, { h.frame with bss := h.frame.bss.trans hs }⟩

theorem symType_lt (s : Sym) : symType s < 16 := by
  unfold symType
  split <;> (try split_ifs) <;> decide

theorem ent_local (n : Bool) (d : Decl) (h : d.sym.intern = true) : (d.ent n).info < 16 := by
  have := symType_lt d.sym
  simp only [Decl.ent, h, if_true]
  omega

theorem ent_global (n : Bool) (d : Decl) (h : d.sym.intern = false) : (d.ent n).info / 16 = 1 := by
  have := symType_lt d.sym
  simp only [Decl.ent, h, Bool.false_eq_true, if_false]
  omega

theorem mem_locals {d : Decl} (h : d ∈ o.locals) : d ∈ o.decls ∧ d.sym.intern = true := by
  simpa [Obj.locals] using h

theorem mem_globals {d : Decl} (h : d ∈ o.globals) : d ∈ o.decls ∧ d.sym.intern = false := by
  simpa [Obj.globals] using h

theorem getElem?_append_some {α : Type} (l : List α) (a : α) (j : Nat) (d : α) (h : (l ++ [a])[j]? = some d) :
    l[j]? = some d ∨ j = l.length ∧ d = a := by
  rcases Nat.lt_trichotomy j l.length with g | g | g
  · rw [List.getElem?_append_left g] at h
    exact .inl h
  · subst g
    rw [List.getElem?_append_right (Nat.le_refl _), Nat.sub_self] at h
    exact .inr ⟨rfl, by simpa using h.symm⟩
  · rw [List.getElem?_eq_none (by simp; omega)] at h
    cases h

/-- Declaring a symbol. -/
theorem declare_sim (h : R B st0 st o) (s : Sym) (value size : Nat) (isFunc : Bool) (hid : s.id ∉ o.ids)
    (e : Ent) (he : e = Decl.ent o.noCommon ⟨s, o.strs.length, value, size⟩) :
    ∃ tab, st.strtab.addString s.name = some (tab, o.strs.length) ∧
      ∃ st', assoc { st with strtab := tab } s e isFunc = some st' ∧
        R B st0 st' { o.declare s value size with fn := if isFunc then some s.id else o.fn } := by
  obtain ⟨tab, k1, k2, k3⟩ := h.str.addString h.ok.strs s.name
  refine ⟨tab, k1, ?_⟩
  have hd : s.id ∉ o.decls.map (·.sym.id) := fun g => hid (List.mem_append_left _ g)
  have hl : s.id ∉ o.labels.map (·.1) := fun g => hid (List.mem_append_right _ g)
  have hok : ObjOk { o.declare s value size with fn := if isFunc then some s.id else o.fn } := by
    refine ⟨?_, h.ok.labels, ?_, h.ok.placed, h.ok.len, h.ok.items, ?_⟩
    · simp only [Obj.declare, List.map_append, List.map_cons, List.map_nil]
      rw [List.nodup_append]
      refine ⟨h.ok.decls, by simp, ?_⟩
      intro a ha b hb g
      simp only [List.mem_singleton] at hb
      exact hd (by rw [← hb, ← g]; exact ha)
    · intro x hx
      simp only [Obj.declare, List.map_append, List.map_cons, List.map_nil, List.mem_append, List.mem_singleton] at hx
      rcases hx with hx | rfl
      · exact h.ok.apart x hx
      · exact hl
    · simp [Obj.declare]
  have hframe : Same st0.strtab tab := h.frame.strtab.trans k3
  cases hi : s.intern with
  | true =>
    have hloc : ({ o.declare s value size with fn := if isFunc then some s.id else o.fn } : Obj).locals
        = o.locals ++ [⟨s, o.strs.length, value, size⟩] := by
      simp [Obj.locals, Obj.declare, List.filter_append, hi]
    have hglo : ({ o.declare s value size with fn := if isFunc then some s.id else o.fn } : Obj).globals
        = o.globals := by
      simp [Obj.globals, Obj.declare, List.filter_append, hi]
    obtain ⟨t, a1, a2, a3⟩ := addEntry_local h.tab (by simp [h.base.1]) e
      (by
        intro x hx
        rcases List.mem_append.mp hx with hx | hx
        · exact h.base.2 x hx
        · obtain ⟨d, hd, rfl⟩ := List.mem_map.mp hx
          exact ent_local _ _ (mem_locals hd).2)
      (by rw [he]; exact ent_local _ _ hi)
    have hlen : (B ++ o.locals.map (Decl.ent o.noCommon)).length = B.length + o.locals.length := by simp
    rw [hlen] at a1
    have hoff : ∀ x, x ≠ s.id → setOff st.off s.id (B.length + o.locals.length) x = st.off x := by
      intro x hx; unfold setOff; rw [if_neg hx]
    refine ⟨_, by simp only [assoc, hi, if_true, a1]; rfl, ?_⟩
    refine ⟨hok, k2, ?_, h.base, h.bss, h.rodata, h.data, ?_, ?_, h.pendData, h.pendText, h.disp, h.noCommon,
      ?_, ?_, ?_, ?_, ⟨h.frame.shstrtab, h.frame.relaData, h.frame.relaText, h.frame.pic, hframe,
        h.frame.symtab.trans a3, h.frame.bss, h.frame.rodata, h.frame.data, h.frame.text⟩⟩
    · rw [hloc]
      simp only [Obj.declare, List.map_append, List.map_cons, List.map_nil, ← he]
      rw [← List.append_assoc]
      exact a2
    · have := h.text
      rw [items_congr st.off (setOff st.off s.id (B.length + o.locals.length)) o.items
        (fun i hi ha l hl' => (hoff l (fun g => hl (by rw [← g]; exact (h.ok.items i hi).known ha l hl'))).symm)] at this
      exact this
    · rw [hglo]; exact h.globals
    · simp only
      unfold CurOk
      rw [hloc, hglo]
      cases isFunc with
      | true =>
        simp only [if_true]
        exact .inl ⟨o.locals.length, ⟨s, o.strs.length, value, size⟩, by simp, rfl, rfl⟩
      | false =>
        simp only [Bool.false_eq_true, if_false]
        have := h.cur
        unfold CurOk at this
        cases hf : o.fn with
        | none => rw [hf] at this; exact this
        | some k =>
          rw [hf] at this
          rcases this with ⟨j, d, q1, q2, q3⟩ | q
          · refine .inl ⟨j, d, ?_, q2, q3⟩
            rw [List.getElem?_append_left (List.getElem?_eq_some_iff.mp q1).1]
            exact q1
          · exact .inr q
    · intro j d hj
      rw [hloc] at hj
      rcases getElem?_append_some _ _ _ _ hj with hj | ⟨rfl, rfl⟩
      · have hne : d.sym.id ≠ s.id := by
          intro g
          exact hd (by rw [← g]; exact List.mem_map.mpr ⟨d, (mem_locals (List.mem_of_getElem? hj)).1, rfl⟩)
        simp only
        rw [hoff _ hne]
        exact h.offLoc j d hj
      · simp only [setOff, if_true]
    · intro p hp
      have hne : p.1 ≠ s.id := fun g => hl (by rw [← g]; exact List.mem_map.mpr ⟨p, hp, rfl⟩)
      simp only
      rw [hoff _ hne]
      exact h.offLab p hp
    · intro x hx hx2
      rw [hloc] at hx
      simp only [List.map_append, List.map_cons, List.map_nil, List.mem_append, List.mem_singleton, not_or] at hx
      simp only
      rw [hoff _ hx.2]
      exact h.offZero x hx.1 hx2
  | false =>
    have hloc : ({ o.declare s value size with fn := if isFunc then some s.id else o.fn } : Obj).locals
        = o.locals := by
      simp [Obj.locals, Obj.declare, List.filter_append, hi]
    have hglo : ({ o.declare s value size with fn := if isFunc then some s.id else o.fn } : Obj).globals
        = o.globals ++ [⟨s, o.strs.length, value, size⟩] := by
      simp [Obj.globals, Obj.declare, List.filter_append, hi]
    have he1 : e.info / 16 = 1 := by rw [he]; exact ent_global _ _ hi
    refine ⟨_, by simp only [assoc, hi, Bool.false_eq_true, if_false, he1, if_true]; rfl, ?_⟩
    refine ⟨hok, k2, ?_, h.base, h.bss, h.rodata, h.data, h.text, ?_, h.pendData, h.pendText, h.disp, h.noCommon,
      ?_, ?_, h.offLab, ?_, ⟨h.frame.shstrtab, h.frame.relaData, h.frame.relaText, h.frame.pic, hframe,
        h.frame.symtab, h.frame.bss, h.frame.rodata, h.frame.data, h.frame.text⟩⟩
    · rw [hloc]; exact h.tab
    · rw [hglo]
      simp only [Obj.declare, List.map_append, List.map_cons, List.map_nil, ← he, h.globals]
    · simp only
      unfold CurOk
      rw [hloc, hglo]
      cases isFunc with
      | true =>
        simp only [if_true]
        exact .inr ⟨o.globals.length, ⟨s, o.strs.length, value, size⟩, by simp, rfl, by rw [h.globals]; simp⟩
      | false =>
        simp only [Bool.false_eq_true, if_false]
        have := h.cur
        unfold CurOk at this
        cases hf : o.fn with
        | none => rw [hf] at this; exact this
        | some k =>
          rw [hf] at this
          rcases this with q | ⟨j, d, q1, q2, q3⟩
          · exact .inl q
          · refine .inr ⟨j, d, ?_, q2, q3⟩
            rw [List.getElem?_append_left (List.getElem?_eq_some_iff.mp q1).1]
            exact q1
    · rw [hloc]; exact h.offLoc
    · rw [hloc]; exact h.offZero

theorem R.offNew (h : R B st0 st o) {x : Nat} (hx : x ∉ o.ids) : st.off x = 0 := by
  apply h.offZero x
  · intro g
    obtain ⟨d, hd, rfl⟩ := List.mem_map.mp g
    exact hx (List.mem_append_left _ (List.mem_map.mpr ⟨d, (mem_locals hd).1, rfl⟩))
  · intro g
    exact hx (List.mem_append_right _ g)

theorem symbol_sim (h : R B st0 st o) (s : Sym) (hs : OpOk o (.symbol s)) :
    ∃ st', symbol st s = some st' ∧ R B st0 st' (o.symbol s) := by
  obtain ⟨hid, hz, hal, hlab⟩ := hs
  unfold symbol Obj.symbol
  have hn := h.offNew hid
  rw [if_neg (by rw [hn]; simp)]
  cases hk : s.kind with
  | label =>
    simp only
    have hl : s.id ∉ o.labels.map (·.1) := fun g => hid (List.mem_append_right _ g)
    have hd : s.id ∉ o.decls.map (·.sym.id) := fun g => hid (List.mem_append_left _ g)
    have hoff : ∀ x, x ≠ s.id → setOff st.off s.id st.text.size x = st.off x := by
      intro x hx; unfold setOff; rw [if_neg hx]
    refine ⟨_, rfl, ⟨⟨h.ok.decls, ?_, ?_, h.ok.placed, h.ok.len, ?_, h.ok.strs⟩, h.str, h.tab, h.base,
      h.bss, h.rodata, h.data, ?_, h.globals, h.pendData, h.pendText, h.disp, h.noCommon, h.cur, ?_, ?_, ?_,
      ⟨h.frame.shstrtab, h.frame.relaData, h.frame.relaText, h.frame.pic, h.frame.strtab,
        h.frame.symtab, h.frame.bss, h.frame.rodata, h.frame.data, h.frame.text⟩⟩⟩
    · simp only [List.map_append, List.map_cons, List.map_nil]
      rw [List.nodup_append]
      refine ⟨h.ok.labels, by simp, ?_⟩
      intro a ha b hb g
      simp only [List.mem_singleton] at hb
      exact hl (by rw [← hb, ← g]; exact ha)
    · intro x hx
      simp only [List.map_append, List.map_cons, List.map_nil, List.mem_append, List.mem_singleton, not_or]
      exact ⟨h.ok.apart x hx, fun g => hd (by rw [← g]; exact hx)⟩
    · intro i hi
      refine ⟨(h.ok.items i hi).code, fun ha l hl' => ?_⟩
      simp only [List.map_append, List.mem_append]
      exact .inl ((h.ok.items i hi).known ha l hl')
    · have := h.text
      rw [items_congr st.off (setOff st.off s.id st.text.size) o.items
        (fun i hi ha l hl' => (hoff l (fun g => hl (by rw [← g]; exact (h.ok.items i hi).known ha l hl'))).symm)] at this
      exact this
    · intro j d hj
      have hne : d.sym.id ≠ s.id := by
        intro g
        exact hd (by rw [← g]; exact List.mem_map.mpr ⟨d, (mem_locals (List.mem_of_getElem? hj)).1, rfl⟩)
      simp only
      rw [hoff _ hne]
      exact h.offLoc j d hj
    · intro p hp
      simp only [List.mem_append, List.mem_singleton] at hp
      rcases hp with hp | rfl
      · have hne : p.1 ≠ s.id := fun g => hl (by rw [← g]; exact List.mem_map.mpr ⟨p, hp, rfl⟩)
        simp only
        rw [hoff _ hne]
        exact h.offLab p hp
      · simp only [setOff, if_true]
        exact ⟨h.textSize, hlab hk⟩
    · intro x hx hx2
      simp only [List.map_append, List.map_cons, List.map_nil, List.mem_append, List.mem_singleton, not_or] at hx2
      simp only
      rw [hoff _ hx2.2]
      exact h.offZero x hx hx2.1
  | func defined =>
    obtain ⟨tab, k1, st', k2, k3⟩ := declare_sim h s (if defined then o.len else 0) 0 true hid
      (⟨o.strs.length, (if s.intern then 0 else 16) + 2, if defined then nText else 0, if defined then o.len else 0, 0⟩)
      (by simp [Decl.ent, symType, home, hk])
    simp only [k1, Option.bind_eq_bind, Option.bind_some]
    cases defined with
    | true =>
      refine ⟨st', ?_, k3⟩
      rw [h.textSize]
      exact k2
    | false => exact ⟨st', k2, k3⟩
  | data size align =>
    rw [hk] at hal
    obtain ⟨d, d1, d2, d3⟩ := h.data.alignTo hal.1 hal.2
    obtain ⟨tab, k1, st', k2, k3⟩ := declare_sim (h.withData d2 d3) s (padded align o.data).length size false hid
      (⟨o.strs.length, (if s.intern then 0 else 16) + 1, nData, d.size, size⟩)
      (by simp [Decl.ent, symType, home, hk, d2.size])
    simp only [k1, d1, Option.bind_eq_bind, Option.bind_some]
    exact ⟨st', k2, k3⟩
  | const bytes align =>
    rw [hk] at hal
    obtain ⟨d, d1, d2, d3⟩ := h.rodata.alignTo hal.1 hal.2
    obtain ⟨d', e1, e2, e3, _⟩ := d2.write bytes
    obtain ⟨tab, k1, st', k2, k3⟩ := declare_sim (h.withRodata e2 (d3.trans e3)) s (padded align o.rodata).length
      bytes.length false hid
      (⟨o.strs.length, (if s.intern then 0 else 16) + 1, nRodata, (padded align o.rodata).length, bytes.length⟩)
      (by simp [Decl.ent, symType, home, hk])
    simp only [k1, d1, e1, Option.bind_eq_bind, Option.bind_some]
    exact ⟨st', k2, k3⟩
  | object tentative size align =>
    rw [hk] at hal
    by_cases h1 : s.intern = true ∨ tentative = true ∧ o.noCommon = true
    · have h1' := h1
      rw [← h.noCommon] at h1'
      obtain ⟨d, d1, d2, d3⟩ := h.bss.alignTo hal.1 hal.2
      have d4 : Space { d with size := d.size + size } (o.bss + padTo align o.bss + size) :=
        ⟨d2.type, d2.align, by simp only [d2.size], d2.offset⟩
      have hty : symType s = 1 := by
        unfold symType
        rw [hk]
        simp only
        rw [if_pos]
        rcases h1 with h1 | h1
        · exact .inl h1
        · exact .inr h1.1
      have hho : home o.noCommon s = 4 := by
        unfold home
        rw [hk]
        simp only
        rw [if_pos h1]
      obtain ⟨tab, k1, st', k2, k3⟩ := declare_sim (h.withBss d4 (d3.trans ⟨rfl, rfl, rfl, rfl, rfl, rfl⟩)) s
        (o.bss + padTo align o.bss) size false hid
        (⟨o.strs.length, (if s.intern then 0 else 16) + 1, nBss, d.size, size⟩)
        (by simp only [Decl.ent, hty, hho, d2.size])
      simp only [k1, d1, Option.bind_eq_bind, Option.bind_some, if_pos h1', if_pos h1]
      exact ⟨st', k2, k3⟩
    · have h1' := h1
      rw [← h.noCommon] at h1'
      have h2 := h1
      simp only [not_or] at h2
      by_cases h3 : tentative = true
      · obtain ⟨tab, k1, st', k2, k3⟩ := declare_sim h s align size false hid
          (⟨o.strs.length, (if s.intern then 0 else 16) + 1, 0xFFF2, align, size⟩)
          (by
            simp only [Decl.ent, symType, home, hk]
            rw [if_pos (Or.inr h3), if_neg h1, if_pos h3])
        simp only [k1, Option.bind_eq_bind, Option.bind_some, if_neg h1', if_neg h1, if_pos h3]
        exact ⟨st', k2, k3⟩
      · obtain ⟨tab, k1, st', k2, k3⟩ := declare_sim h s 0 0 false hid
          (⟨o.strs.length, (if s.intern then 0 else 16), 0, 0, 0⟩)
          (by
            simp only [Decl.ent, symType, home, hk]
            rw [if_neg (show ¬ (s.intern = true ∨ tentative = true) from fun g => g.elim h2.1 h3), if_neg h1, if_neg h3, Nat.add_zero])
        simp only [k1, Option.bind_eq_bind, Option.bind_some, if_neg h1', if_neg h1, if_neg h3]
        exact ⟨st', k2, k3⟩

theorem filter_bump (p : Sym → Bool) (k n : Nat) (l : List Decl) :
    (l.map (bump k n)).filter (fun d => p d.sym) = (l.filter (fun d => p d.sym)).map (bump k n) := by
  induction l with
  | nil => rfl
  | cons d l ih =>
    rw [List.map_cons, List.filter_cons, List.filter_cons, bump_sym, ih]
    split_ifs <;> rfl

theorem filter_nodup (p : Decl → Bool) {l : List Decl} (h : (l.map (·.sym.id)).Nodup) :
    ((l.filter p).map (·.sym.id)).Nodup :=
  List.Nodup.sublist (List.Sublist.map _ List.filter_sublist) h

theorem nodup_inj {l : List Decl} (h : (l.map (·.sym.id)).Nodup) {d e : Decl} (hd : d ∈ l) (he : e ∈ l)
    (g : d.sym.id = e.sym.id) : d = e := by
  induction l with
  | nil => cases hd
  | cons x l ih =>
    simp only [List.map_cons, List.nodup_cons] at h
    rcases List.mem_cons.mp hd with rfl | hd <;> rcases List.mem_cons.mp he with rfl | he
    · rfl
    · exact absurd (by rw [g]; exact List.mem_map.mpr ⟨e, he, rfl⟩) h.1
    · rename_i hd'
      exact absurd (by rw [← g]; exact List.mem_map.mpr ⟨d, hd', rfl⟩) h.1
    · exact ih h.2 hd he

theorem modify_some {α : Type} (f : α → α) (l : List α) (j : Nat) (a : α) (h : l[j]? = some a) :
    l.modify j f = l.set j (f a) := by
  induction l generalizing j with
  | nil => simp at h
  | cons x l ih =>
    cases j with
    | zero => simp at h; subst h; rfl
    | succ j =>
      simp only [List.getElem?_cons_succ] at h
      simp [ih j h]

/-- Bytes added to the current function. -/
theorem grow_sim (h : R B st0 st o) (n k : Nat) (hf : o.fn = some k) :
    ∃ st', growFunction st n = some st' ∧ R B st0 st' { o with decls := o.grow n } := by
  have hg : o.grow n = o.decls.map (bump k n) := by
    unfold Obj.grow
    rw [hf]
    rfl
  have hids : (o.decls.map (bump k n)).map (·.sym.id) = o.decls.map (·.sym.id) := by
    rw [List.map_map]
    apply List.map_congr_left
    intro d _
    simp only [Function.comp_apply, bump_sym]
  have hl : ({ o with decls := o.decls.map (bump k n) } : Obj).locals = o.locals.map (bump k n) :=
    filter_bump (fun s => s.intern) k n o.decls
  have hgl : ({ o with decls := o.decls.map (bump k n) } : Obj).globals = o.globals.map (bump k n) :=
    filter_bump (fun s => !s.intern) k n o.decls
  have hlids : (o.locals.map (bump k n)).map (·.sym.id) = o.locals.map (·.sym.id) := by
    rw [List.map_map]
    apply List.map_congr_left
    intro d _
    simp only [Function.comp_apply, bump_sym]
  rw [hg]
  have hok : ObjOk { o with decls := o.decls.map (bump k n) } :=
    ⟨by simpa only [hids] using h.ok.decls, h.ok.labels, by simpa only [hids] using h.ok.apart, h.ok.placed,
      h.ok.len, h.ok.items, h.ok.strs⟩
  have hoffLoc : ∀ j d, (o.locals.map (bump k n))[j]? = some d → st.off d.sym.id = B.length + j := by
    intro j d hj
    rw [List.getElem?_map] at hj
    obtain ⟨d', hd', rfl⟩ := Option.map_eq_some_iff.mp hj
    rw [bump_sym]
    exact h.offLoc j d' hd'
  have hcur : CurOk B.length o.fn (o.locals.map (bump k n)) (o.globals.map (bump k n)) st.cur := by
    have := h.cur
    unfold CurOk at this ⊢
    simp only [hf] at this ⊢
    rcases this with ⟨j, d, q1, q2, q3⟩ | ⟨j, d, q1, q2, q3⟩
    · exact .inl ⟨j, bump k n d, by rw [List.getElem?_map, q1]; rfl, by rw [bump_sym]; exact q2, q3⟩
    · exact .inr ⟨j, bump k n d, by rw [List.getElem?_map, q1]; rfl, by rw [bump_sym]; exact q2, q3⟩
  have hc := h.cur
  unfold CurOk at hc
  simp only [hf] at hc
  have hcross : ∀ d ∈ o.locals, ∀ e ∈ o.globals, d.sym.id ≠ e.sym.id := by
    intro d hd e he g
    have hdm := mem_locals hd
    have hem := mem_globals he
    have : d = e := nodup_inj h.ok.decls hdm.1 hem.1 g
    rw [this, hem.2] at hdm
    exact absurd hdm.2 (by simp)
  rcases hc with ⟨j, d, q1, q2, q3⟩ | ⟨j, d, q1, q2, q3⟩
  · have hset := bump_set k n o.locals (filter_nodup _ h.ok.decls) j d q1 q2
    have hgsame : o.globals.map (bump k n) = o.globals := by
      apply bump_id
      intro e he g
      exact hcross d (List.mem_of_getElem? q1) e he (by rw [q2, g])
    have hget : (B ++ o.locals.map (Decl.ent o.noCommon))[B.length + j]? = some (d.ent o.noCommon) := by
      rw [List.getElem?_append_right (by omega), Nat.add_sub_cancel_left, List.getElem?_map, q1]
      rfl
    have hp := poke_entry _ (B.length + j) n _ hget
    have hbuf : st.symtab.buf = _ := h.tab.buf
    refine ⟨_, by unfold growFunction; rw [q3], ?_⟩
    refine ⟨hok, h.str, ?_, h.base, h.bss, h.rodata, h.data, h.text, ?_, h.pendData, h.pendText, h.disp,
      h.noCommon, by rw [hl, hgl, ← q3]; exact hcur, ?_, h.offLab, ?_,
      ⟨h.frame.shstrtab, h.frame.relaData, h.frame.relaText, h.frame.pic, h.frame.strtab,
        h.frame.symtab.trans ⟨rfl, rfl, rfl, rfl, rfl, rfl⟩, h.frame.bss, h.frame.rodata, h.frame.data, h.frame.text⟩⟩
    · have hL : (B ++ o.locals.map (Decl.ent o.noCommon)).set (B.length + j)
          { d.ent o.noCommon with size := (d.ent o.noCommon).size + n }
          = B ++ (o.locals.map (bump k n)).map (Decl.ent o.noCommon) := by
        rw [List.set_append_right _ _ (by omega), Nat.add_sub_cancel_left, hset, List.map_set]
        rfl
      rw [hL] at hp
      rw [hl]
      simp only
      rw [hbuf, hp]
      refine ⟨⟨?_, h.tab.ok.cap, h.tab.ok.fresh⟩, h.tab.type, h.tab.align, rfl⟩
      simp only [entries_length]
      rw [h.tab.size, entries_length]
      simp
    · rw [hgl, hgsame]; exact h.globals
    · rw [hl]; exact hoffLoc
    · rw [hl, hlids]; exact h.offZero
  · have hset := bump_set k n o.globals (filter_nodup _ h.ok.decls) j d q1 q2
    have hlsame : o.locals.map (bump k n) = o.locals := by
      apply bump_id
      intro e he g
      exact hcross e he d (List.mem_of_getElem? q1) (by rw [q2, g])
    refine ⟨_, by unfold growFunction; rw [q3], ?_⟩
    refine ⟨hok, h.str, ?_, h.base, h.bss, h.rodata, h.data, h.text, ?_, h.pendData, h.pendText, h.disp,
      h.noCommon, by rw [hl, hgl, ← q3]; exact hcur, ?_, h.offLab, ?_,
      ⟨h.frame.shstrtab, h.frame.relaData, h.frame.relaText, h.frame.pic, h.frame.strtab,
        h.frame.symtab, h.frame.bss, h.frame.rodata, h.frame.data, h.frame.text⟩⟩
    · rw [hl, hlsame]; exact h.tab
    · rw [hgl, hset]
      simp only [h.globals, List.map_set]
      rw [modify_some _ _ j (d.sym.id, d.ent o.noCommon) (by rw [List.getElem?_map, q1]; rfl)]
      rfl
    · rw [hl]; exact hoffLoc
    · rw [hl, hlids]; exact h.offZero

/-- An instruction written to the text. -/
theorem write_sim (h : R B st0 st o) (i : Item) (hi : ItemOk (o.labels.map (·.1)) i) (hp : i.pos = o.len) :
    ∃ t, st.text.write (i.bytes st.off) = some (t, o.len) ∧
      R B st0 { st with text := t, pendText := st.pendText ++ i.relocs, disp := st.disp ++ i.waiting }
        { o with items := o.items ++ [i], len := o.len + i.code.val.length } := by
  obtain ⟨t, k1, k2, k3, _⟩ := h.text.write (i.bytes st.off)
  rw [items_length _ _ (fun i hi => (h.ok.items i hi).code), ← h.ok.len] at k1
  refine ⟨t, k1, ⟨h.ok.decls, h.ok.labels, h.ok.apart, ?_, ?_, ?_, h.ok.strs⟩, h.str, h.tab, h.base,
    h.bss, h.rodata, h.data, ?_, h.globals, h.pendData, ?_, ?_, h.noCommon, h.cur, h.offLoc, h.offLab, h.offZero,
    { h.frame with text := h.frame.text.trans k3 }⟩
  · simp only [placed_append, Placed, Nat.zero_add, and_true]
    exact ⟨h.ok.placed, by rw [hp, h.ok.len]⟩
  · simp only [total_append, h.ok.len]
    simp [total]
  · intro x hx
    rcases List.mem_append.mp hx with hx | hx
    · exact h.ok.items x hx
    · rw [List.mem_singleton.mp hx]
      exact hi
  · simpa using k2
  · simp [h.pendText]
  · simp [h.disp]

theorem labelAt_none (l : Nat) : o.labelAt l = none ↔ l ∉ o.labels.map (·.1) := by
  unfold Obj.labelAt
  rw [List.lookup_eq_none_iff]
  constructor
  · intro h g
    obtain ⟨p, hp, rfl⟩ := List.mem_map.mp g
    have := h p hp
    simp at this
  · intro h p hp
    rw [bne_iff_ne]
    intro g
    exact h (by rw [g]; exact List.mem_map.mpr ⟨p, hp, rfl⟩)

theorem text_sim (h : R B st0 st o) (c : Code) (hc : OpOk o (.text c)) :
    ∃ st', text st c = some st' ∧ R B st0 st' (o.text c) := by
  obtain ⟨hok, hfn, hdecl⟩ := hc
  obtain ⟨d0, _, hk, _⟩ := hfn
  obtain ⟨k, hk⟩ : ∃ k, o.fn = some k := ⟨_, hk⟩
  -- the fixups give the bytes of the item
  have main : ∀ i : Item, i.code = c → i.pos = o.len → ItemOk (o.labels.map (·.1)) i →
      i.ahead = (match target c with | some l => (o.labelAt l).isNone | none => false) →
      (i.bytes st.off).getD 0 0 ≠ 0x90 →
      fixups st c.val c.fix = ({ st with pendText := st.pendText ++ i.relocs, disp := st.disp ++ i.waiting }, i.bytes st.off) →
      ∃ st', text st c = some st' ∧ R B st0 st' (o.text c) := by
    intro i hic hip hi hia hne hfix
    obtain ⟨t, k1, k2⟩ := write_sim h i hi hip
    obtain ⟨st', g1, g2⟩ := grow_sim k2 c.val.length k hk
    refine ⟨st', ?_, ?_⟩
    · unfold text
      simp only [hfix, if_pos hne, k1, Option.bind_eq_bind, Option.bind_some]
      rw [item_length _ _ hi.code, hic]
      exact g1
    · have : o.text c = { o with items := o.items ++ [i], len := o.len + i.code.val.length, decls := o.grow c.val.length } := by
        unfold Obj.text
        rw [hic]
        congr 1
        congr 1
        cases i
        simp only at hic hip hia
        subst hic hip hia
        rfl
      rw [this]
      exact g2
  rcases hok.one with hf | ⟨ty, s, pos, a, hf⟩ | ⟨l, pos, a, hf⟩
  · have ht : target c = none := by unfold target; rw [hf]
    refine main ⟨o.len, c, false⟩ rfl rfl ⟨hok, fun _ l hl => by simp [ht] at hl⟩ (by rw [ht]) ?_ ?_
    · unfold Item.bytes; simp only [hf]; exact hok.real
    · unfold Item.bytes Item.relocs Item.waiting; simp only [hf, fixups, List.append_nil]
  · have ht : target c = none := by unfold target; rw [hf]
    refine main ⟨o.len, c, false⟩ rfl rfl ⟨hok, fun _ l hl => by simp [ht] at hl⟩ (by rw [ht]) ?_ ?_
    · unfold Item.bytes; simp only [hf]; exact hok.real
    · unfold Item.bytes Item.relocs Item.waiting
      simp only [hf, fixups, fixup, List.append_nil, h.textSize]
  · have ht := target_eq hf
    have hr := hok.room l pos a hf
    by_cases hl : l ∈ o.labels.map (·.1)
    · obtain ⟨p, hp, rfl⟩ := List.mem_map.mp hl
      have hoff := h.offLab p hp
      have hla : (o.labelAt p.1).isNone = false := by
        cases hh : o.labelAt p.1 with
        | none => exact absurd hl ((labelAt_none _).mp hh)
        | some _ => rfl
      refine main ⟨o.len, c, false⟩ rfl rfl ⟨hok, fun _ l' hl' => ?_⟩ (by rw [ht]; exact hla.symm) ?_ ?_
      · simp only [ht, Option.some.injEq] at hl'
        rw [← hl']; exact hl
      · unfold Item.bytes; simp only [hf]
        rw [poke_head _ _ _ hr.1 hok.some]
        exact hok.real
      · unfold Item.bytes Item.relocs Item.waiting
        simp only [hf, fixups, fixup, List.append_nil, h.textSize, Bool.false_eq_true, if_false]
        rw [if_pos (by rw [hoff.1]; exact hoff.2)]
        simp only [Prod.mk.injEq, true_and]
        congr 2
        omega
    · have hz : st.off l = 0 := by
        apply h.offZero l _ hl
        intro g
        obtain ⟨d, hd, rfl⟩ := List.mem_map.mp g
        exact hdecl _ ht (List.mem_map.mpr ⟨d, (mem_locals hd).1, rfl⟩)
      have hla : (o.labelAt l).isNone = true := by rw [(labelAt_none _).mpr hl]; rfl
      refine main ⟨o.len, c, true⟩ rfl rfl ⟨hok, fun w => by cases w⟩ (by rw [ht]; exact hla.symm) ?_ ?_
      · unfold Item.bytes; simp only [hf]
        rw [poke_head _ _ _ hr.1 hok.some]
        exact hok.real
      · unfold Item.bytes Item.relocs Item.waiting
        simp only [hf, fixups, fixup, List.append_nil, h.textSize, if_true, Int.add_zero]
        rw [if_neg (by rw [hz]; simp)]

theorem datum_sim (h : R B st0 st o) (d : Datum) : ∃ st', datum st d = some st' ∧ R B st0 st' (o.datum d) := by
  cases d with
  | bytes b =>
    obtain ⟨t, k1, k2, k3, _⟩ := h.data.write b
    refine ⟨_, by simp only [datum, k1]; rfl, h.withData k2 k3⟩
  | addr s disp =>
    obtain ⟨t, k1, k2, k3, _⟩ := h.data.write (List.replicate 8 0)
    have := h.withData k2 k3
    refine ⟨{ st with data := t, pendData := st.pendData ++ [Pend.mk s 1 st.data.size disp] },
      by simp only [datum, k1]; rfl, ⟨h.ok.decls, h.ok.labels, h.ok.apart, h.ok.placed, h.ok.len, h.ok.items, h.ok.strs⟩, this.str, this.tab, this.base, this.bss, this.rodata,
      this.data, this.text, this.globals, ?_, this.pendText, this.disp, this.noCommon, this.cur, this.offLoc,
      this.offLab, this.offZero, ⟨h.frame.shstrtab, h.frame.relaData, h.frame.relaText, h.frame.pic, h.frame.strtab,
        h.frame.symtab, h.frame.bss, h.frame.rodata, this.frame.data, h.frame.text⟩⟩
    simp only [Obj.datum, h.pendData, h.data.size]

theorem end_sim (h : R B st0 st o) (hc : OpOk o .endFunction) :
    ∃ st', flushText st = some st' ∧ R B st0 st' (o.step .endFunction) := by
  have hcode : ∀ i ∈ o.items, CodeOk i.code := fun i hi => (h.ok.items i hi).code
  have hp := patch_items st.off o.items [] h.ok.placed hcode (by
    intro i hi ha l hl
    obtain ⟨p, hp, rfl⟩ := List.mem_map.mp (hc i hi ha l hl)
    rw [(h.offLab p hp).1]
    exact (h.offLab p hp).2)
  simp only [List.nil_append] at hp
  refine ⟨_, by unfold flushText; rw [h.text.buf, h.disp, hp]; rfl, ?_⟩
  have hcode' : ∀ i ∈ o.items.map resolved, CodeOk i.code := by
    intro i hi
    obtain ⟨j, hj, rfl⟩ := List.mem_map.mp hi
    exact hcode j hj
  have hw : (o.items.map resolved).flatMap Item.waiting = [] := by
    rw [List.flatMap_eq_nil_iff]
    intro i hi
    obtain ⟨j, hj, rfl⟩ := List.mem_map.mp hi
    unfold Item.waiting resolved
    split <;> simp
  have hrel : (o.items.map resolved).flatMap Item.relocs = o.items.flatMap Item.relocs := by
    rw [List.flatMap_map]
    rfl
  refine ⟨⟨h.ok.decls, h.ok.labels, h.ok.apart, (placed_resolved _ _).mpr h.ok.placed,
      h.ok.len.trans (total_resolved _).symm, ?_, h.ok.strs⟩, h.str, h.tab, h.base, h.bss, h.rodata, h.data, ?_,
    h.globals, h.pendData, ?_, ?_, h.noCommon, h.cur, h.offLoc, h.offLab, h.offZero,
    { h.frame with text := h.frame.text.trans ⟨rfl, rfl, rfl, rfl, rfl, rfl⟩ }⟩
  · intro i hi
    obtain ⟨j, hj, rfl⟩ := List.mem_map.mp hi
    refine ⟨hcode j hj, fun _ l hl => ?_⟩
    cases ha : j.ahead with
    | true => exact hc j hj ha l hl
    | false => exact (h.ok.items j hj).known ha l hl
  · refine ⟨⟨?_, h.text.ok.cap, h.text.ok.fresh⟩, h.text.type, h.text.align, rfl⟩
    simp only
    rw [items_length _ _ hcode', total_resolved, h.textSize, h.ok.len]
  · rw [h.pendText]; exact hrel.symm
  · exact hw.symm

/-- Every call. -/
theorem run_sim (h : R B st0 st o) (ops : List Op) (hops : OpsOk o ops) :
    ∃ st', run st ops = some st' ∧ R B st0 st' (o.run ops) := by
  induction ops generalizing st o with
  | nil => exact ⟨st, rfl, h⟩
  | cons op ops ih =>
    obtain ⟨h1, h2⟩ := hops
    have hs : ∃ st', step st op = some st' ∧ R B st0 st' (o.step op) := by
      cases op with
      | symbol s => exact symbol_sim h s h1
      | text c => exact text_sim h c h1
      | data d => exact datum_sim h d
      | endFunction => exact end_sim h h1
    obtain ⟨st1, g1, g2⟩ := hs
    obtain ⟨st2, k1, k2⟩ := ih g2 h2
    exact ⟨st2, by simp only [run, g1]; exact k1, k2⟩

end Verif.Elf
