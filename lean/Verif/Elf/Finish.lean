import Verif.Elf.Refine

/-! Finishing an object file. -/

namespace Verif.Elf

open Encode (le Code Fix le_length le_lt value_le)

variable {B : List Ent} {st0 st : St} {o : Obj}

/-- The buffered global symbols follow all others. -/
theorem flushGlobals_eq (gs : List (Nat × Ent)) (st : St) (L : List Ent)
    (h : Holds st.symtab (L.flatMap Ent.bytes)) (hne : L ≠ []) (hn : (gs.map (·.1)).Nodup)
    (hg : ∀ p ∈ gs, p.2.info / 16 = 1)
    (hL : st.symtab.info = 0 ∨ ∀ l, L[L.length - 1]? = some l → l.info / 16 = 1) :
    ∃ t f, flushGlobals st gs = some { st with symtab := t, off := f, globals := [] }
      ∧ Holds t ((L ++ gs.map (·.2)).flatMap Ent.bytes)
      ∧ t.info = (if gs = [] then st.symtab.info else if st.symtab.info = 0 then L.length else st.symtab.info)
      ∧ (t.type = st.symtab.type ∧ t.name = st.symtab.name ∧ t.flags = st.symtab.flags ∧ t.link = st.symtab.link
          ∧ t.entsize = st.symtab.entsize)
      ∧ (∀ j p, gs[j]? = some p → f p.1 = L.length + j) ∧ ∀ x, x ∉ gs.map (·.1) → f x = st.off x := by
  induction gs generalizing st L with
  | nil =>
    refine ⟨st.symtab, st.off, rfl, by simpa using h, by simp, ⟨rfl, rfl, rfl, rfl, rfl⟩, ?_, fun x _ => rfl⟩
    intro j p hj
    simp at hj
  | cons g gs ih =>
    obtain ⟨id, e⟩ := g
    have he := hg (id, e) (by simp)
    simp only [List.map_cons, List.nodup_cons] at hn
    obtain ⟨t1, k1, k2, k3, k4, k5, k6, k7, k8⟩ := addEntry_global h hne e he hL
    have hne1 : t1.info ≠ 0 := by
      rw [k3]
      split_ifs with g
      · exact fun w => hne (List.length_eq_zero_iff.mp w)
      · exact g
    obtain ⟨t, f, i1, i2, i3, i4, i5, i6⟩ := ih { st with symtab := t1, off := setOff st.off id L.length } (L ++ [e])
      k2 (by simp) hn.2 (fun p hp => hg p (List.mem_cons_of_mem _ hp)) (.inr (by
        intro l hl
        simp only [List.length_append, List.length_cons, List.length_nil, Nat.add_sub_cancel] at hl
        rw [List.getElem?_append_right (Nat.le_refl _), Nat.sub_self] at hl
        simp only [List.getElem?_cons_zero, Option.some.injEq] at hl
        rw [← hl]
        exact he))
    refine ⟨t, f, ?_, ?_, ?_, ?_, ?_, ?_⟩
    · simp only [flushGlobals, k1, Option.bind_eq_bind, Option.bind_some]
      exact i1
    · simpa using i2
    · rw [i3, if_neg hne1, ite_self, k3]
      simp
    · obtain ⟨a1, a2, a3, a4, a5⟩ := i4
      exact ⟨a1.trans k4, a2.trans k5, a3.trans k6, a4.trans k7, a5.trans k8⟩
    · intro j p hj
      cases j with
      | zero =>
        simp only [List.getElem?_cons_zero, Option.some.injEq] at hj
        subst hj
        rw [i6 id hn.1]
        simp [setOff]
      | succ j =>
        simp only [List.getElem?_cons_succ] at hj
        rw [i5 j p hj]
        simp only [List.length_append, List.length_cons, List.length_nil]
        omega
    · intro x hx
      simp only [List.map_cons, List.mem_cons, not_or] at hx
      rw [i6 x hx.2]
      simp only [setOff, if_neg hx.1]

/-- Header members that stay. -/
structure Keeps (s s' : Sec) : Prop where
  name : s'.name = s.name
  type : s'.type = s.type
  flags : s'.flags = s.flags
  link : s'.link = s.link
  entsize : s'.entsize = s.entsize

theorem Same.keeps {s s' : Sec} (h : Same s s') : Keeps s s' := ⟨h.name, h.type, h.flags, h.link, h.entsize⟩

theorem Keeps.trans {a b c : Sec} (h : Keeps a b) (g : Keeps b c) : Keeps a c :=
  ⟨g.name.trans h.name, g.type.trans h.type, g.flags.trans h.flags, g.link.trans h.link, g.entsize.trans h.entsize⟩

/-- The entry for the global offset table. -/
def gotEnts (o : Obj) (pic : Bool) : List Ent := if pic then [⟨o.strs.length, 16, 0, 0, 0⟩] else []

def gotStr (pic : Bool) : List Nat := if pic then gotName ++ [0] else []

/-- All entries of the symbol table. -/
def entries (B : List Ent) (o : Obj) (pic : Bool) : List Ent :=
  B ++ (o.locals ++ o.globals).map (Decl.ent o.noCommon) ++ gotEnts o pic

/-- The state at the end. -/
structure Final (B : List Ent) (st0 st : St) (o : Obj) : Prop where
  ok : ObjOk o
  base : B ≠ [] ∧ ∀ x ∈ B, x.info < 16
  shstrtab : st.shstrtab = st0.shstrtab
  str : Holds st.strtab (o.strs ++ gotStr st0.pic)
  tab : Holds st.symtab ((entries B o st0.pic).flatMap Ent.bytes)
  info : st.symtab.info = if o.globals = [] ∧ st0.pic = false then 0 else B.length + o.locals.length
  bss : Space st.bss o.bss
  rodata : Holds st.rodata o.rodata
  data : Holds st.data o.data
  text : Holds st.text (o.items.flatMap (Item.bytes st.off))
  relaData : Holds st.relaData (o.dataRel.flatMap (relaBytes st.off))
  relaText : Holds st.relaText ((o.items.flatMap Item.relocs).flatMap (relaBytes st.off))
  off : ∀ j d, (o.locals ++ o.globals)[j]? = some d → st.off d.sym.id = B.length + j
  offLab : ∀ p ∈ o.labels, st.off p.1 = p.2
  kStr : Same st0.strtab st.strtab
  kTab : Keeps st0.symtab st.symtab
  kBss : Same st0.bss st.bss
  kRodata : Same st0.rodata st.rodata
  kData : Same st0.data st.data
  kText : Same st0.text st.text
  kRelaData : Same st0.relaData st.relaData
  kRelaText : Same st0.relaText st.relaText

theorem finish_sim (h : R B st0 st o) (hd : Holds st0.relaData []) (ht : Holds st0.relaText [])
    (h0 : st0.symtab.info = 0) :
    ∃ st1 st2 st3, flushGlobals st st.globals = some st1 ∧ flushGot st1 = some st2 ∧ flushRelocs st2 = some st3
      ∧ Final B st0 { st3 with disp := [] } o := by
  have hgm : o.globals.map (fun d => d.sym.id) = st.globals.map (·.1) := by
    rw [h.globals, List.map_map]; rfl
  have hge : st.globals.map (·.2) = o.globals.map (Decl.ent o.noCommon) := by
    rw [h.globals, List.map_map]; rfl
  have hinfo : st.symtab.info = 0 := by rw [h.frame.symtab.info]; exact h0
  obtain ⟨t, f, a1, a2, a3, a4, a5, a6⟩ := flushGlobals_eq st.globals st _ h.tab (by simp [h.base.1])
    (by rw [← hgm]; exact filter_nodup _ h.ok.decls)
    (by
      intro p hp
      rw [h.globals] at hp
      obtain ⟨d, hd, rfl⟩ := List.mem_map.mp hp
      exact ent_global _ _ (mem_globals hd).2)
    (.inl hinfo)
  have hlen : (B ++ o.locals.map (Decl.ent o.noCommon)).length = B.length + o.locals.length := by simp
  rw [hge] at a2
  rw [hlen] at a3 a5
  rw [hinfo, if_pos rfl] at a3
  have hgnil : (st.globals = []) ↔ o.globals = [] := by rw [h.globals]; simp
  have hpic : st.pic = st0.pic := h.frame.pic
  have hentry : (B ++ o.locals.map (Decl.ent o.noCommon)) ++ o.globals.map (Decl.ent o.noCommon)
      = B ++ (o.locals ++ o.globals).map (Decl.ent o.noCommon) := by simp
  rw [hentry] at a2
  -- the string and entry for the global offset table
  have got : ∃ st2 s2 t2, flushGot { st with symtab := t, off := f, globals := [] } = some st2
      ∧ st2 = { st with symtab := t2, off := f, globals := [], strtab := s2 }
      ∧ Holds s2 (o.strs ++ gotStr st0.pic) ∧ Holds t2 ((entries B o st0.pic).flatMap Ent.bytes)
      ∧ t2.info = (if o.globals = [] ∧ st0.pic = false then 0 else B.length + o.locals.length)
      ∧ Same st.strtab s2 ∧ Keeps t t2 := by
    unfold flushGot entries gotEnts gotStr
    cases hp : st0.pic with
    | false =>
      refine ⟨_, st.strtab, t, by simp only [hpic, hp]; rfl, rfl, by simpa using h.str, by simpa using a2, ?_,
        Same.rfl, Same.rfl.keeps⟩
      rw [a3]
      by_cases g : o.globals = []
      · rw [if_pos (hgnil.mpr g), if_pos ⟨g, rfl⟩]
      · rw [if_neg (fun w => g (hgnil.mp w)), if_neg (fun w => g w.1)]
    | true =>
      obtain ⟨s2, b1, b2, b3⟩ := h.str.addString h.ok.strs gotName
      obtain ⟨t2, c1, c2, c3, c4, c5, c6, c7, c8⟩ := addEntry_global a2 (by simp [h.base.1]) ⟨o.strs.length, 16, 0, 0, 0⟩
        (show 16 / 16 = 1 by decide)
        (by
          by_cases g : o.globals = []
          · left; rw [a3, if_pos (hgnil.mpr g)]
          · right
            intro l hl
            have hg2 : o.globals.length ≠ 0 := fun w => g (List.length_eq_zero_iff.mp w)
            rw [List.getElem?_append_right (by simp; omega), List.map_append, List.getElem?_append_right (by simp; omega),
              List.getElem?_map] at hl
            obtain ⟨d, hd, rfl⟩ := Option.map_eq_some_iff.mp hl
            exact ent_global _ _ (mem_globals (List.mem_of_getElem? hd)).2)
      refine ⟨_, s2, t2, by simp only [hpic, hp, if_true, b1, c1, Option.bind_eq_bind, Option.bind_some], rfl,
        by simpa using b2, by simpa using c2, ?_, b3, ⟨c5, c4, c6, c7, c8⟩⟩
      rw [c3, if_neg (show ¬ (o.globals = [] ∧ true = false) by simp), a3]
      by_cases g : o.globals = []
      · rw [if_pos (hgnil.mpr g), if_pos rfl]
        simp [g]
      · rw [if_neg (fun w => g (hgnil.mp w)), if_neg]
        intro w
        exact h.base.1 (List.length_eq_zero_iff.mp (by omega))
  obtain ⟨st2, s2, t2, g1, rfl, g3, g4, g5, g6, g7⟩ := got
  obtain ⟨rd, r1, r2, r3, _⟩ := hd.write (st.pendData.flatMap (relaBytes f))
  obtain ⟨rt, q1, q2, q3, _⟩ := ht.write (st.pendText.flatMap (relaBytes f))
  have wit : ∃ st3 : St, st3 = { st with
      symtab := t2, off := f, globals := [], strtab := s2, relaData := rd, relaText := rt, pendData := [],
      pendText := [] } := ⟨_, rfl⟩
  obtain ⟨st3, hst3⟩ := wit
  refine ⟨_, _, st3, a1, g1, ?_, ?_⟩
  · unfold flushRelocs
    simp only [h.frame.relaData, h.frame.relaText, r1, q1, Option.bind_eq_bind, Option.bind_some, hst3]
  · subst hst3
    have hflab : ∀ p ∈ o.labels, f p.1 = st.off p.1 := by
      intro p hp
      apply a6
      rw [← hgm]
      intro g
      obtain ⟨d, hd, e⟩ := List.mem_map.mp g
      exact h.ok.apart d.sym.id (List.mem_map.mpr ⟨d, (mem_globals hd).1, rfl⟩) (by
        rw [e]; exact List.mem_map.mpr ⟨p, hp, rfl⟩)
    refine ⟨h.ok, h.base, h.frame.shstrtab, g3, g4, g5, h.bss, h.rodata, h.data, ?_, ?_, ?_, ?_, ?_,
      h.frame.strtab.trans g6, ?_, h.frame.bss, h.frame.rodata, h.frame.data, h.frame.text, r3, q3⟩
    · have := h.text
      rw [items_congr st.off f o.items] at this
      · exact this
      · intro i hi ha l hl
        obtain ⟨p, hp, rfl⟩ := List.mem_map.mp ((h.ok.items i hi).known ha l hl)
        exact (hflab p hp).symm
    · rw [h.pendData] at r2; simpa using r2
    · rw [h.pendText] at q2; simpa using q2
    · intro j d hj
      by_cases g : j < o.locals.length
      · rw [List.getElem?_append_left g] at hj
        simp only
        rw [a6, h.offLoc j d hj]
        rw [← hgm]
        intro w
        obtain ⟨e, he, w⟩ := List.mem_map.mp w
        have hdm := mem_locals (List.mem_of_getElem? hj)
        have := nodup_inj h.ok.decls hdm.1 (mem_globals he).1 w.symm
        rw [this, (mem_globals he).2] at hdm
        exact absurd hdm.2 (by simp)
      · rw [List.getElem?_append_right (by omega)] at hj
        have := a5 (j - o.locals.length) (d.sym.id, d.ent o.noCommon) (by rw [h.globals, List.getElem?_map, hj]; rfl)
        simp only at this ⊢
        rw [this]
        omega
    · intro p hp
      simp only
      rw [hflab p hp]
      exact (h.offLab p hp).1
    · obtain ⟨b1, b2, b3, b4, b5⟩ := a4
      exact h.frame.symtab.keeps.trans ((Keeps.mk b2 b1 b3 b4 b5).trans g7)

end Verif.Elf
