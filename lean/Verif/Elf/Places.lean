import Verif.Elf.Whole

/-! Where the symbols of an object are. -/

namespace Verif.Elf

open Encode (le Code Fix le_length le_lt value_le)

variable {B : List Ent} {st0 st : St} {o : Obj}

/-- Where a declared symbol is: aligned, within its section, and, for a constant, with
its bytes there. -/
def Sits (o : Obj) (d : Decl) : Prop :=
  match d.sym.kind with
  | .label => False
  | .func true => d.value + d.size ≤ o.len
  | .func false => d.value = 0 ∧ d.size = 0
  | .data size a => d.value % a = 0 ∧ d.value ≤ o.data.length ∧ d.size = size
  | .const bytes a =>
    d.value % a = 0 ∧ d.size = bytes.length ∧ d.value + d.size ≤ o.rodata.length
      ∧ (o.rodata.drop d.value).take d.size = bytes
  | .object tentative size a =>
    if d.sym.intern ∨ tentative ∧ o.noCommon then d.value % a = 0 ∧ d.value + size ≤ o.bss ∧ d.size = size
    else if tentative then d.value = a ∧ d.size = size
    else d.value = 0 ∧ d.size = 0

/-- Its name is in the string table. -/
def Named (strs : List Nat) (d : Decl) : Prop :=
  d.name ≤ strs.length ∧ 0 ∉ d.sym.name ∧ ∃ post, strs.drop d.name = d.sym.name ++ 0 :: post

/-- Functions defined, one after the other, from `k` to `e`. -/
def Cover : Nat → List Decl → Nat → Prop
  | k, [], e => k = e
  | k, d :: ds, e => d.value = k ∧ Cover (k + d.size) ds e

def Obj.functions (o : Obj) : List Decl := o.decls.filter (fun d => d.sym.kind = .func true)

theorem cover_append (k : Nat) (a : List Decl) (d : Decl) (e : Nat) :
    Cover k (a ++ [d]) e ↔ Cover k a d.value ∧ d.value + d.size = e := by
  induction a generalizing k with
  | nil =>
    simp only [List.nil_append, Cover]
    constructor
    · rintro ⟨rfl, h⟩; exact ⟨rfl, h⟩
    · rintro ⟨rfl, h⟩; exact ⟨rfl, h⟩
  | cons x a ih => simp only [List.cons_append, Cover, ih, and_assoc]

/-- Objects without contents, one after the other. -/
def Apart2 (l : List Decl) : Prop := l.Pairwise fun a b => a.value + a.size ≤ b.value

def Obj.spaces (o : Obj) : List Decl := o.decls.filter (fun d => home o.noCommon d.sym = 4)
def Obj.consts (o : Obj) : List Decl := o.decls.filter (fun d => home o.noCommon d.sym = 5)

structure Sane (o : Obj) : Prop where
  sits : ∀ d ∈ o.decls, Sits o d
  named : ∀ d ∈ o.decls, Named o.strs d
  cover : Cover 0 o.functions o.len
  last : ∀ d ∈ o.decls, o.fn = some d.sym.id → d.sym.kind = .func true → ∃ a, o.functions = a ++ [d]
  spaces : Apart2 o.spaces
  consts : Apart2 o.consts

theorem home_space (n : Bool) (s : Sym) : home n s = 4 ↔
    ∃ t sz a, s.kind = .object t sz a ∧ (s.intern = true ∨ t = true ∧ n = true) := by
  unfold home
  constructor
  · intro h
    split at h <;> (try split_ifs at h) <;> (try cases h) <;> simp_all
  · rintro ⟨t, sz, a, h1, h2⟩
    rw [h1]
    simp only
    rw [if_pos h2]

theorem home_const (n : Bool) (s : Sym) : home n s = 5 ↔ ∃ b a, s.kind = .const b a := by
  unfold home
  constructor
  · intro h
    split at h <;> (try split_ifs at h) <;> (try cases h) <;> simp_all
  · rintro ⟨b, a, h1⟩
    rw [h1]

/-- An object that has grown. -/
structure Grows (o o' : Obj) : Prop where
  len : o.len ≤ o'.len
  data : ∃ x, o'.data = o.data ++ x
  rodata : ∃ x, o'.rodata = o.rodata ++ x
  bss : o.bss ≤ o'.bss
  noCommon : o'.noCommon = o.noCommon

theorem Sits.mono {o o' : Obj} {d : Decl} (g : Grows o o') (h : Sits o d) : Sits o' d := by
  unfold Sits at h ⊢
  obtain ⟨g1, ⟨x, g2⟩, ⟨y, g3⟩, g4, g5⟩ := g
  split
  · rename_i hk; rw [hk] at h; exact h
  · rename_i hk; rw [hk] at h; simp only at h; omega
  · rename_i hk; rw [hk] at h; exact h
  · rename_i hk; rw [hk] at h; simp only at h
    rw [g2, List.length_append]
    exact ⟨h.1, by omega, h.2.2⟩
  · rename_i hk; rw [hk] at h; simp only at h
    obtain ⟨h1, h2, h3, h4⟩ := h
    refine ⟨h1, h2, by rw [g3, List.length_append]; omega, ?_⟩
    rw [g3, List.drop_append_of_le_length (by omega), List.take_append_of_le_length (by simp; omega)]
    exact h4
  · rename_i hk; rw [hk] at h; simp only at h
    rw [g5]
    split_ifs with q1 q2
    · rw [if_pos q1] at h; exact ⟨h.1, by omega, h.2.2⟩
    · rw [if_neg q1, if_pos q2] at h; exact h
    · rw [if_neg q1, if_neg q2] at h; exact h

theorem Named.mono {strs : List Nat} {d : Decl} (x : List Nat) (h : Named strs d) : Named (strs ++ x) d := by
  obtain ⟨h1, h2, post, h3⟩ := h
  refine ⟨by rw [List.length_append]; omega, h2, post ++ x, ?_⟩
  rw [List.drop_append_of_le_length h1, h3]
  simp

/-- Declaring one more symbol. -/
theorem Sane.declare (h : Sane o) (o' : Obj) (s : Sym) (value size : Nat) (g : Grows o o') (hz : 0 ∉ s.name)
    (hid : s.id ∉ o.decls.map (·.sym.id))
    (hd : o'.decls = o.decls ++ [⟨s, o.strs.length, value, size⟩])
    (hstr : o'.strs = o.strs ++ (s.name ++ [0])) (hlen : o'.len = o.len)
    (hsit : Sits o' ⟨s, o.strs.length, value, size⟩)
    (hfn : o'.fn = if s.kind = .func true ∨ s.kind = .func false then some s.id else o.fn)
    (hfun : s.kind = .func true → value = o.len ∧ size = 0)
    (hsp : home o.noCommon s = 4 → o.bss ≤ value)
    (hco : home o.noCommon s = 5 → o.rodata.length ≤ value) : Sane o' := by
  have hfuns : o'.functions = o.functions ++ if s.kind = .func true then [⟨s, o.strs.length, value, size⟩] else [] := by
    unfold Obj.functions
    rw [hd, List.filter_append, List.filter_cons, List.filter_nil]
    simp only [decide_eq_true_eq]
  refine ⟨?_, ?_, ?_, ?_, ?_, ?_⟩
  · intro d hdm
    rw [hd, List.mem_append, List.mem_singleton] at hdm
    rcases hdm with hdm | rfl
    · exact (h.sits d hdm).mono g
    · exact hsit
  · intro d hdm
    rw [hd, List.mem_append, List.mem_singleton] at hdm
    rw [hstr]
    rcases hdm with hdm | rfl
    · exact (h.named d hdm).mono _
    · refine ⟨by simp, hz, [], ?_⟩
      rw [List.drop_append, List.drop_eq_nil_of_le (Nat.le_refl _), Nat.sub_self, List.drop_zero]
      simp
  · rw [hfuns, hlen]
    split_ifs with hk
    · obtain ⟨rfl, rfl⟩ := hfun hk
      rw [cover_append]
      exact ⟨h.cover, rfl⟩
    · simpa using h.cover
  · intro d hdm hf hk
    rw [hd, List.mem_append, List.mem_singleton] at hdm
    rw [hfn] at hf
    rcases hdm with hdm | rfl
    · have hne : d.sym.id ≠ s.id := fun w => hid (by rw [← w]; exact List.mem_map.mpr ⟨d, hdm, rfl⟩)
      split_ifs at hf with q
      · simp only [Option.some.injEq] at hf
        exact absurd hf.symm hne
      · rw [hfuns, if_neg (fun w => q (.inl w)), List.append_nil]
        exact h.last d hdm hf hk
    · simp only at hk
      rw [hfuns, if_pos hk]
      exact ⟨_, rfl⟩
  · unfold Apart2 Obj.spaces
    rw [hd, g.noCommon, List.filter_append, List.filter_cons, List.filter_nil]
    simp only [decide_eq_true_eq]
    split_ifs with q
    · rw [List.pairwise_append]
      refine ⟨h.spaces, by simp, ?_⟩
      intro a ha b hb
      simp only [List.mem_singleton] at hb
      subst hb
      simp only [List.mem_filter, decide_eq_true_eq] at ha
      have hs := h.sits a ha.1
      obtain ⟨t, sz, al, hk, hc⟩ := (home_space _ _).mp ha.2
      unfold Sits at hs
      rw [hk] at hs
      simp only [if_pos hc] at hs
      have := hsp q
      simp only
      omega
    · rw [List.append_nil]; exact h.spaces
  · unfold Apart2 Obj.consts
    rw [hd, g.noCommon, List.filter_append, List.filter_cons, List.filter_nil]
    simp only [decide_eq_true_eq]
    split_ifs with q
    · rw [List.pairwise_append]
      refine ⟨h.consts, by simp, ?_⟩
      intro a ha b hb
      simp only [List.mem_singleton] at hb
      subst hb
      simp only [List.mem_filter, decide_eq_true_eq] at ha
      have hs := h.sits a ha.1
      obtain ⟨bs, al, hk⟩ := (home_const _ _).mp ha.2
      unfold Sits at hs
      rw [hk] at hs
      simp only at hs
      have := hco q
      simp only
      omega
    · rw [List.append_nil]; exact h.consts

theorem grows_refl (o : Obj) (o' : Obj) (h1 : o'.len = o.len) (h2 : o'.data = o.data) (h3 : o'.rodata = o.rodata)
    (h4 : o'.bss = o.bss) (h5 : o'.noCommon = o.noCommon) : Grows o o' :=
  ⟨by omega, ⟨[], by simp [h2]⟩, ⟨[], by simp [h3]⟩, by omega, h5⟩

/-- Sections that grow and no new symbol. -/
theorem Sane.grow (h : Sane o) (o' : Obj) (g : Grows o o') (hd : o'.decls = o.decls) (hs : o'.strs = o.strs)
    (hl : o'.len = o.len) (hf : o'.fn = o.fn) : Sane o' := by
  refine ⟨?_, ?_, ?_, ?_, ?_, ?_⟩
  · intro d hdm; rw [hd] at hdm; exact (h.sits d hdm).mono g
  · intro d hdm; rw [hd] at hdm; rw [hs]; exact h.named d hdm
  · unfold Obj.functions; rw [hd, hl]; exact h.cover
  · unfold Obj.functions; rw [hd, hf]; exact h.last
  · unfold Obj.spaces; rw [hd, g.noCommon]; exact h.spaces
  · unfold Obj.consts; rw [hd, g.noCommon]; exact h.consts

theorem symbol_sane (h : Sane o) (s : Sym) (hs : OpOk o (.symbol s)) : Sane (o.symbol s) := by
  obtain ⟨hid, hz, hal, _⟩ := hs
  have hidd : s.id ∉ o.decls.map (·.sym.id) := fun g => hid (List.mem_append_left _ g)
  unfold Obj.symbol
  cases hk : s.kind with
  | label => exact h.grow _ (grows_refl _ _ rfl rfl rfl rfl rfl) rfl rfl rfl rfl
  | func defined =>
    have hh : home o.noCommon s ≠ 4 ∧ home o.noCommon s ≠ 5 := by
      unfold home; rw [hk]; simp only; split_ifs <;> decide
    cases defined with
    | true =>
      refine h.declare _ s o.len 0 (grows_refl _ _ rfl rfl rfl rfl rfl) hz hidd rfl rfl rfl ?_ (by simp [hk])
        (fun _ => ⟨rfl, rfl⟩) (fun w => absurd w hh.1) (fun w => absurd w hh.2)
      unfold Sits; simp only [hk]; exact Nat.le_refl _
    | false =>
      refine h.declare _ s 0 0 (grows_refl _ _ rfl rfl rfl rfl rfl) hz hidd rfl rfl rfl ?_ (by simp [hk])
        (fun w => by rw [hk] at w; cases w) (fun w => absurd w hh.1) (fun w => absurd w hh.2)
      unfold Sits; simp only [hk]; exact ⟨trivial, trivial⟩
  | data size align =>
    rw [hk] at hal
    have hh : home o.noCommon s = 6 := by unfold home; rw [hk]
    refine h.declare _ s (padded align o.data).length size ⟨Nat.le_refl _, ⟨_, rfl⟩, ⟨[], by simp [Obj.declare]⟩, Nat.le_refl _, rfl⟩
      hz hidd rfl rfl rfl ?_ (by simp [hk, Obj.declare]) (fun w => by rw [hk] at w; cases w) (fun w => by omega) (fun w => by omega)
    unfold Sits
    simp only [hk]
    refine ⟨?_, Nat.le_refl _, trivial⟩
    simp only [padded, List.length_append, List.length_replicate]
    exact padTo_dvd _ _ hal.1
  | const bytes align =>
    rw [hk] at hal
    have hh : home o.noCommon s = 5 := by unfold home; rw [hk]
    refine h.declare _ s (padded align o.rodata).length bytes.length
      ⟨Nat.le_refl _, ⟨[], by simp [Obj.declare]⟩, ⟨List.replicate (padTo align o.rodata.length) 0 ++ bytes, by simp only [padded, List.append_assoc]⟩, Nat.le_refl _, rfl⟩
      hz hidd rfl rfl rfl ?_ (by simp [hk, Obj.declare]) (fun w => by rw [hk] at w; cases w) (fun w => by omega)
      (fun _ => by simp [padded])
    unfold Sits
    simp only [hk, and_true, true_and]
    refine ⟨?_, by simp, ?_⟩
    · simp only [padded, List.length_append, List.length_replicate]
      exact padTo_dvd _ _ hal.1
    · rw [List.drop_append, List.drop_eq_nil_of_le (Nat.le_refl _), Nat.sub_self, List.drop_zero, List.nil_append,
        List.take_of_length_le (Nat.le_refl _)]
  | object tentative size align =>
    rw [hk] at hal
    have hh : home o.noCommon s ≠ 5 := by
      unfold home; rw [hk]; simp only; split_ifs <;> decide
    simp only
    split_ifs with q1 q2
    · refine h.declare _ s (o.bss + padTo align o.bss) size
        ⟨Nat.le_refl _, ⟨[], by simp [Obj.declare]⟩, ⟨[], by simp [Obj.declare]⟩, by simp only; omega, rfl⟩
        hz hidd rfl rfl rfl ?_ (by simp [hk, Obj.declare]) (fun w => by rw [hk] at w; cases w) (fun w => by omega)
        (fun w => absurd w hh)
      unfold Sits
      simp only [hk, Obj.declare]
      rw [if_pos q1]
      exact ⟨padTo_dvd _ _ hal.1, Nat.le_refl _, trivial⟩
    · have h4 : home o.noCommon s ≠ 4 := by
        unfold home; rw [hk]; simp only; rw [if_neg q1, if_pos q2]; decide
      refine h.declare _ s align size (grows_refl _ _ rfl rfl rfl rfl rfl) hz hidd rfl rfl rfl ?_
        (by simp [hk, Obj.declare]) (fun w => by rw [hk] at w; cases w) (fun w => absurd w h4) (fun w => absurd w hh)
      unfold Sits
      simp only [hk, Obj.declare]
      rw [if_neg q1, if_pos q2]
      exact ⟨trivial, trivial⟩
    · have h4 : home o.noCommon s ≠ 4 := by
        unfold home; rw [hk]; simp only; rw [if_neg q1, if_neg q2]; decide
      refine h.declare _ s 0 0 (grows_refl _ _ rfl rfl rfl rfl rfl) hz hidd rfl rfl rfl ?_
        (by simp [hk, Obj.declare]) (fun w => by rw [hk] at w; cases w) (fun w => absurd w h4) (fun w => absurd w hh)
      unfold Sits
      simp only [hk, Obj.declare]
      rw [if_neg q1, if_neg q2]
      exact ⟨trivial, trivial⟩

theorem text_sane (hok : ObjOk o) (h : Sane o) (c : Code) (hc : OpOk o (.text c)) : Sane (o.text c) := by
  obtain ⟨_, ⟨d0, hd0, hf, hk⟩, _⟩ := hc
  have hg : o.grow c.val.length = o.decls.map (bump d0.sym.id c.val.length) := by
    unfold Obj.grow
    rw [hf]
    rfl
  have hdecl : (o.text c).decls = o.decls.map (bump d0.sym.id c.val.length) := hg
  have hne : ∀ (p : Sym → Bool), (o.decls.map (bump d0.sym.id c.val.length)).filter (fun d => p d.sym)
      = (o.decls.filter (fun d => p d.sym)).map (bump d0.sym.id c.val.length) :=
    fun p => filter_bump p _ _ _
  obtain ⟨a, ha⟩ := h.last d0 hd0 hf hk
  have hfun : (o.text c).functions = a ++ [{ d0 with size := d0.size + c.val.length }] := by
    unfold Obj.functions
    rw [hdecl]
    have := hne (fun s => decide (s.kind = .func true))
    rw [this]
    have e : o.decls.filter (fun d => decide (d.sym.kind = .func true)) = a ++ [d0] := ha
    rw [e, List.map_append, bump_id]
    · simp only [List.map_cons, List.map_nil, bump, if_true]
    · intro d hd w
      have hn : ((a ++ [d0]).map (·.sym.id)).Nodup := by rw [← e]; exact filter_nodup _ hok.decls
      rw [List.map_append, List.nodup_append] at hn
      exact hn.2.2 _ (List.mem_map.mpr ⟨d, hd, rfl⟩) d0.sym.id (by simp) w
  have other : ∀ d ∈ o.decls, d.sym.kind ≠ .func true → d.sym.id ≠ d0.sym.id := by
    intro d hd hkd w
    rw [nodup_inj hok.decls hd hd0 w] at hkd
    exact hkd hk
  have g : Grows o (o.text c) := ⟨Nat.le_add_right _ _, ⟨[], by simp [Obj.text]⟩, ⟨[], by simp [Obj.text]⟩, Nat.le_refl _, rfl⟩
  have hcov := h.cover
  rw [ha, cover_append] at hcov
  refine ⟨?_, ?_, ?_, ?_, ?_, ?_⟩
  · intro d hd
    rw [hdecl] at hd
    obtain ⟨x, hx, rfl⟩ := List.mem_map.mp hd
    by_cases w : x.sym.id = d0.sym.id
    · have := nodup_inj hok.decls hx hd0 w
      subst this
      unfold Sits bump
      simp only [if_true, hk, Obj.text]
      omega
    · unfold bump
      rw [if_neg w]
      exact (h.sits x hx).mono g
  · intro d hd
    rw [hdecl] at hd
    obtain ⟨x, hx, rfl⟩ := List.mem_map.mp hd
    have := h.named x hx
    unfold bump
    split_ifs
    · exact this
    · exact this
  · rw [hfun, cover_append]
    refine ⟨hcov.1, ?_⟩
    simp only [Obj.text]
    omega
  · intro d hd hf' hk'
    rw [hdecl] at hd
    obtain ⟨x, hx, rfl⟩ := List.mem_map.mp hd
    rw [bump_sym] at hf' hk'
    have hf'' : o.fn = some x.sym.id := hf'
    rw [hf, Option.some.injEq] at hf''
    have := nodup_inj hok.decls hx hd0 hf''.symm
    subst this
    rw [hfun]
    exact ⟨a, by simp [bump]⟩
  · unfold Obj.spaces
    rw [hdecl]
    have := hne (fun s => decide (home (o.text c).noCommon s = 4))
    rw [this, bump_id]
    · exact h.spaces
    · intro d hd
      simp only [List.mem_filter, decide_eq_true_eq] at hd
      apply other d hd.1
      obtain ⟨t, sz, al, hk, _⟩ := (home_space _ _).mp hd.2
      rw [hk]
      simp
  · unfold Obj.consts
    rw [hdecl]
    have := hne (fun s => decide (home (o.text c).noCommon s = 5))
    rw [this, bump_id]
    · exact h.consts
    · intro d hd
      simp only [List.mem_filter, decide_eq_true_eq] at hd
      apply other d hd.1
      obtain ⟨t, al, hk⟩ := (home_const _ _).mp hd.2
      rw [hk]
      simp

theorem datum_sane (h : Sane o) (d : Datum) : Sane (o.datum d) := by
  cases d with
  | bytes b =>
    exact h.grow _ ⟨Nat.le_refl _, ⟨_, rfl⟩, ⟨[], by simp [Obj.datum]⟩, Nat.le_refl _, rfl⟩ rfl rfl rfl rfl
  | addr s disp =>
    exact h.grow _ ⟨Nat.le_refl _, ⟨_, rfl⟩, ⟨[], by simp [Obj.datum]⟩, Nat.le_refl _, rfl⟩ rfl rfl rfl rfl

theorem run_sane (h : R B st0 st o) (hs : Sane o) (ops : List Op) (hops : OpsOk o ops) : Sane (o.run ops) := by
  induction ops generalizing st o with
  | nil => exact hs
  | cons op ops ih =>
    obtain ⟨h1, h2⟩ := hops
    have hst : ∃ st', step st op = some st' ∧ R B st0 st' (o.step op) := by
      cases op with
      | symbol s => exact symbol_sim h s h1
      | text c => exact text_sim h c h1
      | data d => exact datum_sim h d
      | endFunction => exact end_sim h h1
    obtain ⟨st1, _, g2⟩ := hst
    have hs1 : Sane (o.step op) := by
      cases op with
      | symbol s => exact symbol_sane hs s h1
      | text c => exact text_sane h.ok hs c h1
      | data d => exact datum_sane hs d
      | endFunction => exact hs.grow _ (grows_refl _ _ rfl rfl rfl rfl rfl) rfl rfl rfl rfl
    exact ih g2 hs1 h2

theorem sane0 (file : List Nat) (nc : Bool) : Sane (obj0 file nc) :=
  ⟨by simp [obj0], by simp [obj0], rfl, by simp [obj0], List.Pairwise.nil, List.Pairwise.nil⟩

end Verif.Elf
