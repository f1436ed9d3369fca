import Verif.Layout.Lemmas
/-! # Lemmas about bit-fields -/
namespace Verif.Layout
open Spec

/-- Integer types of bit-fields. -/
def IntTy (t : MTy) : Prop :=
  (t.size = 1 ∨ t.size = 2 ∨ t.size = 4 ∨ t.size = 8) ∧ t.align = t.size ∧ t.isArray = false ∧ t.isFlexible = false

/-- First bit and number of bits of a member. -/
def Member.start (m : Member) : Nat := 8 * m.offset + m.fieldOffset
def Member.bits (m : Member) : Nat := if m.width = 0 then 8 * m.ty.size else m.width
def Member.stop (m : Member) : Nat := m.start + m.bits

/-- Everything but the backing. -/
def key (m : Member) : Bytes × MTy × Nat × Nat × Nat := (m.name, m.ty, m.offset, m.width, m.fieldOffset)

theorem stop_key {m m' : Member} (h : key m = key m') : m.start = m'.start ∧ m.stop = m'.stop := by
  simp only [key, Prod.mk.injEq] at h
  obtain ⟨h1, h2, h3, h4, h5⟩ := h
  simp only [Member.stop, Member.start, Member.bits, h2, h3, h4, h5, and_self]

def Before (x y : Member) : Prop := x.stop ≤ y.start

theorem pairwise_key {l l' : List Member} (h : l.map key = l'.map key) (hp : l.Pairwise Before) :
    l'.Pairwise Before := by
  induction l generalizing l' with
  | nil => simp only [List.map_nil] at h; rw [List.map_eq_nil_iff.1 h.symm]; exact .nil
  | cons m l ih =>
    cases l' with
    | nil => simp at h
    | cons m' l' =>
      simp only [List.map_cons, List.cons.injEq] at h
      obtain ⟨h1, h2⟩ := List.pairwise_cons.1 hp
      refine List.pairwise_cons.2 ⟨fun y hy => ?_, ih h.2 h2⟩
      have : key y ∈ l.map key := by rw [h.2]; exact List.mem_map.2 ⟨y, hy, rfl⟩
      obtain ⟨x, hx, he⟩ := List.mem_map.1 this
      have := h1 x hx
      unfold Before at *
      rw [← (stop_key h.1).2, ← (stop_key he).1]
      exact this

theorem stops_key {l l' : List Member} {n : Nat} (h : l.map key = l'.map key) (hp : ∀ m ∈ l, m.stop ≤ n) :
    ∀ m ∈ l', m.stop ≤ n := by
  intro y hy
  have : key y ∈ l.map key := by rw [h]; exact List.mem_map.2 ⟨y, hy, rfl⟩
  obtain ⟨x, hx, he⟩ := List.mem_map.1 this
  rw [← (stop_key he).2]
  exact hp x hx

theorem shrink_key (o b : Nat) (l : List Member) : (shrink o b l).map key = l.map key := by
  induction l with
  | nil => rfl
  | cons m l ih =>
    rw [shrink]
    split_ifs
    · simp [ih, key]
    · rfl

theorem widen_key (o b : Nat) (l : List Member) : (widen o b l).map key = l.map key := by
  induction l with
  | nil => rfl
  | cons m l ih =>
    rw [widen]
    split_ifs
    · simp [ih, key]
    · rfl

/-- State of a struct under construction. -/
structure Good (a : Agg) : Prop where
  isStruct : a.isUnion = false
  sorted : a.members.Pairwise Before
  ends : ∀ m ∈ a.members, m.stop ≤ 8 * a.size
  plain : ∀ m, a.members.getLast? = some m → m.width = 0 → m.backing = 0
  field : ∀ m, a.members.getLast? = some m → m.width ≠ 0 →
    (m.backing = 8 ∨ m.backing = 16 ∨ m.backing = 32 ∨ m.backing = 64) ∧
    m.fieldOffset + m.width ≤ m.backing ∧ m.offset + m.backing / 8 ≤ a.size

theorem ends_of_last {l : List Member} {m : Member} (h : l.Pairwise Before) (hl : l.getLast? = some m) :
    ∀ x ∈ l, x.stop ≤ m.stop := by
  rw [List.getLast?_eq_some_iff] at hl
  obtain ⟨l', rfl⟩ := hl
  intro x hx
  rw [List.pairwise_append] at h
  rcases List.mem_append.1 hx with hx | hx
  · have := h.2.2 x hx m (by simp)
    unfold Before at this
    have : m.start ≤ m.stop := by unfold Member.stop; omega
    omega
  · simp only [List.mem_singleton] at hx; subst hx; exact le_refl _

theorem release_spec {a : Agg} (h : Good a) :
    ∃ b, release a = .ok b ∧ b.size ≤ a.size ∧ b.isUnion = a.isUnion ∧ b.flexible = a.flexible ∧
      b.members.map key = a.members.map key ∧ ∀ m ∈ b.members, m.stop ≤ 8 * b.size := by
  unfold release
  cases hl : a.members.getLast? with
  | none => exact ⟨a, rfl, le_refl _, rfl, rfl, rfl, h.ends⟩
  | some m =>
    simp only
    by_cases hb : m.backing = 0
    · rw [if_pos hb]; exact ⟨a, rfl, le_refl _, rfl, rfl, rfl, h.ends⟩
    rw [if_neg hb]
    have hw : m.width ≠ 0 := fun h0 => hb (h.plain m hl h0)
    obtain ⟨h1, h2, h3⟩ := h.field m hl hw
    rw [if_neg (by omega)]
    split_ifs with h4 h5
    · exact ⟨a, rfl, le_refl _, rfl, rfl, rfl, h.ends⟩
    · exfalso; omega
    · have hk : ((shrink m.offset ((m.backing - (m.fieldOffset + m.width)) / 8 * 8) a.members.reverse).reverse).map key =
          a.members.map key := by
        rw [List.map_reverse, shrink_key, List.map_reverse, List.reverse_reverse]
      refine ⟨_, rfl, by simp only; omega, rfl, rfl, hk, ?_⟩
      refine stops_key hk.symm ?_
      intro x hx
      have h6 := ends_of_last h.sorted hl x hx
      have h7 : m.stop = 8 * m.offset + m.fieldOffset + m.width := by
        unfold Member.stop Member.start Member.bits; rw [if_neg hw]
      simp only
      omega

theorem adjust_spec {a : Agg} (h : Good a) {ty : MTy} (ha : 0 < ty.align) (hfit : a.size + ty.align ≤ 2 ^ 64) :
    ∃ b, adjust a ty = .ok (b, b.size) ∧ b.size < a.size + ty.align ∧ b.isUnion = false ∧
      b.members.map key = a.members.map key ∧ ∀ m ∈ b.members, m.stop ≤ 8 * b.size := by
  obtain ⟨b, h1, h2, h3, _, h4, h5⟩ := release_spec h
  have hu := up_lt (x := b.size) ha
  have hl := (lowest_up b.size ha).2.1
  unfold adjust
  rw [h.isStruct]
  simp only [Bool.false_eq_true, if_false, h1, bind, Except.bind, pure, Except.pure]
  rw [if_neg (by omega), alignTo_eq ha (by omega)]
  refine ⟨{ b with size := up b.size ty.align }, rfl, by simp only; omega, by rw [← h.isStruct]; exact h3, h4, ?_⟩
  intro m hm
  have := h5 m hm
  simp only
  omega

theorem addMember_inv {a c : Agg} {m : Member} (h : addMember a m = .ok c) :
    c.isUnion = a.isUnion ∧ c.members = a.members ++ [m] ∧ m.ty.size ≤ (longMax + 2 ^ 64 - m.offset) % 2 ^ 64 ∧
    c.size = max a.size ((m.offset + m.ty.size) % 2 ^ 64) := by
  unfold addMember at h
  split_ifs at h <;> simp only [Except.ok.injEq] at h <;> subst h <;>
    refine ⟨rfl, rfl, by omega, ?_⟩ <;> simp only <;> omega

theorem good_append {a b c : Agg} {m : Member} (ha : a.members.Pairwise Before) (hs : b.isUnion = false)
    (hk : b.members.map key = a.members.map key)
    (hstart : ∀ x ∈ b.members, x.stop ≤ m.start) (hfit : m.offset + m.ty.size ≤ longMax)
    (hw : m.width = 0 → m.backing = 0) (hw0 : m.width = 0 → m.fieldOffset = 0)
    (hb : m.width ≠ 0 → (m.backing = 8 ∨ m.backing = 16 ∨ m.backing = 32 ∨ m.backing = 64) ∧
      m.fieldOffset + m.width ≤ m.backing ∧ (m.offset + m.backing / 8 ≤ max b.size (m.offset + m.ty.size)))
    (h : addMember b m = .ok c) : Good c ∧ c.size = max b.size (m.offset + m.ty.size) := by
  obtain ⟨h1, h2, _, h4⟩ := addMember_inv h
  have hL : longMax = 2 ^ 63 - 1 := rfl
  rw [Nat.mod_eq_of_lt (by omega)] at h4
  have hms : m.stop ≤ 8 * c.size := by
    unfold Member.stop Member.start Member.bits
    split_ifs with h0
    · rw [hw0 h0]; omega
    · have := hb h0; omega
  refine ⟨⟨by rw [h1, hs], ?_, ?_, ?_, ?_⟩, h4⟩
  · rw [h2, List.pairwise_append]
    refine ⟨pairwise_key hk.symm ha, by simp, ?_⟩
    intro x hx y hy
    simp only [List.mem_singleton] at hy
    subst hy
    exact hstart x hx
  · intro x hx
    rw [h2] at hx
    rcases List.mem_append.1 hx with hx | hx
    · have := hstart x hx
      have : m.start ≤ m.stop := by unfold Member.stop; omega
      omega
    · simp only [List.mem_singleton] at hx; subst hx; exact hms
  · intro x hx
    rw [h2] at hx
    simp only [List.getLast?_append, List.getLast?_singleton, Option.some_or, Option.some.injEq] at hx
    subst hx; exact hw
  · intro x hx h0
    rw [h2] at hx
    simp only [List.getLast?_append, List.getLast?_singleton, Option.some_or, Option.some.injEq] at hx
    subst hx
    have := hb h0
    rw [h4]
    exact this

theorem good_typeAddMember {a c : Agg} (h : Good a) {name : Bytes} {ty : MTy} (ha : 0 < ty.align)
    (hfit : a.size + ty.align + ty.size ≤ longMax) (hc : typeAddMember a name ty = .ok c) :
    Good c ∧ c.size ≤ a.size + ty.align + ty.size := by
  have hL : longMax = 2 ^ 63 - 1 := rfl
  obtain ⟨b, h1, h2, h3, h4, h5⟩ := adjust_spec h ha (by omega)
  unfold typeAddMember at hc
  rw [h1] at hc
  obtain ⟨g1, g2⟩ := good_append (a := a) h.sorted h3 h4 (fun x hx => by
    have := h5 x hx; simp only [Member.start]; omega) (by simp only; omega) (fun _ => rfl) (fun _ => rfl)
    (fun h => absurd rfl h) hc
  simp only at g2
  exact ⟨g1, by omega⟩

/-- The last field, when a further field can follow it. -/
theorem pack_spec {a b : Agg} {f g : Member} (h : Good a) (hi : IntTy f.ty) (hf : f.backing = 8 * f.ty.size)
    (hp : pack a f = some (b, g)) :
    ∃ last, a.members.getLast? = some last ∧ last.width ≠ 0 ∧
      b.size = a.size ∧ b.isUnion = a.isUnion ∧ b.members.map key = a.members.map key ∧
      g.offset = last.offset ∧ g.fieldOffset = last.fieldOffset + last.width ∧ g.width = f.width ∧
      g.ty = f.ty ∧ (g.backing = 8 ∨ g.backing = 16 ∨ g.backing = 32 ∨ g.backing = 64) ∧
      g.fieldOffset + g.width ≤ g.backing ∧ g.offset + g.backing / 8 ≤ max a.size (g.offset + g.ty.size) ∧
      (f.width = 0 → b = a) := by
  unfold pack at hp
  cases hl : a.members.getLast? with
  | none => rw [hl] at hp; simp at hp
  | some last =>
    rw [hl] at hp
    simp only at hp
    split_ifs at hp with h1 h2 h3
    · obtain ⟨g1, g2, g3⟩ := h.field last hl h1
      simp only [Option.some.injEq, Prod.mk.injEq] at hp
      obtain ⟨rfl, rfl⟩ := hp
      exact ⟨last, rfl, h1, rfl, rfl, rfl, rfl, rfl, rfl, rfl, g1, by simpa using h2, by simp only; omega, fun _ => rfl⟩
    · obtain ⟨g1, g2, g3⟩ := h.field last hl h1
      simp only [Option.some.injEq, Prod.mk.injEq] at hp
      obtain ⟨rfl, rfl⟩ := hp
      refine ⟨last, rfl, h1, rfl, rfl, ?_, rfl, rfl, rfl, rfl, ?_, by simpa using h3, ?_, ?_⟩
      · simp only
        rw [List.map_reverse, widen_key, List.map_reverse, List.reverse_reverse]
      · simp only; rcases hi.1 with h | h | h | h <;> rw [hf, h] <;> simp
      · simp only; omega
      · intro h0; exfalso; omega

theorem pack_none_zero {a : Agg} {f : Member} (h : Good a) (hw : f.width = 0) (hp : pack a f = none) :
    ∀ m, a.members.getLast? = some m → m.width = 0 := by
  intro m hm
  by_contra h0
  unfold pack at hp
  rw [hm] at hp
  simp only at hp
  obtain ⟨g1, g2, g3⟩ := h.field m hm h0
  rw [if_neg h0, if_pos (by omega)] at hp
  simp at hp

theorem backingType_spec {b : Nat} (h : b = 8 ∨ b = 16 ∨ b = 32 ∨ b = 64) :
    ∃ t, backingType b = .ok t ∧ IntTy t ∧ t.isBool = false ∧ t.size = b / 8 := by
  rcases h with rfl | rfl | rfl | rfl <;> exact ⟨_, rfl, ⟨by decide, rfl, rfl, rfl⟩, rfl, rfl⟩

theorem good_grow {a : Agg} (h : Good a) {n : Nat} (hn : a.size ≤ n) : Good { a with size := n } where
  isStruct := h.isStruct
  sorted := h.sorted
  ends := fun m hm => by have := h.ends m hm; simp only; omega
  plain := h.plain
  field := fun m hm h0 => by have := h.field m hm h0; simp only; omega

theorem good_fields (n : Nat) :
    (∀ a c name ty w, Good a → IntTy ty → a.size + 16 * n ≤ longMax →
      typeAddField n a name ty w = .ok c → Good c ∧ c.size ≤ a.size + 16 * n) ∧
    (∀ a c ty, Good a → IntTy ty → a.size + 16 * n ≤ longMax → resetField n a ty = .ok c →
      Good c ∧ c.size ≤ a.size + 16 * n) := by
  have hL : longMax = 2 ^ 63 - 1 := rfl
  induction n with
  | zero =>
    constructor
    · intro a c name ty w _ _ _ h; simp [typeAddField] at h
    · intro a c ty _ _ _ h; simp [resetField] at h
  | succ n ih =>
    obtain ⟨ihA, ihR⟩ := ih
    constructor
    · intro a c name ty w ha ht hfit h
      have hsz : 0 < ty.size ∧ ty.size ≤ 8 := by rcases ht.1 with h | h | h | h <;> omega
      rw [typeAddField] at h
      by_cases h1 : w > ty.size * 8 ∨ (ty.isBool ∧ w > 1)
      · rw [if_pos h1] at h; simp at h
      by_cases h2 : name ≠ [] ∧ w = 0
      · rw [if_neg h1, if_pos h2] at h; simp at h
      by_cases h3 : a.isUnion ∧ name = []
      · rw [if_neg h1, if_neg h2, if_pos h3] at h
        simp only [Except.ok.injEq] at h; subst h; exact ⟨ha, by omega⟩
      · rw [if_neg h1, if_neg h2, if_neg h3] at h
        simp only [ha.isStruct, Bool.false_eq_true, if_false] at h
        generalize hm : ({ name := name, ty := ty, offset := 0, width := w, backing := ty.size * 8 } : Member) = m at h
        have m1 : m.ty = ty := by rw [← hm]
        have m2 : m.width = w := by rw [← hm]
        have m3 : m.backing = 8 * ty.size := by rw [← hm]; simp only; omega
        cases hpk : pack a m with
        | some r =>
          obtain ⟨b, g⟩ := r
          rw [hpk] at h
          simp only at h
          obtain ⟨last, p1, p2, p3, p4, p5, p6, p7, p8, p9, p10, p11, p12, p13⟩ :=
            pack_spec ha (by rw [m1]; exact ht) (by rw [m3, m1]) hpk
          rw [m2] at p8 p13
          rw [m1] at p9
          rw [p9] at p12
          have hls : last.stop ≤ 8 * a.size := ha.ends last (List.mem_of_getLast? p1)
          have hlo : 8 * last.offset ≤ last.stop := by unfold Member.stop Member.start; omega
          by_cases hw : w = 0
          · rw [if_pos hw] at h
            rw [p13 hw] at h
            obtain ⟨g1, g2⟩ := ihR a c ty ha ht (by omega) h
            exact ⟨g1, by omega⟩
          · rw [if_neg hw] at h
            obtain ⟨g1, g2⟩ := good_append (a := a) ha.sorted (by rw [p4, ha.isStruct]) p5 (by
                apply stops_key p5.symm
                intro x hx
                have h6 := ends_of_last ha.sorted p1 x hx
                have h7 : last.stop = 8 * last.offset + last.fieldOffset + last.width := by
                  unfold Member.stop Member.start Member.bits; rw [if_neg p2]
                unfold Member.start
                omega) (by rw [p9]; omega) (by rw [p8]; intro h; exact absurd h hw)
              (by rw [p8]; intro h; exact absurd h hw) (fun _ => ⟨p10, p11, by rw [p3, p9]; omega⟩) h
            refine ⟨g1, ?_⟩
            rw [g2, p9, p3]
            omega
        | none =>
          rw [hpk] at h
          obtain ⟨b, a1, a2, a3, a4, a5⟩ := adjust_spec ha (ty := ty) (by rw [ht.2.1]; omega) (by rw [ht.2.1]; omega)
          rw [ht.2.1] at a2
          simp only [a1] at h
          by_cases hw : w = 0
          · rw [if_pos hw] at h
            have hb : Good b := by
              have hlast := pack_none_zero ha (by rw [m2, hw]) hpk
              have hrel : release a = .ok a := release_plain (fun m hm => ha.plain m hm (hlast m hm))
              have : b = { a with size := b.size } := by
                unfold adjust at a1
                rw [ha.isStruct] at a1
                simp only [Bool.false_eq_true, if_false, hrel, bind, Except.bind, pure, Except.pure] at a1
                split_ifs at a1
                simp only [Except.ok.injEq, Prod.mk.injEq] at a1
                obtain ⟨a6, a7⟩ := a1
                rw [← a6]
              rw [this]
              refine ⟨ha.isStruct, ha.sorted, ?_, ha.plain, ?_⟩
              · exact stops_key a4 a5
              · intro m hm h0; exact absurd (hlast m hm) h0
            obtain ⟨g1, g2⟩ := ihR b c ty hb ht (by omega) h
            exact ⟨g1, by omega⟩
          · rw [if_neg hw] at h
            subst hm
            obtain ⟨g1, g2⟩ := good_append (a := a) ha.sorted a3 a4 (by
                intro x hx
                have := a5 x hx
                unfold Member.start
                simp only
                omega) (by simp only; omega) (by simp only; intro h; exact absurd h hw)
              (by simp only; intro h; exact absurd h hw)
              (fun _ => ⟨by simp only; have := ht.1; omega, by simp only; omega, by simp only; omega⟩) h
            refine ⟨g1, ?_⟩
            rw [g2]
            simp only
            omega
    · intro a c ty ha ht hfit h
      have hsz : 0 < ty.size ∧ ty.size ≤ 8 := by rcases ht.1 with h | h | h | h <;> omega
      rw [resetField] at h
      cases hl : a.members.getLast? with
      | none => rw [hl] at h; simp only [Except.ok.injEq] at h; subst h; exact ⟨ha, by omega⟩
      | some m =>
        rw [hl] at h
        simp only at h
        generalize hp : (if m.width ≠ 0 then _ else _ : R Agg) = padded at h
        cases padded with
        | error e => simp at h
        | ok b =>
          simp only at h
          have hb : Good b ∧ b.size ≤ a.size + 16 * n := by
            by_cases hw : m.width = 0
            · rw [if_neg (by simpa using hw)] at hp
              simp only [Except.ok.injEq] at hp; subst hp; exact ⟨ha, by omega⟩
            · rw [if_pos hw] at hp
              obtain ⟨f1, f2, f3⟩ := ha.field m hl hw
              obtain ⟨t, t1, t2, t3, t4⟩ := backingType_spec f1
              rw [t1] at hp
              simp only at hp
              split_ifs at hp
              all_goals first
                | (simp only [Except.ok.injEq] at hp; subst hp; exact ⟨ha, by omega⟩)
                | exact ihA _ _ _ _ _ ha t2 (by omega) hp
          obtain ⟨b1, b2⟩ := hb
          have hm := Nat.mod_lt b.size hsz.1
          split_ifs at h
          · simp only [Except.ok.injEq] at h; subst h; exact ⟨good_grow b1 (by omega), by simp only; omega⟩
          · rw [Nat.mod_eq_of_lt (by omega)] at h
            simp only [Except.ok.injEq] at h; subst h; exact ⟨good_grow b1 (by omega), by simp only; omega⟩
          · simp only [Except.ok.injEq] at h; subst h; exact ⟨b1, by omega⟩

/-- An upper bound for the size that a declaration adds. -/
def cost : Decl → Nat
  | .member _ ty => ty.align + ty.size
  | .field _ _ _ => 64
  | .anon _ => 0

/-- A plain member or a bit-field of integer type. -/
def Proper : Decl → Prop
  | .member _ ty => 0 < ty.align
  | .field _ ty _ => IntTy ty
  | .anon _ => False

theorem good_decls (ds : List Decl) (a c : Agg) (ha : Good a) (hd : ∀ d ∈ ds, Proper d)
    (hfit : a.size + (ds.map cost).sum ≤ longMax) (h : addDecls a ds = .ok c) :
    Good c ∧ c.size ≤ a.size + (ds.map cost).sum := by
  induction ds generalizing a with
  | nil => simp only [addDecls, List.foldlM_nil, pure, Except.pure, Except.ok.injEq] at h; subst h; exact ⟨ha, by simp⟩
  | cons d ds ih =>
    rw [addDecls, List.foldlM_cons] at h
    simp only [List.map_cons, List.sum_cons] at hfit ⊢
    cases hb : addDecl a d with
    | error e => rw [hb] at h; simp [bind, Except.bind] at h
    | ok b =>
      rw [hb] at h
      have hgb : Good b ∧ b.size ≤ a.size + cost d := by
        have hp := hd d (by simp)
        cases d with
        | member name ty =>
          obtain ⟨g1, g2⟩ := good_typeAddMember ha hp (by simp only [cost] at hfit; omega) hb
          exact ⟨g1, by simp only [cost]; omega⟩
        | field name ty w =>
          obtain ⟨g1, g2⟩ := (good_fields 4).1 a b name ty w ha hp (by simp only [cost] at hfit; omega) hb
          exact ⟨g1, by simp only [cost]; omega⟩
        | anon _ => exact absurd hp id
      obtain ⟨g1, g2⟩ := ih b hgb.1 (fun x hx => hd x (by simp [hx])) (by omega) h
      exact ⟨g1, by omega⟩

end Verif.Layout
