import Verif.Layout.FieldLemmas
/-! # Bit-fields: agreement with the ABI -/
namespace Verif.Layout
open Spec

/-- The declaration as an item of the specification. -/
def item : Decl → Item Bytes
  | .member name ty => .plain name ty.size ty.align
  | .field name ty w =>
    if w = 0 then .zero ty.size else .field (if name = [] then none else some name) ty.size w
  | .anon _ => .zero 0

/-- Named members with their bit positions and widths. -/
def outs (ms : List Member) : List (Bytes × Nat × Nat) :=
  (ms.filter fun m => m.name ≠ []).map fun m => (m.name, m.start, m.width)

theorem outs_append (a b : List Member) : outs (a ++ b) = outs a ++ outs b := by
  simp [outs]

theorem outs_key {a b : List Member} (h : a.map key = b.map key) : outs a = outs b := by
  induction a generalizing b with
  | nil => simp only [List.map_nil] at h; rw [List.map_eq_nil_iff.1 h.symm]
  | cons x a ih =>
    cases b with
    | nil => simp at h
    | cons y b =>
      simp only [List.map_cons, List.cons.injEq] at h
      rw [show x :: a = [x] ++ a from rfl, show y :: b = [y] ++ b from rfl, outs_append, outs_append, ih h.2]
      congr 1
      have h1 := h.1
      simp only [key, Prod.mk.injEq] at h1
      simp only [outs, List.filter_cons, List.filter_nil, h1.1]
      split_ifs
      · simp only [List.map_cons, List.map_nil, (stop_key h.1).1, h1.1, h1.2.2.2.1]
      · rfl

/-! ## The rule for one declaration, computed -/

theorem ceil8 {p : Nat} : 8 * ((p + 7) / 8) < p + 8 ∧ p ≤ 8 * ((p + 7) / 8) := by omega

theorem lowest8 {a p x : Nat} (ha : 0 < a) (h : Lowest (8 * a) p x) : x = 8 * up ((p + 7) / 8) a := by
  have hu := lowest_up ((p + 7) / 8) ha
  apply Lowest.unique h
  refine ⟨Nat.mul_dvd_mul_left _ hu.1, by have := hu.2.1; omega, ?_⟩
  rintro y ⟨k, rfl⟩ hy
  have := hu.2.2 (a * k) ⟨k, rfl⟩ (by rw [Nat.mul_assoc] at hy; omega)
  rw [Nat.mul_assoc]
  omega

/-- The first position of a field. -/
def fieldPos (p s w : Nat) : Nat := if p % (8 * s) + w ≤ 8 * s then p else up p (8 * s)

theorem fieldPos_spec {p s w : Nat} (hs : 0 < s) (hw : w ≤ 8 * s) :
    p ≤ fieldPos p s w ∧ InUnit (8 * s) (fieldPos p s w) w ∧
      ∀ y, p ≤ y → InUnit (8 * s) y w → fieldPos p s w ≤ y := by
  have hd := Nat.mod_add_div p (8 * s)
  have hm := Nat.mod_lt p (show 0 < 8 * s by omega)
  unfold fieldPos
  split_ifs with h
  · refine ⟨le_refl _, ⟨p / (8 * s), by omega, ?_⟩, fun y h _ => h⟩
    rw [Nat.mul_add]; omega
  · have hu := lowest_up p (show 0 < 8 * s by omega)
    obtain ⟨⟨k, hk⟩, h2, h3⟩ := hu
    refine ⟨h2, ⟨k, by omega, by rw [Nat.mul_add]; omega⟩, ?_⟩
    rintro y hy ⟨j, h4, h5⟩
    rcases Nat.lt_or_ge j (p / (8 * s) + 1) with hj | hj
    · exfalso
      have : 8 * s * (j + 1) ≤ 8 * s * (p / (8 * s) + 1) := Nat.mul_le_mul_left _ (by omega)
      rw [Nat.mul_add] at this
      rw [Nat.mul_add] at h5 this
      omega
    · have h6 : 8 * s * (p / (8 * s) + 1) ≤ 8 * s * j := Nat.mul_le_mul_left _ hj
      have h7 := h3 (8 * s * (p / (8 * s) + 1)) ⟨_, rfl⟩ (by rw [Nat.mul_add]; omega)
      omega

theorem field_unique {p s w x : Nat} (hs : 0 < s) (hw : w ≤ 8 * s) (h1 : p ≤ x) (h2 : InUnit (8 * s) x w)
    (h3 : ∀ y, p ≤ y → InUnit (8 * s) y w → x ≤ y) : x = fieldPos p s w := by
  obtain ⟨g1, g2, g3⟩ := fieldPos_spec (p := p) hs hw
  exact Nat.le_antisymm (h3 _ g1 g2) (g3 _ h1 h2)

/-! ## Invariant -/

/-- The struct so far uses `p` bits and ends with a run of fields of unit size `c`. -/
structure Run (c : Option Nat) (p : Nat) (a : Agg) : Prop where
  isStruct : a.isUnion = false
  none : c = none → 8 * a.size = p ∧ (∀ m, a.members.getLast? = some m → m.backing = 0 ∧ m.width = 0) ∧
    (a.members = [] → a.size = 0) ∧ (a.members ≠ [] → 0 < a.size)
  some : ∀ s, c = some s → ∃ m, a.members.getLast? = some m ∧ m.width ≠ 0 ∧ m.backing = 8 * s ∧
    s ∣ m.offset ∧ m.fieldOffset + m.width ≤ 8 * s ∧ p = 8 * m.offset + m.fieldOffset + m.width ∧
    a.size = m.offset + s ∧ (s = 1 ∨ s = 2 ∨ s = 4 ∨ s = 8)

theorem Run.size_le {c : Option Nat} {p : Nat} {a : Agg} (h : Run c p a) : 8 * a.size < p + 64 ∧ p ≤ 8 * a.size := by
  cases c with
  | none => have := (h.none rfl).1; omega
  | some s => obtain ⟨m, _, _, _, _, h5, h6, h7, _⟩ := h.some s rfl; omega

theorem run_release {c : Option Nat} {p : Nat} {a : Agg} (h : Run c p a) :
    ∃ b, release a = .ok b ∧ b.size = (p + 7) / 8 ∧ b.isUnion = false ∧ b.flexible = a.flexible ∧
      b.members.map key = a.members.map key := by
  cases c with
  | none =>
    obtain ⟨h1, h2, _, _⟩ := h.none rfl
    exact ⟨a, release_plain (fun m hm => (h2 m hm).1), by omega, h.isStruct, rfl, rfl⟩
  | some s =>
    obtain ⟨m, h1, h2, h3, h4, h5, h6, h7, h8⟩ := h.some s rfl
    unfold release
    rw [h1]
    simp only
    rw [if_neg (by omega), if_neg (by omega)]
    split_ifs with h9 h10
    · exact ⟨a, rfl, by omega, h.isStruct, rfl, rfl⟩
    · exfalso; omega
    · refine ⟨_, rfl, by simp only; omega, h.isStruct, rfl, ?_⟩
      simp only
      rw [List.map_reverse, shrink_key, List.map_reverse, List.reverse_reverse]

theorem run_adjust {c : Option Nat} {p : Nat} {a : Agg} (h : Run c p a) {ty : MTy} (ha : 0 < ty.align)
    (hal : ty.align ≤ 2 ^ 63) (hp : p ≤ 8 * longMax) :
    ∃ b, adjust a ty = .ok (b, up ((p + 7) / 8) ty.align) ∧ b.size = up ((p + 7) / 8) ty.align ∧ b.isUnion = false ∧
      b.flexible = a.flexible ∧ b.members.map key = a.members.map key := by
  have hL : longMax = 2 ^ 63 - 1 := rfl
  obtain ⟨b, h1, h2, h3, h4, h5⟩ := run_release h
  unfold adjust
  rw [h.isStruct]
  simp only [Bool.false_eq_true, if_false, h1, bind, Except.bind, pure, Except.pure]
  rw [if_neg (by omega), alignTo_eq ha (by omega), h2]
  exact ⟨_, rfl, rfl, h3, h4, h5⟩

theorem names_key {a b : List Member} (h : a.map key = b.map key) {n : Bytes} (hn : ∀ x ∈ b, x.name ≠ n) :
    ∀ x ∈ a, x.name ≠ n := by
  intro x hx
  have : key x ∈ b.map key := by rw [← h]; exact List.mem_map.2 ⟨x, hx, rfl⟩
  obtain ⟨y, hy, he⟩ := List.mem_map.1 this
  simp only [key, Prod.mk.injEq] at he
  rw [← he.1]
  exact hn y hy

theorem getLast_append_one {α : Type} (l : List α) (x : α) : (l ++ [x]).getLast? = some x := by simp

/-- Name and type. -/
def nt (m : Member) : Bytes × MTy := (m.name, m.ty)

theorem map_name_key {a b : List Member} (h : a.map key = b.map key) : a.map nt = b.map nt := by
  have := congrArg (List.map fun k => (k.1, k.2.1)) h
  simp only [List.map_map] at this
  exact this

/-- A plain member. -/
theorem run_member {c : Option Nat} {p q : Nat} {a : Agg} (h : Run c p a) {name : Bytes} {ty : MTy}
    {o : List (Bytes × Nat × Nat)} (hf : Fresh a name ty) (hsz : 0 < ty.size) (ha : 0 < ty.align) (hal : ty.align ≤ 2 ^ 63)
    (hb : Bits p (Item.plain name ty.size ty.align) o q) (hq : q ≤ 8 * longMax) :
    ∃ b, typeAddMember a name ty = .ok b ∧ Run none q b ∧ outs b.members = outs a.members ++ o ∧
      b.flexible = (a.flexible || ty.size == 0 || ty.isFlexible) ∧
      b.members.map nt = a.members.map nt ++ [(name, ty)] := by
  cases hb with
  | plain hx =>
    rename_i x
    have hxu := lowest8 ha hx
    have hxp := hx.2.1
    obtain ⟨b, h1, h2, h3, h4, h5⟩ := run_adjust h ha hal (by omega)
    unfold typeAddMember
    rw [h1]
    simp only [bind, Except.bind]
    rw [addMember_ok (fun _ => names_key h5 hf.new) (by rw [h4]; exact hf.size)
      (by rcases hf.flex with h' | h'
          · exact .inl h'
          · simp [h.isStruct] at h') (by simp only; omega)]
    refine ⟨_, rfl, ⟨h3, ?_, ?_⟩, ?_, by simp only [h4], ?_⟩
    · intro _
      refine ⟨by simp only [h2]; omega, ?_, by simp, by simp only [h2]; omega⟩
      intro m hm
      simp only [getLast_append_one, Option.some.injEq] at hm
      subst hm
      exact ⟨rfl, rfl⟩
    · intro s hs; simp at hs
    · simp only
      rw [outs_append, outs_key h5]
      congr 1
      simp only [outs, List.filter_cons, List.filter_nil]
      rw [if_pos (by simpa using hf.named)]
      simp [Member.start, hxu]
    · simp only [List.map_append, List.map_cons, List.map_nil]
      rw [map_name_key h5]
      rfl

/-- Conditions for adding a field. -/
structure FieldOk (a : Agg) (name : Bytes) (ty : MTy) (w : Nat) : Prop where
  int : IntTy ty
  width : w ≤ 8 * ty.size
  bool : ty.isBool → w ≤ 1
  fresh : name ≠ [] → w ≠ 0 ∧ ∀ m ∈ a.members, m.name ≠ name

theorem outs_field {name : Bytes} {ty : MTy} {o w fo b : Nat} :
    outs [{ name := name, ty := ty, offset := o, width := w, fieldOffset := fo, backing := b }] =
      ((if name = [] then none else some name) : Option Bytes).toList.map fun n => (n, 8 * o + fo, w) := by
  simp only [outs, List.filter_cons, List.filter_nil]
  by_cases hn : name = []
  · simp [hn]
  · simp [hn, Member.start]

/-- A field of positive width. -/
theorem run_field {c : Option Nat} {p q n : Nat} {a : Agg} (h : Run c p a) {name : Bytes} {ty : MTy} {w : Nat}
    {o : List (Bytes × Nat × Nat)} (hf : FieldOk a name ty w) (hw : w ≠ 0)
    (hc : c = some ty.size ∨ c = none ∧ 8 * ty.size ∣ p)
    (hb : Bits p (Item.field (if name = [] then none else some name) ty.size w) o q) (hq : q + 64 ≤ 8 * longMax) :
    ∃ b, typeAddField (n + 1) a name ty w = .ok b ∧ Run (some ty.size) q b ∧ outs b.members = outs a.members ++ o ∧
      b.flexible = a.flexible ∧ b.members.map nt = a.members.map nt ++ [(name, ty)] := by
  have hL : longMax = 2 ^ 63 - 1 := rfl
  have hsz : 0 < ty.size ∧ ty.size ≤ 8 := by rcases hf.int.1 with h | h | h | h <;> omega
  have hqp : p ≤ q := by cases hb with | field h1 _ _ => omega
  have hw' := hf.width
  have hal : ty.align = ty.size := hf.int.2.1
  rw [typeAddField, if_neg (by
      rintro (h1 | ⟨h1, h2⟩)
      · omega
      · have := hf.bool h1; omega), if_neg (by rintro ⟨_, h1⟩; exact hw h1),
    if_neg (by rintro ⟨h1, _⟩; simp [h.isStruct] at h1)]
  simp only [h.isStruct, Bool.false_eq_true, if_false, hw]
  generalize hx : fieldPos p ty.size w = x at hb
  have hbx : o = (((if name = [] then none else some name) : Option Bytes).toList.map fun n => (n, x, w)) ∧ q = x + w := by
    cases hb with
    | field h1 h2 h3 =>
      have := field_unique hsz.1 hw' h1 h2 h3
      rw [hx] at this
      subst this
      exact ⟨rfl, rfl⟩
  obtain ⟨rfl, rfl⟩ := hbx
  have hadd : ∀ (b : Agg) (off fo : Nat), b.isUnion = false → b.flexible = a.flexible →
      b.members.map key = a.members.map key → x = 8 * off + fo → ty.size ∣ off → fo + w ≤ 8 * ty.size →
      b.size ≤ off + ty.size → off + ty.size ≤ longMax →
      ∃ c, addMember b { name := name, ty := ty, offset := off, width := w, fieldOffset := fo, backing := ty.size * 8 } = .ok c ∧
        Run (some ty.size) (x + w) c ∧ outs c.members = outs a.members ++
          (((if name = [] then none else some name) : Option Bytes).toList.map fun n => (n, x, w)) ∧ c.flexible = a.flexible ∧
        c.members.map nt = a.members.map nt ++ [(name, ty)] := by
    intro b off fo b1 b2 b3 b4 b5 b6 b7 b8
    rw [addMember_ok (fun hn => names_key b3 (hf.fresh hn).2) (.inl (by simp only; omega)) (.inl hf.int.2.2.2) b8]
    refine ⟨_, rfl, ⟨b1, by simp, ?_⟩, ?_, ?_, ?_⟩
    · intro s hs
      simp only [Option.some.injEq] at hs
      subst hs
      exact ⟨_, getLast_append_one _ _, hw, by simp only; omega, b5, b6, by simp only; omega, by simp only; omega, hf.int.1⟩
    · simp only
      rw [outs_append, outs_key b3, outs_field, b4]
    · simp only [b2, hf.int.2.2.2]
      have : (ty.size == 0) = false := by simp; omega
      simp [this]
    · simp [map_name_key b3, nt]
  rcases hc with rfl | ⟨rfl, hdvd⟩
  · -- inside a run
    obtain ⟨m, h1, h2, h3, h4, h5, h6, h7, h8⟩ := h.some _ rfl
    obtain ⟨k, hk⟩ := h4
    have hpm : p % (8 * ty.size) = (m.fieldOffset + m.width) % (8 * ty.size) := by
      rw [h6, hk, show 8 * (ty.size * k) + m.fieldOffset + m.width = (m.fieldOffset + m.width) + (8 * ty.size) * k by
        rw [← Nat.mul_assoc]; omega, Nat.add_mul_mod_self_left]
    by_cases hfit : m.fieldOffset + m.width + w ≤ 8 * ty.size
    · -- fits
      have hxp : x = p := by
        rw [← hx, fieldPos, hpm, Nat.mod_eq_of_lt (by omega), if_pos (by omega)]
      have hpk : pack a { name := name, ty := ty, offset := 0, width := w, backing := ty.size * 8 } =
          some (a, { name := name, ty := ty, offset := m.offset, width := w, fieldOffset := m.fieldOffset + m.width
                     backing := m.backing }) := by
        unfold pack
        rw [h1]
        simp only
        rw [if_neg h2, if_pos (by omega)]
      rw [hpk]
      simp only
      rw [h3, Nat.mul_comm 8]
      exact hadd a _ _ h.isStruct rfl rfl (by omega) ⟨k, hk⟩ (by omega) (by omega) (by omega)
    · -- next unit
      have hpk : pack a { name := name, ty := ty, offset := 0, width := w, backing := ty.size * 8 } = none := by
        unfold pack
        rw [h1]
        simp only
        rw [if_neg h2, if_neg (by omega), if_neg (by omega)]
      rw [hpk]
      obtain ⟨b, a1, a2, a3, a4, a5⟩ := run_adjust h (ty := ty) (by omega) (by omega) (by omega)
      have hup : up ((p + 7) / 8) ty.size = m.offset + ty.size := by
        apply Lowest.unique (lowest_up _ hsz.1)
        refine ⟨⟨k + 1, by rw [Nat.mul_add]; omega⟩, by omega, ?_⟩
        rintro y ⟨j, rfl⟩ hy
        have h9 : ty.size * k < ty.size * j := by omega
        have h10 := Nat.lt_of_mul_lt_mul_left h9
        have h11 : ty.size * (k + 1) ≤ ty.size * j := Nat.mul_le_mul_left _ h10
        rw [Nat.mul_add] at h11
        omega
      have hxv : x = 8 * (m.offset + ty.size) := by
        rw [← hx, fieldPos]
        by_cases hfull : m.fieldOffset + m.width = 8 * ty.size
        · have h0 : p % (8 * ty.size) = 0 := by rw [hpm, hfull, Nat.mod_self]
          rw [h0, if_pos (by omega)]
          omega
        · rw [hpm, Nat.mod_eq_of_lt (by omega), if_neg (by omega)]
          have h0 : p % (8 * ty.size) = m.fieldOffset + m.width := by rw [hpm, Nat.mod_eq_of_lt (by omega)]
          unfold up
          rw [h0, if_pos (by omega)]
          omega
      rw [hal] at a1 a2
      rw [a1]
      simp only
      rw [hup] at a2 ⊢
      exact hadd b _ 0 a3 a4 a5 (by omega) ⟨k + 1, by rw [Nat.mul_add]; omega⟩ (by omega) (by omega) (by omega)
  · -- start of a run
    obtain ⟨h1, h2, _⟩ := h.none rfl
    have hpk : pack a { name := name, ty := ty, offset := 0, width := w, backing := ty.size * 8 } = none := by
      unfold pack
      cases hl : a.members.getLast? with
      | none => rfl
      | some m =>
        simp only
        rw [if_pos (h2 m hl).2]
    rw [hpk]
    obtain ⟨b, a1, a2, a3, a4, a5⟩ := run_adjust h (ty := ty) (by omega) (by omega) (by omega)
    have hd : ty.size ∣ a.size := by
      obtain ⟨k, hk⟩ := hdvd
      refine ⟨k, ?_⟩
      rw [Nat.mul_assoc] at hk
      omega
    have hup : up ((p + 7) / 8) ty.size = a.size := by
      rw [show (p + 7) / 8 = a.size by omega]
      unfold up
      rw [if_neg (by simpa using Nat.mod_eq_zero_of_dvd hd)]
    have hxv : x = 8 * a.size := by
      rw [← hx, fieldPos, Nat.mod_eq_zero_of_dvd hdvd, if_pos (by omega)]
      omega
    rw [hal] at a1 a2
    rw [a1]
    simp only
    rw [hup] at a2 ⊢
    exact hadd b _ 0 a3 a4 a5 (by omega) hd (by omega) (by omega) (by omega)

theorem backingType_unit {s : Nat} (h : s = 1 ∨ s = 2 ∨ s = 4 ∨ s = 8) :
    backingType (8 * s) = .ok { size := s, align := s } := by
  rcases h with rfl | rfl | rfl | rfl <;> rfl

/-- A zero-width field. -/
theorem run_zero {c : Option Nat} {p q : Nat} {a : Agg} (h : Run c p a) {ty : MTy}
    {o : List (Bytes × Nat × Nat)} (hi : IntTy ty)
    (hc : c = some ty.size ∨ c = none) (hb : Bits p (Item.zero ty.size : Item Bytes) o q) (hq : q + 64 ≤ 8 * longMax) :
    ∃ b, typeAddField 4 a [] ty 0 = .ok b ∧ Run c q b ∧ outs b.members = outs a.members ++ o ∧
      b.flexible = a.flexible ∧ ∃ l, b.members.map nt = a.members.map nt ++ l ∧ ∀ x ∈ l, x.1 = [] := by
  have hL : longMax = 2 ^ 63 - 1 := rfl
  have hsz : 0 < ty.size ∧ ty.size ≤ 8 := by rcases hi.1 with h | h | h | h <;> omega
  have hal : ty.align = ty.size := hi.2.1
  cases hb with
  | zero hx =>
    have hqp : p ≤ q := hx.2.1
    rw [typeAddField, if_neg (by
        rintro (h1 | ⟨h1, h2⟩)
        · omega
        · omega), if_neg (by simp), if_neg (by rintro ⟨h1, _⟩; simp [h.isStruct] at h1)]
    simp only [h.isStruct, Bool.false_eq_true, if_false, if_true]
    rcases hc with rfl | rfl
    · obtain ⟨m, h1, h2, h3, h4, h5, h6, h7, h8⟩ := h.some _ rfl
      obtain ⟨k, hk⟩ := h4
      have hpk : pack a { name := [], ty := ty, offset := 0, width := 0, backing := ty.size * 8 } =
          some (a, { name := [], ty := ty, offset := m.offset, width := 0, fieldOffset := m.fieldOffset + m.width
                     backing := m.backing }) := by
        unfold pack
        rw [h1]
        simp only
        rw [if_neg h2, if_pos (by omega)]
      rw [hpk]
      simp only
      rw [resetField, h1]
      simp only
      rw [if_pos h2, h3, backingType_unit h8]
      simp only
      rw [if_pos (by omega), if_neg (by omega)]
      have hqv : q = 8 * (m.offset + ty.size) := by
        apply Lowest.unique hx
        refine ⟨⟨k + 1, by rw [Nat.mul_assoc, Nat.mul_add ty.size, ← hk]; omega⟩, by omega, ?_⟩
        rintro y ⟨j, rfl⟩ hy
        have hjk : k < j := by
          by_contra hcon
          have : ty.size * j ≤ ty.size * k := Nat.mul_le_mul_left _ (by omega)
          rw [Nat.mul_assoc] at hy
          omega
        have h11 : ty.size * (k + 1) ≤ ty.size * j := Nat.mul_le_mul_left _ hjk
        rw [Nat.mul_add] at h11
        rw [Nat.mul_assoc]
        omega
      have hdiv : (m.offset + ty.size) % ty.size = 0 := by
        rw [hk, Nat.add_mod_right, Nat.mul_mod_right]
      by_cases hfull : m.fieldOffset + m.width = 8 * ty.size
      · rw [if_neg (by omega)]
        simp only
        rw [if_neg (by omega), if_neg (by rw [h7]; omega)]
        refine ⟨a, rfl, ?_, by simp, rfl, [], by simp, by simp⟩
        have : q = p := by omega
        rw [this]; exact h
      · rw [if_pos (by omega)]
        have hlt : m.fieldOffset + m.width < 8 * ty.size := by omega
        obtain ⟨b, b1, b2, b3, b4, b5⟩ := run_field (n := 1) h (name := []) (ty := { size := ty.size, align := ty.size })
          (w := 8 * ty.size - (m.fieldOffset + m.width)) (q := q) (o := [])
          ⟨⟨hi.1, rfl, rfl, rfl⟩, by simp only; omega, by simp, by simp⟩ (by omega) (.inl rfl) (by
            have hxx : InUnit (8 * ty.size) p (8 * ty.size - (m.fieldOffset + m.width)) :=
              ⟨k, by rw [Nat.mul_assoc]; omega, by rw [Nat.mul_add, Nat.mul_assoc]; omega⟩
            have := Bits.field (name := (none : Option Bytes)) (le_refl p) hxx (fun y hy _ => hy)
            rw [show q = p + (8 * ty.size - (m.fieldOffset + m.width)) by omega]
            exact this) hq
        rw [b1]
        simp only
        have hbs := b2.size_le
        obtain ⟨m', g1, g2, g3, g4, g5, g6, g7, g8⟩ := b2.some _ rfl
        simp only at g3 g5 g7
        have hbsz : b.size = m.offset + ty.size := by
          obtain ⟨k', hk'⟩ := g4
          simp only at hk'
          rw [hqv] at g6
          have : ty.size * k' < ty.size * (k + 1) := by
            rw [Nat.mul_add]; omega
          have h13 := Nat.lt_of_mul_lt_mul_left this
          have : ty.size * k' ≤ ty.size * k := Nat.mul_le_mul_left _ (by omega)
          omega
        rw [if_neg (by omega), if_neg (by rw [hbsz]; omega)]
        exact ⟨b, rfl, b2, by rw [b3], b4, _, b5, by simp⟩
    · obtain ⟨h1, h2, h3, h3'⟩ := h.none rfl
      have hpk : pack a { name := [], ty := ty, offset := 0, width := 0, backing := ty.size * 8 } = none := by
        unfold pack
        cases hl : a.members.getLast? with
        | none => rfl
        | some m =>
          simp only
          rw [if_pos (h2 m hl).2]
      rw [hpk]
      have hadj : adjust a ty = .ok ({ a with size := up a.size ty.size }, up a.size ty.size) := by
        unfold adjust
        rw [h.isStruct]
        simp only [Bool.false_eq_true, if_false, release_plain (fun m hm => (h2 m hm).1), bind, Except.bind, pure, Except.pure]
        rw [if_neg (by omega), hal, alignTo_eq hsz.1 (by omega), h.isStruct]
      rw [hadj]
      simp only
      have hqv := lowest8 hsz.1 hx
      rw [show (p + 7) / 8 = a.size by omega] at hqv
      have hlow := lowest_up a.size hsz.1
      rw [resetField]
      simp only
      cases hl : a.members.getLast? with
      | none =>
        have hnil : a.members = [] := by simpa using hl
        have h0 := h3 hnil
        have : up a.size ty.size = a.size := by rw [h0]; simp [up]
        simp only
        refine ⟨_, rfl, ⟨h.isStruct, fun _ => ⟨by simp only; omega, by simp only [hl]; simp, by simp only [this]; exact h3,
          by simp only; intro hh; exact absurd hnil hh⟩, by simp⟩, by simp, rfl, [], by simp, by simp⟩
      | some m =>
        simp only
        obtain ⟨g1, g2⟩ := h2 m hl
        have hne : a.members ≠ [] := by intro hh; simp [hh] at hl
        have hpos := h3' hne
        rw [if_neg (by simpa using g2)]
        simp only
        have hge : ty.size ≤ up a.size ty.size := Nat.le_of_dvd (by omega) hlow.1
        rw [if_neg (by omega), if_neg (by simpa using Nat.mod_eq_zero_of_dvd hlow.1)]
        refine ⟨_, rfl, ⟨h.isStruct, fun _ => ⟨by simp only; omega, h2, fun hh => absurd hh hne,
          fun _ => by simp only; omega⟩, by simp⟩, by simp, rfl, [], by simp, by simp⟩

end Verif.Layout
