import Verif.Layout.Model
import Verif.Layout.Spec
import Verif.Tac
/-! # Lemmas about layout -/
namespace Verif.Layout
open Spec

theorem Lowest.unique {a l x y : Nat} (h : Lowest a l x) (h' : Lowest a l y) : x = y :=
  Nat.le_antisymm (h.2.2 y h'.1 h'.2.1) (h'.2.2 x h.1 h.2.1)

/-- Plain rounding up. -/
def up (x a : Nat) : Nat := if x % a ≠ 0 then x + (a - x % a) else x

theorem lowest_up {a : Nat} (x : Nat) (ha : 0 < a) : Lowest a x (up x a) := by
  have hm := Nat.mod_lt x ha
  have hd := Nat.mod_add_div x a
  unfold up
  split_ifs with h
  · refine ⟨⟨x / a + 1, by rw [Nat.mul_add]; omega⟩, by omega, ?_⟩
    rintro y ⟨k, rfl⟩ hy
    by_contra hc
    have h1 : a * k < a * (x / a + 1) := by rw [Nat.mul_add]; omega
    have h2 : k < x / a + 1 := Nat.lt_of_mul_lt_mul_left h1
    have h3 : a * k ≤ a * (x / a) := Nat.mul_le_mul_left _ (by omega)
    omega
  · exact ⟨Nat.dvd_of_mod_eq_zero (by omega), le_refl _, fun y _ h => h⟩

theorem up_lt {x a : Nat} (ha : 0 < a) : up x a < x + a := by
  have hm := Nat.mod_lt x ha
  unfold up
  split_ifs with h <;> omega

theorem alignTo_eq {x a : Nat} (ha : 0 < a) (h : x + a ≤ 2 ^ 64) : alignTo x a = up x a := by
  have := up_lt (x := x) ha
  unfold alignTo
  unfold up at *
  split_ifs at * with h
  · exact Nat.mod_eq_of_lt (by omega)
  · rfl

theorem Placed.exists (start : Nat) (ms : List (Nat × Nat)) (h : ∀ m ∈ ms, 0 < m.2) :
    ∃ offs fin, Placed start ms offs fin := by
  induction ms generalizing start with
  | nil => exact ⟨_, _, .nil _⟩
  | cons m ms ih =>
    obtain ⟨offs, fin, hp⟩ := ih (up start m.2 + m.1) (fun x hx => h x (by simp [hx]))
    exact ⟨_, _, .cons (lowest_up _ (h m (by simp))) hp⟩

theorem Placed.unique {start : Nat} {ms : List (Nat × Nat)} {o o' : List Nat} {f f' : Nat}
    (h : Placed start ms o f) (h' : Placed start ms o' f') : o = o' ∧ f = f' := by
  induction h generalizing o' f' with
  | nil => cases h'; exact ⟨rfl, rfl⟩
  | cons h1 _ ih =>
    cases h' with
    | cons h2 h3 =>
      obtain rfl := Lowest.unique h1 h2
      obtain ⟨rfl, rfl⟩ := ih h3
      exact ⟨rfl, rfl⟩

theorem Placed.le {start : Nat} {ms : List (Nat × Nat)} {o : List Nat} {f : Nat}
    (h : Placed start ms o f) : start ≤ f := by
  induction h with
  | nil => exact le_refl _
  | cons h1 _ ih => have := h1.2.1; omega

theorem Placed.length {start : Nat} {ms : List (Nat × Nat)} {o : List Nat} {f : Nat}
    (h : Placed start ms o f) : o.length = ms.length := by
  induction h with
  | nil => rfl
  | cons _ _ ih => simp [ih]

/-! ## Plain members -/

theorem maxAlign_append (a b : List Member) : maxAlign (a ++ b) = max (maxAlign a) (maxAlign b) := by
  induction a with
  | nil => simp [maxAlign]
  | cons m a ih => simp only [List.cons_append, maxAlign, ih]; omega

theorem le_maxAlign {l : List Member} {m : Member} (h : m ∈ l) : m.ty.align ≤ maxAlign l := by
  induction l with
  | nil => simp at h
  | cons x l ih =>
    rw [maxAlign]
    rcases List.mem_cons.1 h with rfl | h
    · omega
    · have := ih h; omega

theorem maxAlign_mem {l : List Member} (h : l ≠ []) : ∃ m ∈ l, m.ty.align = maxAlign l := by
  induction l with
  | nil => simp at h
  | cons x l ih =>
    by_cases hl : l = []
    · subst hl; exact ⟨x, by simp, by simp [maxAlign]⟩
    · obtain ⟨m, hm, he⟩ := ih hl
      rw [maxAlign]
      rcases Nat.le_total x.ty.align (maxAlign l) with hle | hle
      · exact ⟨m, by simp [hm], by rw [he]; omega⟩
      · exact ⟨x, by simp, by omega⟩

theorem largest_maxAlign {l : List Member} (h : l ≠ []) : Largest (l.map fun m => m.ty.align) (maxAlign l) := by
  obtain ⟨m, hm, he⟩ := maxAlign_mem h
  refine ⟨List.mem_map.2 ⟨m, hm, he⟩, fun y hy => ?_⟩
  obtain ⟨x, hx, rfl⟩ := List.mem_map.1 hy
  exact le_maxAlign hx

theorem release_plain {a : Agg} (h : ∀ m, a.members.getLast? = some m → m.backing = 0) : release a = .ok a := by
  unfold release
  split
  · rfl
  · rename_i m hm
    rw [if_pos (h m hm)]

/-- Names are distinct and not empty, and at most one member is an array of size zero. -/
structure Fresh (a : Agg) (name : Bytes) (ty : MTy) : Prop where
  named : name ≠ []
  new : ∀ m ∈ a.members, m.name ≠ name
  size : ty.size ≠ 0 ∨ (ty.isArray ∧ a.flexible = false)
  flex : ty.isFlexible = false ∨ a.isUnion = true

theorem addMember_ok {a : Agg} {m : Member} (h1 : m.name ≠ [] → ∀ x ∈ a.members, x.name ≠ m.name)
    (h2 : m.ty.size ≠ 0 ∨ (m.ty.isArray ∧ a.flexible = false))
    (h3 : m.ty.isFlexible = false ∨ a.isUnion = true) (h4 : m.offset + m.ty.size ≤ longMax) :
    addMember a m = .ok { a with
      members := a.members ++ [m]
      flexible := a.flexible || m.ty.size == 0 || m.ty.isFlexible
      size := max a.size (m.offset + m.ty.size) } := by
  have hL : longMax = 2 ^ 63 - 1 := rfl
  unfold addMember
  rw [if_neg, if_neg, if_neg, if_neg]
  · have : (m.offset + m.ty.size) % 2 ^ 64 = m.offset + m.ty.size := Nat.mod_eq_of_lt (by omega)
    rw [this]
    congr 2
    split_ifs <;> omega
  · have : (longMax + 2 ^ 64 - m.offset) % 2 ^ 64 = longMax - m.offset := by omega
    omega
  · rintro ⟨h, h'⟩
    rcases h3 with h3 | h3
    · simp [h3] at h
    · exact h' h3
  · rintro ⟨h, h'⟩
    rcases h2 with h2 | h2
    · exact h2 h
    · exact h' ⟨h2.1, by simp [h2.2]⟩
  · rintro ⟨h, h'⟩
    simp only [List.any_eq_true, beq_iff_eq] at h'
    obtain ⟨x, hx, he⟩ := h'
    exact h1 h x hx he

theorem typeAddMember_plain {a : Agg} {name : Bytes} {ty : MTy} (hf : Fresh a name ty) (hs : a.isUnion = false)
    (hl : ∀ m, a.members.getLast? = some m → m.backing = 0) (hal : 0 < ty.align)
    (hfit : up a.size ty.align + ty.size ≤ longMax) :
    typeAddMember a name ty = .ok { a with
      members := a.members ++ [{ name := name, ty := ty, offset := up a.size ty.align }]
      flexible := a.flexible || ty.size == 0 || ty.isFlexible
      size := up a.size ty.align + ty.size } := by
  have hL : longMax = 2 ^ 63 - 1 := rfl
  have hle := (lowest_up a.size hal).2.1
  have hal' : a.size + ty.align ≤ 2 ^ 64 ∨ ty.align > 2 ^ 63 := by omega
  have hat : alignTo a.size ty.align = up a.size ty.align := by
    unfold alignTo
    unfold up at *
    split_ifs at * with h
    · exact Nat.mod_eq_of_lt (by omega)
    · rfl
  unfold typeAddMember adjust
  simp only [hs, Bool.false_eq_true, if_false, release_plain hl]
  simp only [bind, Except.bind, pure, Except.pure]
  rw [if_neg (by omega)]
  simp only [hat]
  rw [addMember_ok]
  · simp only [hs]
    congr 2
    omega
  · exact fun _ => hf.new
  · exact hf.size
  · rcases hf.flex with h | h
    · exact .inl h
    · simp [hs] at h
  · exact hfit

theorem typeAddMember_union {a : Agg} {name : Bytes} {ty : MTy} (hf : Fresh a name ty) (hs : a.isUnion = true)
    (hfit : ty.size ≤ longMax) :
    typeAddMember a name ty = .ok { a with
      members := a.members ++ [{ name := name, ty := ty, offset := 0 }]
      flexible := a.flexible || ty.size == 0 || ty.isFlexible
      size := max a.size ty.size } := by
  unfold typeAddMember adjust
  simp only [hs, if_true]
  simp only [bind, Except.bind]
  rw [addMember_ok]
  · simp [hs]
  · exact fun _ => hf.new
  · exact hf.size
  · exact hf.flex
  · simpa using hfit

end Verif.Layout
