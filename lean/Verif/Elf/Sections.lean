import Verif.Elf.File
import Verif.Elf.Object

/-! Growing sections: bytes, strings and symbol table entries. -/

namespace Verif.Elf

open Encode (le Code Fix le_length le_lt value_le)
open Encode.Intel (value)
open Reader (num)

theorem le_congr (n : Nat) (x y : Int) (h : x % (256 ^ n : Nat) = y % (256 ^ n : Nat)) : le n x = le n y := by
  induction n generalizing x y with
  | zero => rfl
  | succ n ih =>
    have hp : ((256 ^ (n + 1) : Nat) : Int) = 256 * (256 ^ n : Nat) := by
      rw [Nat.pow_succ]; push_cast; omega
    rw [hp] at h
    have k1 : x % 256 = y % 256 := by
      have := congrArg (· % (256 : Int)) h
      simp only [Int.emod_emod_of_dvd _ (Int.dvd_mul_right (256 : Int) _)] at this
      exact this
    have k2 : x / 256 % (256 ^ n : Nat) = y / 256 % (256 ^ n : Nat) := by
      have hx : x % (256 * ((256 ^ n : Nat) : Int)) / 256 = x / 256 % (256 ^ n : Nat) := by
        generalize ((256 ^ n : Nat) : Int) = m
        rw [Int.emod_def, Int.emod_def, ← Int.ediv_ediv_of_nonneg (by decide)]
        rw [Int.mul_assoc, Int.sub_eq_add_neg, ← Int.mul_neg, Int.add_mul_ediv_left _ _ (by decide)]
        omega
      have hy : y % (256 * ((256 ^ n : Nat) : Int)) / 256 = y / 256 % (256 ^ n : Nat) := by
        generalize ((256 ^ n : Nat) : Int) = m
        rw [Int.emod_def, Int.emod_def, ← Int.ediv_ediv_of_nonneg (by decide)]
        rw [Int.mul_assoc, Int.sub_eq_add_neg, ← Int.mul_neg, Int.add_mul_ediv_left _ _ (by decide)]
        omega
      rw [← hx, ← hy, h]
    unfold le
    rw [k1, ih _ _ k2]

/-! ## Bytes -/

/-- A section with contents `b`, in order. -/
structure Holds (s : Sec) (b : List Nat) : Prop where
  ok : SecOk s
  type : s.type ≠ .nobits
  align : s.align ≤ 16
  buf : s.buf = b

theorem Holds.size {s : Sec} {b : List Nat} (h : Holds s b) : s.size = b.length := by
  rw [← h.ok.len, h.buf]

theorem Holds.write {s : Sec} {b : List Nat} (h : Holds s b) (d : List Nat) :
    ∃ s', s.write d = some (s', b.length) ∧ Holds s' (b ++ d) ∧ Same s s' ∧ s'.align = s.align := by
  obtain ⟨s', h1, h2⟩ := write_ok h.ok h.type d
  obtain ⟨_, k2, k3, k4, k5⟩ := write_eq h.type h1
  refine ⟨s', by rw [h1, h.size], ⟨h2, ?_, ?_, ?_⟩, k5, k4⟩
  · rw [k5.type]; exact h.type
  · rw [k4]; exact h.align
  · rw [k3, h.buf]

theorem Holds.withAlign {s : Sec} {b : List Nat} (h : Holds s b) (a : Nat) (ha : a ≤ 16) :
    Holds { s with align := a } b := ⟨⟨h.ok.len, h.ok.cap, h.ok.fresh⟩, h.type, ha, h.buf⟩

theorem padTo_eq (a n : Nat) (ha : 0 < a) : padTo a n = if n % a = 0 then 0 else a - n % a := by
  unfold padTo
  have := Nat.mod_lt n ha
  split_ifs with h
  · rw [h]; simp
  · exact Nat.mod_eq_of_lt (by omega)

theorem padTo_dvd (a n : Nat) (ha : 0 < a) : (n + padTo a n) % a = 0 := by
  rw [padTo_eq a n ha]
  have := Nat.mod_lt n ha
  split_ifs with h
  · simpa using h
  · have e : n + (a - n % a) = a * (n / a + 1) := by
      have := Nat.div_add_mod n a
      rw [Nat.mul_add]
      omega
    rw [e]
    exact Nat.mul_mod_right _ _

theorem Holds.alignTo {s : Sec} {b : List Nat} (h : Holds s b) {a : Nat} (h0 : 0 < a) (h1 : a ≤ 16) :
    ∃ s', s.alignTo a = some s' ∧ Holds s' (padded a b) ∧ Same s s' := by
  unfold Sec.alignTo
  rw [if_neg (by omega)]
  have key : ∀ t : Sec, Holds t b → Same s t → ∃ s',
      (if t.size % a ≠ 0 then (t.write (List.replicate (a - t.size % a) 0)).map (·.1) else some t) = some s'
        ∧ Holds s' (padded a b) ∧ Same s s' := by
    intro t ht hs
    have hp := padTo_eq a b.length h0
    by_cases g : b.length % a = 0
    · rw [if_neg (by rw [ht.size]; simpa using g)]
      refine ⟨t, rfl, ?_, hs⟩
      rw [if_pos g] at hp
      unfold padded
      rw [hp]
      simpa using ht
    · rw [if_pos (by rw [ht.size]; exact g)]
      obtain ⟨s', k1, k2, k3, _⟩ := ht.write (List.replicate (a - t.size % a) 0)
      rw [if_neg g] at hp
      refine ⟨s', by rw [k1]; rfl, ?_, hs.trans k3⟩
      unfold padded
      rw [hp, ← ht.size]
      exact k2
  split_ifs with g
  · exact key _ (h.withAlign a h1) ⟨rfl, rfl, rfl, rfl, rfl, rfl⟩
  · exact key _ h Same.rfl

theorem Holds.addString {s : Sec} {b : List Nat} (h : Holds s b) (hb : b ≠ []) (n : List Nat) :
    ∃ s', s.addString n = some (s', b.length) ∧ Holds s' (b ++ (n ++ [0])) ∧ Same s s' := by
  obtain ⟨s', k1, k2, k3, _⟩ := h.write (n ++ [0])
  refine ⟨s', ?_, k2, k3⟩
  unfold Sec.addString
  rw [if_neg (by rw [h.size]; exact fun g => hb (List.length_eq_zero_iff.mp g))]
  exact k1

/-- The first string is preceded by an empty one. -/
theorem Holds.addString_nil {s : Sec} (h : Holds s []) (n : List Nat) :
    ∃ s', s.addString n = some (s', 1) ∧ Holds s' ([0] ++ (n ++ [0])) ∧ Same s s' := by
  obtain ⟨s1, k1, k2, k3, _⟩ := h.write [0]
  obtain ⟨s', l1, l2, l3, _⟩ := k2.write (n ++ [0])
  refine ⟨s', ?_, l2, k3.trans l3⟩
  unfold Sec.addString
  rw [if_pos (by rw [h.size]; rfl), k1]
  exact l1

/-- Where nothing is stored. -/
structure Space (s : Sec) (n : Nat) : Prop where
  type : s.type = .nobits
  align : s.align ≤ 16
  size : s.size = n
  offset : s.offset = 0

theorem Space.alignTo {s : Sec} {n : Nat} (h : Space s n) {a : Nat} (h0 : 0 < a) (h1 : a ≤ 16) :
    ∃ s', s.alignTo a = some s' ∧ Space s' (n + padTo a n) ∧ Same s s' := by
  unfold Sec.alignTo
  rw [if_neg (by omega)]
  have key : ∀ t : Sec, Space t n → Same s t → ∃ s',
      (if t.size % a ≠ 0 then (t.write (List.replicate (a - t.size % a) 0)).map (·.1) else some t) = some s'
        ∧ Space s' (n + padTo a n) ∧ Same s s' := by
    intro t ht hs
    rw [ht.size, padTo_eq a n h0]
    by_cases g : n % a = 0
    · rw [if_neg (by simpa using g), if_pos g]
      exact ⟨t, rfl, ⟨ht.type, ht.align, by rw [ht.size]; rfl, ht.offset⟩, hs⟩
    · rw [if_pos g, if_neg g]
      unfold Sec.write
      simp only [if_pos (show t.type = .nobits ∨ (List.replicate (a - n % a) 0).length = 0 from .inl ht.type)]
      refine ⟨_, rfl, ⟨ht.type, ht.align, ?_, ht.offset⟩, hs.trans ⟨rfl, rfl, rfl, rfl, rfl, rfl⟩⟩
      simp only [List.length_replicate, ht.size]
  split_ifs with g
  · exact key _ ⟨h.type, h1, h.size, h.offset⟩ ⟨rfl, rfl, rfl, rfl, rfl, rfl⟩
  · exact key _ h Same.rfl

/-! ## Entries -/

theorem bytes_length (e : Ent) : e.bytes.length = 24 := by
  simp [Ent.bytes, le_length]

theorem entries_length (L : List Ent) : (L.flatMap Ent.bytes).length = 24 * L.length := by
  induction L with
  | nil => rfl
  | cons e L ih =>
    simp only [List.flatMap_cons, List.length_append, bytes_length, ih, List.length_cons]
    omega

theorem bytes_zero : (⟨0, 0, 0, 0, 0⟩ : Ent).bytes = List.replicate 24 0 := by decide

/-- The bytes of entry `i`. -/
theorem entries_split (L : List Ent) (i : Nat) (e : Ent) (h : L[i]? = some e) :
    ∃ a b, L = a ++ e :: b ∧ a.length = i := by
  have hi : i < L.length := by
    rcases Nat.lt_or_ge i L.length with g | g
    · exact g
    · rw [List.getElem?_eq_none g] at h; cases h
  rw [List.getElem?_eq_getElem hi] at h
  cases h
  refine ⟨L.take i, L.drop (i + 1), ?_, by simp; omega⟩
  rw [← List.drop_eq_getElem_cons hi, List.take_append_drop]

theorem bytes_info (e : Ent) (t : List Nat) : (e.bytes ++ t).getD 4 0 = e.info % 256 := by
  have : e.bytes ++ t = le 4 e.name ++ ((e.info % 256) :: (0 :: (le 2 e.shndx ++ (le 8 e.value ++ (le 8 e.size ++ t))))) := by
    simp [Ent.bytes, List.append_assoc]
  rw [this, List.getD_eq_getElem?_getD, List.getElem?_append_right (by rw [le_length]), le_length]
  rfl

theorem entries_info (L : List Ent) (i : Nat) (e : Ent) (t : List Nat) (h : L[i]? = some e) :
    (L.flatMap Ent.bytes ++ t).getD (24 * i + 4) 0 = e.info % 256 := by
  obtain ⟨a, b, rfl, rfl⟩ := entries_split L i e h
  rw [List.flatMap_append, List.flatMap_cons, List.append_assoc, List.append_assoc, List.getD_eq_getElem?_getD,
    List.getElem?_append_right (by rw [entries_length]; omega), entries_length,
    show 24 * a.length + 4 - 24 * a.length = 4 by omega, ← List.getD_eq_getElem?_getD, bytes_info]

theorem addEntry_eq {s : Sec} {L : List Ent} (h : Holds s (L.flatMap Ent.bytes)) (e l : Ent)
    (hl : L[L.length - 1]? = some l) :
    ∃ s', Holds s' ((L ++ [e]).flatMap Ent.bytes) ∧ Same s s' ∧
      s.addEntry e = if e.info / 16 = 1 ∧ s.info = 0 then some ({ s' with info := L.length }, L.length)
        else if e.info / 16 = l.info % 256 / 16 then some (s', L.length) else none := by
  obtain ⟨s', k1, k2, k3, _⟩ := h.write e.bytes
  have hne : L.length ≠ 0 := by
    intro g
    have : L = [] := List.length_eq_zero_iff.mp g
    subst this
    simp at hl
  refine ⟨s', by simpa using k2, k3, ?_⟩
  unfold Sec.addEntry
  have hs : s.size / 24 = L.length := by rw [h.size, entries_length]; omega
  have hb : s'.buf.getD (24 * (L.length - 1) + 4) 0 = l.info % 256 := by
    rw [k2.buf]
    exact entries_info L _ l _ hl
  simp only [hs, hne, if_false, k1, Option.map_some, Option.bind_eq_bind, Option.bind_some, k3.info, hb, false_or]

theorem addEntry_local {s : Sec} {L : List Ent} (h : Holds s (L.flatMap Ent.bytes)) (hne : L ≠ []) (e : Ent)
    (hL : ∀ x ∈ L, x.info < 16) (he : e.info < 16) :
    ∃ s', s.addEntry e = some (s', L.length) ∧ Holds s' ((L ++ [e]).flatMap Ent.bytes) ∧ Same s s' := by
  have hlen : L.length ≠ 0 := fun g => hne (List.length_eq_zero_iff.mp g)
  have hl : L[L.length - 1]? = some (L[L.length - 1]'(by omega)) := List.getElem?_eq_getElem _
  obtain ⟨s', k1, k2, k3⟩ := addEntry_eq h e _ hl
  have hx := hL _ (List.getElem_mem (show L.length - 1 < L.length by omega))
  refine ⟨s', ?_, k1, k2⟩
  rw [k3, if_neg (by omega), if_pos (by omega)]

theorem addEntry_global {s : Sec} {L : List Ent} (h : Holds s (L.flatMap Ent.bytes)) (hne : L ≠ []) (e : Ent)
    (he : e.info / 16 = 1)
    (hL : s.info = 0 ∨ ∀ l, L[L.length - 1]? = some l → l.info / 16 = 1) :
    ∃ s', s.addEntry e = some (s', L.length) ∧ Holds s' ((L ++ [e]).flatMap Ent.bytes)
      ∧ s'.info = (if s.info = 0 then L.length else s.info) ∧ s'.type = s.type ∧ s'.name = s.name
      ∧ s'.flags = s.flags ∧ s'.link = s.link ∧ s'.entsize = s.entsize := by
  have hlen : L.length ≠ 0 := fun g => hne (List.length_eq_zero_iff.mp g)
  have hl : L[L.length - 1]? = some (L[L.length - 1]'(by omega)) := List.getElem?_eq_getElem _
  obtain ⟨s', k1, k2, k3⟩ := addEntry_eq h e _ hl
  by_cases g : s.info = 0
  · rw [if_pos ⟨he, g⟩] at k3
    refine ⟨_, k3, ⟨⟨k1.ok.len, k1.ok.cap, k1.ok.fresh⟩, k1.type, k1.align, k1.buf⟩, ?_, k2.type, k2.name,
      k2.flags, k2.link, k2.entsize⟩
    rw [if_pos g]
  · rw [if_neg (fun w => g w.2)] at k3
    rcases hL with hL | hL
    · exact absurd hL g
    · have := hL _ hl
      rw [if_pos (by omega)] at k3
      refine ⟨_, k3, k1, ?_, k2.type, k2.name, k2.flags, k2.link, k2.entsize⟩
      rw [if_neg g, k2.info]

end Verif.Elf
