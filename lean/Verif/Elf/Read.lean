import Verif.Elf.Places

/-! Reading names, symbols and relocations back. -/

namespace Verif.Elf

open Encode (le Code Fix le_length le_lt value_le)
open Reader (num)

/-! ## Names -/

theorem str_of (t n post : List Nat) (o : Nat) (hn : 0 ∉ n) (h : t.drop o = n ++ 0 :: post) :
    Reader.str t o = some n := by
  unfold Reader.str
  rw [h, if_pos (by simp)]
  congr 1
  rw [List.takeWhile_append_of_pos (by
    intro a ha
    have : a ≠ 0 := fun g => hn (g ▸ ha)
    simpa using this)]
  simp

theorem Named.str {strs : List Nat} {d : Decl} (h : Named strs d) : Reader.str strs d.name = some d.sym.name := by
  obtain ⟨_, h2, post, h3⟩ := h
  exact str_of _ _ post _ h2 h3

theorem shNames_str : ∀ k < 9, Reader.str (shNames 9) (shNames k).length = some (shName (k + 1)) := by
  decide +kernel

/-! ## Symbols -/

theorem symbol_at (L : List Ent) (i : Nat) (e : Ent) (h : L[i]? = some e) (h1 : e.name < 2 ^ 32) (h2 : e.info < 256)
    (h3 : e.shndx < 2 ^ 16) (h4 : e.value < 2 ^ 64) (h5 : e.size < 2 ^ 64) :
    Reader.symbol (L.flatMap Ent.bytes) i = ⟨e.name, e.info / 16, e.info % 16, e.shndx, e.value, e.size⟩ := by
  obtain ⟨a, b, hab, hal⟩ := entries_split L i e h
  have hlen : (a.flatMap Ent.bytes).length = 24 * i := by rw [entries_length, hal]
  have hk : L.flatMap Ent.bytes = a.flatMap Ent.bytes ++ e.bytes ++ b.flatMap Ent.bytes := by
    rw [hab, List.flatMap_append, List.flatMap_cons, List.append_assoc]
  generalize a.flatMap Ent.bytes = A at hlen hk
  generalize b.flatMap Ent.bytes = C at hk
  have hm : e.info % 256 = e.info := Nat.mod_eq_of_lt h2
  have q1 : num (L.flatMap Ent.bytes) (24 * i) 4 = e.name := by
    rw [hk]
    have := num_skip A (e.bytes ++ C) 0 4 (24 * i) hlen
    rw [Nat.add_zero, ← List.append_assoc] at this
    rw [this, Ent.bytes]
    simp only [List.append_assoc]
    exact num_le 4 _ _ (by omega)
  have q2 : num (L.flatMap Ent.bytes) (24 * i + 4) 1 = e.info := by
    rw [hk]
    have := num_skip A (e.bytes ++ C) 4 1 (24 * i) hlen
    rw [← List.append_assoc] at this
    rw [this, Ent.bytes]
    simp only [List.append_assoc]
    have := num_skip (le 4 e.name) ([e.info % 256, 0] ++ (le 2 e.shndx ++ (le 8 e.value ++ (le 8 e.size ++ C)))) 0 1 4 (le_length 4 _)
    rw [Nat.add_zero] at this
    rw [this]
    simp [num, Encode.Intel.value, hm]
  have q3 : num (L.flatMap Ent.bytes) (24 * i + 6) 2 = e.shndx := by
    rw [hk]
    have := num_skip A (e.bytes ++ C) 6 2 (24 * i) hlen
    rw [← List.append_assoc] at this
    rw [this, Ent.bytes]
    rw [show le 4 e.name ++ [e.info % 256, 0] ++ le 2 e.shndx ++ le 8 e.value ++ le 8 e.size ++ C
      = (le 4 e.name ++ [e.info % 256, 0]) ++ (le 2 e.shndx ++ (le 8 e.value ++ (le 8 e.size ++ C))) by
      simp only [List.append_assoc]]
    have := num_skip (le 4 e.name ++ [e.info % 256, 0]) (le 2 e.shndx ++ (le 8 e.value ++ (le 8 e.size ++ C))) 0 2 6
      (by simp [le_length])
    rw [Nat.add_zero] at this
    rw [this]
    exact num_le 2 _ _ (by omega)
  have q4 : num (L.flatMap Ent.bytes) (24 * i + 8) 8 = e.value := by
    rw [hk]
    have := num_skip A (e.bytes ++ C) 8 8 (24 * i) hlen
    rw [← List.append_assoc] at this
    rw [this, Ent.bytes]
    rw [show le 4 e.name ++ [e.info % 256, 0] ++ le 2 e.shndx ++ le 8 e.value ++ le 8 e.size ++ C
      = (le 4 e.name ++ [e.info % 256, 0] ++ le 2 e.shndx) ++ (le 8 e.value ++ (le 8 e.size ++ C)) by
      simp only [List.append_assoc]]
    have := num_skip (le 4 e.name ++ [e.info % 256, 0] ++ le 2 e.shndx) (le 8 e.value ++ (le 8 e.size ++ C)) 0 8 8
      (by simp [le_length])
    rw [Nat.add_zero] at this
    rw [this]
    exact num_le 8 _ _ (by omega)
  have q5 : num (L.flatMap Ent.bytes) (24 * i + 16) 8 = e.size := by
    rw [hk]
    have := num_skip A (e.bytes ++ C) 16 8 (24 * i) hlen
    rw [← List.append_assoc] at this
    rw [this, Ent.bytes]
    rw [show le 4 e.name ++ [e.info % 256, 0] ++ le 2 e.shndx ++ le 8 e.value ++ le 8 e.size ++ C
      = (le 4 e.name ++ [e.info % 256, 0] ++ le 2 e.shndx ++ le 8 e.value) ++ (le 8 e.size ++ C) by
      simp only [List.append_assoc]]
    have := num_skip (le 4 e.name ++ [e.info % 256, 0] ++ le 2 e.shndx ++ le 8 e.value) (le 8 e.size ++ C) 0 8 16
      (by simp [le_length])
    rw [Nat.add_zero] at this
    rw [this]
    exact num_le 8 _ _ (by omega)
  unfold Reader.symbol
  rw [q1, q2, q3, q4, q5]

/-! ## Relocations -/

theorem rela_length (off : Nat → Nat) (p : Pend) : (relaBytes off p).length = 24 := by
  simp [relaBytes, le_length]

theorem relas_length (off : Nat → Nat) (l : List Pend) : (l.flatMap (relaBytes off)).length = 24 * l.length := by
  induction l with
  | nil => rfl
  | cons p l ih => rw [List.flatMap_cons, List.length_append, ih, rela_length, List.length_cons]; omega

/-- The addend recorded in the file. -/
def relaAddend (p : Pend) : Int := p.addend - if p.type = 2 ∨ p.type = 4 ∨ p.type = 9 then 4 else 0

theorem rela_at (off : Nat → Nat) (l : List Pend) (j : Nat) (p : Pend) (h : l[j]? = some p)
    (h1 : p.offset < 2 ^ 64) (h2 : off p.sym < 2 ^ 32) (h3 : p.type < 2 ^ 32)
    (h4 : -2 ^ 63 ≤ relaAddend p) (h5 : relaAddend p < 2 ^ 63) :
    Reader.rela (l.flatMap (relaBytes off)) j = ⟨p.offset, off p.sym, p.type, relaAddend p⟩ := by
  have hj : j < l.length := by
    rcases Nat.lt_or_ge j l.length with g | g
    · exact g
    · rw [List.getElem?_eq_none g] at h; cases h
  have hsp : l.flatMap (relaBytes off) = (l.take j).flatMap (relaBytes off) ++ (relaBytes off p ++ (l.drop (j + 1)).flatMap (relaBytes off)) := by
    have e : l = l.take j ++ p :: l.drop (j + 1) := by
      rw [List.getElem?_eq_getElem hj] at h
      cases h
      rw [List.getElem_cons_drop, List.take_append_drop]
    conv => lhs; rw [e]
    rw [List.flatMap_append, List.flatMap_cons]
  have hlen : ((l.take j).flatMap (relaBytes off)).length = 24 * j := by
    rw [relas_length, List.length_take]; omega
  rw [hsp]
  generalize (l.take j).flatMap (relaBytes off) = A at hlen
  generalize (l.drop (j + 1)).flatMap (relaBytes off) = C
  have hadd : relaBytes off p = le 8 p.offset ++ le 8 ((off p.sym : Int) * 4294967296 + p.type) ++ le 8 (relaAddend p) := rfl
  generalize relaAddend p = a at h4 h5 hadd
  have q1 : num (A ++ (relaBytes off p ++ C)) (24 * j) 8 = p.offset := by
    have := num_skip A (relaBytes off p ++ C) 0 8 (24 * j) hlen
    rw [Nat.add_zero] at this
    rw [this, hadd]
    simp only [List.append_assoc]
    exact num_le 8 _ _ (by omega)
  have q2 : num (A ++ (relaBytes off p ++ C)) (24 * j + 8) 8 = off p.sym * 4294967296 + p.type := by
    rw [num_skip A (relaBytes off p ++ C) 8 8 (24 * j) hlen, hadd]
    simp only [List.append_assoc]
    have := num_skip (le 8 p.offset) (le 8 ((off p.sym : Int) * 4294967296 + p.type) ++ (le 8 a ++ C)) 0 8 8 (le_length _ _)
    rw [Nat.add_zero] at this
    rw [this]
    have e : ((off p.sym : Int) * 4294967296 + p.type) = ((off p.sym * 4294967296 + p.type : Nat) : Int) := by omega
    rw [e]
    exact num_le 8 _ _ (by omega)
  have q3 : (num (A ++ (relaBytes off p ++ C)) (24 * j + 16) 8 : Int) = a % (256 ^ 8 : Nat) := by
    rw [num_skip A (relaBytes off p ++ C) 16 8 (24 * j) hlen, hadd]
    rw [List.append_assoc _ (le 8 a) C]
    have := num_skip (le 8 p.offset ++ le 8 ((off p.sym : Int) * 4294967296 + p.type)) (le 8 a ++ C) 0 8 16 (by simp [le_length])
    rw [Nat.add_zero] at this
    rw [this]
    exact num_le_mod 8 a C
  have q4 : Reader.signed64 (num (A ++ (relaBytes off p ++ C)) (24 * j + 16) 8) = a := by
    unfold Reader.signed64
    split_ifs <;> omega
  unfold Reader.rela
  rw [q1, q2, q4]
  have e1 : (off p.sym * 4294967296 + p.type) / 4294967296 = off p.sym := by omega
  have e2 : (off p.sym * 4294967296 + p.type) % 4294967296 = p.type := by omega
  rw [e1, e2]

end Verif.Elf
