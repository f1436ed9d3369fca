import Verif.Elf.Model
import Verif.Elf.Spec
import Verif.Encode.Lemmas
import Verif.Tac

namespace Verif.Elf

open Encode (le le_length le_lt value_le)
open Encode.Intel (value)
open Reader (num)

/-! ## Numbers in memory -/

theorem foldr_value (l : List Nat) : l.foldr (fun x v => x + 256 * v) 0 = value l := by
  induction l with
  | nil => rfl
  | cons a l ih => simp [value, ih]

theorem peek_eq (b : List Nat) (o n : Nat) : peek b o n = num b o n := by
  unfold peek num
  exact foldr_value _

/-- Reading at the start of a suffix. -/
theorem num_append (a b : List Nat) (o n : Nat) (h : a.length ≤ o) : num (a ++ b) o n = num b (o - a.length) n := by
  unfold num
  rw [List.drop_append, List.drop_eq_nil_of_le h]
  simp

theorem num_left (a b : List Nat) (o n : Nat) (h : o + n ≤ a.length) : num (a ++ b) o n = num a o n := by
  unfold num
  rw [List.drop_append_of_le_length (by omega), List.take_append_of_le_length]
  simp; omega

theorem num_le (n : Nat) (x : Nat) (t : List Nat) (h : x < 256 ^ n) : num (le n x ++ t) 0 n = x := by
  unfold num
  have e : ((le n (x : Int) ++ t).drop 0).take n = le n x := by
    rw [List.drop_zero, List.take_append_of_le_length (by rw [le_length])]
    exact List.take_of_length_le (by rw [le_length])
  rw [e]
  have := value_le n (x : Int)
  have h2 : ((x : Int) % (256 ^ n : Nat)) = x := Int.emod_eq_of_lt (by omega) (by exact_mod_cast h)
  rw [h2] at this
  exact_mod_cast this

theorem num_le_mod (n : Nat) (x : Int) (t : List Nat) : (num (le n x ++ t) 0 n : Int) = x % (256 ^ n : Nat) := by
  unfold num
  have e : ((le n x ++ t).drop 0).take n = le n x := by
    rw [List.drop_zero, List.take_append_of_le_length (by rw [le_length])]
    exact List.take_of_length_le (by rw [le_length])
  rw [e]
  exact value_le n x

/-- Reading the member after some others. -/
theorem num_skip (a t : List Nat) (o n : Nat) (k : Nat) (hk : a.length = k) : num (a ++ t) (k + o) n = num t o n := by
  subst hk
  rw [num_append _ _ _ _ (by omega)]
  congr 1
  omega

/-! ## Writing to a section -/

/-- What a section keeps when it is written to. -/
structure Same (s s' : Sec) : Prop where
  name : s'.name = s.name
  type : s'.type = s.type
  flags : s'.flags = s.flags
  link : s'.link = s.link
  info : s'.info = s.info
  entsize : s'.entsize = s.entsize

theorem Same.rfl {s : Sec} : Same s s := ⟨Eq.refl _, Eq.refl _, Eq.refl _, Eq.refl _, Eq.refl _, Eq.refl _⟩

theorem Same.trans {a b c : Sec} (h : Same a b) (g : Same b c) : Same a c :=
  ⟨g.name.trans h.name, g.type.trans h.type, g.flags.trans h.flags, g.link.trans h.link,
    g.info.trans h.info, g.entsize.trans h.entsize⟩

/-- The buffer holds what the size says, within its capacity. -/
structure SecOk (s : Sec) : Prop where
  len : s.buf.length = s.size
  cap : s.size ≤ s.cap
  fresh : s.cap = 0 ∨ s.size ≠ 0

theorem write_eq {s : Sec} {d : List Nat} (ht : s.type ≠ .nobits) {s' : Sec} {o : Nat}
    (h : s.write d = some (s', o)) :
    o = s.size ∧ s'.size = s.size + d.length ∧ s'.buf = s.buf ++ d ∧ s'.align = s.align ∧ Same s s' := by
  unfold Sec.write at h
  by_cases h1 : s.type = .nobits ∨ d.length = 0
  · simp only [if_pos h1] at h
    cases h
    have : d = [] := by
      rcases h1 with h1 | h1
      · exact absurd h1 ht
      · exact List.length_eq_zero_iff.mp h1
    subst this
    exact ⟨rfl, rfl, by simp, rfl, ⟨rfl, rfl, rfl, rfl, rfl, rfl⟩⟩
  · simp only [if_neg h1] at h
    split_ifs at h <;> cases h <;> exact ⟨rfl, rfl, rfl, rfl, ⟨rfl, rfl, rfl, rfl, rfl, rfl⟩⟩

theorem write_ok {s : Sec} (ok : SecOk s) (ht : s.type ≠ .nobits) (d : List Nat) :
    ∃ s', s.write d = some (s', s.size) ∧ SecOk s' := by
  obtain ⟨hl, hc, hf⟩ := ok
  unfold Sec.write
  by_cases h1 : s.type = .nobits ∨ d.length = 0
  · simp only [if_pos h1]
    have hd : d.length = 0 := by
      rcases h1 with h1 | h1
      · exact absurd h1 ht
      · exact h1
    refine ⟨_, rfl, ⟨?_, ?_, ?_⟩⟩ <;> simp only <;> omega
  · simp only [if_neg h1]
    have hd : d.length ≠ 0 := fun g => h1 (.inr g)
    by_cases h2 : s.size + d.length ≥ s.cap
    · rw [if_pos h2]
      by_cases h3 : s.cap = 0
      · rw [if_pos h3, if_pos (show s.size = 0 by omega)]
        refine ⟨_, rfl, ⟨?_, ?_, ?_⟩⟩ <;> simp only [List.length_append] <;> omega
      · rw [if_neg h3, if_pos (show s.size ≠ 0 by omega)]
        refine ⟨_, rfl, ⟨?_, ?_, ?_⟩⟩ <;> simp only [List.length_append] <;> omega
    · rw [if_neg h2]
      refine ⟨_, rfl, ⟨?_, ?_, ?_⟩⟩ <;> simp only [List.length_append] <;> omega

end Verif.Elf
