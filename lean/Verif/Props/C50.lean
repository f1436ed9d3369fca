import Verif.Dwarf.Lemmas

/-!
# C50: unsigned LEB128 numbers; C81: the debug information of a unit

`C50_roundtrip` and `C50_length` are for `ULEB128_encode`.  Numbers are written through a
buffer of 8 bytes, which is too small for numbers from 2^56 on (`C50_buffer_violated`), and an
assertion stops the compiler at numbers from 128 on (`C50_assertion_violated`); the numbers
that are written are all smaller (`C50_written_partial`, `C81_unit_partial`).

`C81_unit_partial`: what is written for `-g`, linked at any address and read by the rules of DWARF
version 4, is a compile unit with the name of the file, the producer, the language, and
the address and size of the code.  Missing: the list of abbreviations has no end
(`C81_terminator_violated`), and the reader has to take the end of the section for it.
-/

namespace Verif.Dwarf
open Spec

theorem C50_roundtrip (v : Nat) (rest : Bytes) : readUleb (uleb v ++ rest) = some (v, rest) := readUleb_uleb v rest

example : uleb 624485 = [0xe5, 0x8e, 0x26] ∧ readUleb [0xe5, 0x8e, 0x26, 7] = some (624485, [7]) := by
  constructor
  · rw [uleb, if_neg (by decide), uleb, if_neg (by decide), uleb, if_pos (by decide)]; decide
  · decide

/-- The encoding has the least number of bytes that can hold the number, at most ten for
an `unsigned long`. -/
theorem C50_length (v k : Nat) : (0 < k → ((uleb v).length ≤ k ↔ v < 128 ^ k)) ∧ (v < 2 ^ 64 → (uleb v).length ≤ 10) :=
  ⟨uleb_length v k, fun h => (uleb_length v 10 (by omega)).mpr (by omega)⟩

/-- Numbers for which the encoding is longer than the buffer. -/
theorem C50_buffer_violated : ∀ v, 2 ^ 56 ≤ v → 8 < (uleb v).length := by
  intro v hv
  have := uleb_length v 8 (by omega)
  omega

example : (2 : Nat) ^ 56 ≤ 2 ^ 64 - 1 := by decide

/-- Numbers with which the compiler stops, though they can be encoded in two bytes. -/
theorem C50_assertion_violated : ∀ v, 128 ≤ v → writeUleb v = none := fun _ => writeUleb_large

theorem C50_written_partial (v : Nat) (h : v < 128) : ∃ b, writeUleb v = some b ∧ ∀ rest, readUleb (b ++ rest) = some (v, rest) :=
  ⟨_, writeUleb_small h, fun rest => readUleb_small h rest⟩

example : writeUleb 0x25 = some [0x25] := writeUleb_small (by decide)

/-- The unit is written for every name of a file of reasonable length. -/
theorem C81_written (file : Bytes) (std : Standard) (ts : Nat) (h : file.length < 2 ^ 31) : ∃ st, flush file std ts = some st := by
  have u : ∀ v, v < 128 → writeUleb v = some [UInt8.ofNat v] := fun v => writeUleb_small
  unfold flush writeEntry
  rw [u 1 (by omega), u 0x11 (by omega), u 0 (by omega)]
  by_cases ht : ts = 0
  · subst ht
    simp only [rootAttributes, writeAttributes, writeAttribute, Value.form, ne_eq, not_true_eq_false, if_false, List.append_nil,
      u 3 (by omega), u 8 (by omega), u 0x25 (by omega), u 0x13 (by omega), u 0x0b (by omega), Option.bind_eq_bind,
      Option.bind_some]
    rw [if_pos (by simp [le]; omega)]
    exact ⟨_, rfl⟩
  · simp only [rootAttributes, writeAttributes, writeAttribute, Value.form, ne_eq, ht, not_false_eq_true, if_true,
      List.append_assoc, List.cons_append, List.nil_append,
      u 3 (by omega), u 8 (by omega), u 0x25 (by omega), u 0x13 (by omega), u 0x0b (by omega), u 0x11 (by omega), u 0x12 (by omega),
      u 1 (by omega), u 7 (by omega), Option.bind_eq_bind, Option.bind_some]
    rw [if_pos (by simp [le]; omega)]
    exact ⟨_, rfl⟩

/-- `image st base` is the section `.debug_info` when `.text` is at the address `base`. -/
theorem C81_unit_partial {file : Bytes} {std : Standard} {ts : Nat} {st : St} (h : flush file std ts = some st) (hf : 0 ∉ file)
    (hts : ts < 2 ^ 64) {base : Nat} (hb : base < 2 ^ 64) :
    readUnit true (image st base) st.abbr = some {
      version := 4
      addressSize := 8
      tag := 0x11
      attrs := [(0x03, .str file), (0x25, .str (str% "lacc")),
        (0x13, .num (match std with | .c89 => 0x01 | .c99 => 0x0c | .c11 => 0x1d))] ++
        (if ts = 0 then [] else [(0x11, .addr base), (0x12, .num ts)])
      rest := [] } := by
  rw [read_unit h hf hts hb]
  by_cases ht : ts = 0
  · cases std <;> simp [ht, Standard.language]
  · cases std <;> simp [ht, Standard.language]

example : ∃ st, flush (str% "a.c") .c99 77 = some st ∧ st.rela = [22] ∧
    (image st 0x401000).drop 22 = [0, 0x10, 0x40, 0, 0, 0, 0, 0, 77, 0, 0, 0, 0, 0, 0, 0, 0] := by
  obtain ⟨st, h⟩ := C81_written (str% "a.c") .c99 77 (by decide)
  refine ⟨st, h, ?_, ?_⟩
  · rw [(flush_eq h).2.2.1]; decide
  · rw [image_eq h]; decide

/-- No output has the end of the abbreviations which the standard asks for. -/
theorem C81_terminator_violated {file : Bytes} {std : Standard} {ts : Nat} {st : St} (h : flush file std ts = some st) (fuel : Nat) :
    readAbbrevs false fuel st.abbr = none := by
  rw [(flush_eq h).2.1]
  exact read_table_strict ts fuel

end Verif.Dwarf
