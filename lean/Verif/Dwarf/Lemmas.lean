import Verif.Dwarf.Model
import Verif.Dwarf.Spec

namespace Verif.Dwarf
open Spec

theorem toNat_ofNat {n : Nat} (h : n < 256) : (UInt8.ofNat n).toNat = n := by
  simp [UInt8.toNat_ofNat']; omega

theorem readUleb_uleb (v : Nat) (rest : Bytes) : readUleb (uleb v ++ rest) = some (v, rest) := by
  induction v using Nat.strongRecOn with
  | _ v ih =>
    rw [uleb]
    split_ifs with h
    · simp only [List.cons_append, List.nil_append, readUleb, toNat_ofNat (show v % 128 < 256 by omega)]
      rw [if_pos (by omega), show v % 128 = v by omega]
    · simp only [List.cons_append, readUleb, toNat_ofNat (show v % 128 + 128 < 256 by omega)]
      rw [if_neg (by omega), ih (v / 128) (by omega)]
      simp
      omega

theorem uleb_length (v k : Nat) (hk : 0 < k) : (uleb v).length ≤ k ↔ v < 128 ^ k := by
  induction k generalizing v with
  | zero => omega
  | succ k ih =>
    rw [uleb]
    split_ifs with h
    · have : 128 ^ (k + 1) ≥ 128 := by
        rw [Nat.pow_succ]
        have := Nat.pow_pos (n := k) (show 0 < 128 by omega)
        omega
      simp
      omega
    · simp only [List.length_cons]
      rcases Nat.eq_zero_or_pos k with rfl | hk'
      · have : 0 < (uleb (v / 128)).length := by
          rw [uleb]; split_ifs <;> simp
        constructor
        · intro hh; omega
        · intro hh; omega
      · have := ih (v / 128) hk'
        rw [Nat.pow_succ, ← Nat.div_lt_iff_lt_mul (by omega), ← this]
        omega

theorem writeUleb_small {v : Nat} (h : v < 128) : writeUleb v = some [UInt8.ofNat v] := by
  have : uleb v = [UInt8.ofNat v] := by
    rw [uleb, if_pos (by omega), show v % 128 = v by omega]
  simp [writeUleb, this]

theorem writeUleb_large {v : Nat} (h : 128 ≤ v) : writeUleb v = none := by
  have : ¬ (uleb v).length ≤ 1 := by rw [uleb_length v 1 (by omega)]; omega
  unfold writeUleb
  rw [if_neg]
  omega

theorem readUleb_small {v : Nat} (h : v < 128) (rest : Bytes) : readUleb (UInt8.ofNat v :: rest) = some (v, rest) := by
  simp only [readUleb, toNat_ofNat (show v < 256 by omega), if_pos h]

theorem readNum_le : ∀ (n v : Nat) (rest : Bytes), v < 256 ^ n → readNum n (le n v ++ rest) = some (v, rest)
  | 0, v, rest, h => by simp at h; subst h; rfl
  | n + 1, v, rest, h => by
    simp only [le, List.cons_append, readNum]
    rw [readNum_le n (v / 256) rest (by rw [Nat.pow_succ] at h; exact (Nat.div_lt_iff_lt_mul (by omega)).mpr h)]
    simp [toNat_ofNat (show v % 256 < 256 by omega)]
    omega

theorem le_length : ∀ n v, (le n v).length = n
  | 0, _ => rfl
  | n + 1, v => by simp [le, le_length n]

theorem num_eq : ∀ n v, relocate.num n v = le n v
  | 0, _ => rfl
  | n + 1, v => by simp [relocate.num, le, num_eq n]

theorem readString_append : ∀ (s rest : Bytes), 0 ∉ s → readString (s ++ 0 :: rest) = some (s, rest)
  | [], rest, _ => by simp [readString]
  | b :: s, rest, h => by
    simp only [List.mem_cons, not_or] at h
    simp only [List.cons_append, readString]
    rw [if_neg (fun e => h.1 e.symm), readString_append s rest h.2]
    rfl

/-- What comes before the relocated address. -/
def front (file : Bytes) (std : Standard) : Bytes :=
  le 2 4 ++ (le 4 0 ++ (le 1 8 ++ (1 :: (file ++ 0 :: (str% "lacc" ++ 0 :: le 1 std.language)))))

def tail (textSize : Nat) (addr : Bytes) : Bytes := if textSize ≠ 0 then addr ++ le 8 textSize else []

def table (textSize : Nat) : Bytes :=
  [1, 0x11, 0, 0x03, 8, 0x25, 8, 0x13, 0x0b] ++ (if textSize ≠ 0 then [0x11, 1, 0x12, 7] else []) ++ [0, 0]

theorem front_length (file : Bytes) (std : Standard) : (front file std).length = file.length + 15 := by
  simp [front, le_length]; omega

theorem flush_eq {file : Bytes} {std : Standard} {ts : Nat} {st : St} (h : flush file std ts = some st) :
    st.info = le 4 ((front file std).length + (tail ts (le 8 0)).length + 1) ++
        (front file std ++ (tail ts (List.replicate 8 0) ++ [0])) ∧
      st.abbr = table ts ∧ st.rela = (if ts ≠ 0 then [4 + (front file std).length] else []) ∧
      (front file std).length + (tail ts (le 8 0)).length + 5 < 0xfffffff0 := by
  have u : ∀ v, v < 128 → writeUleb v = some [UInt8.ofNat v] := fun v => writeUleb_small
  unfold flush writeEntry at h
  rw [u 1 (by omega), u 0x11 (by omega), u 0 (by omega)] at h
  by_cases ht : ts = 0
  · subst ht
    simp only [rootAttributes, writeAttributes, writeAttribute, Value.form, ne_eq, not_true_eq_false, if_false, List.append_nil,
      u 3 (by omega), u 8 (by omega), u 0x25 (by omega), u 0x13 (by omega), u 0x0b (by omega), Option.bind_eq_bind,
      Option.bind_some] at h
    split_ifs at h with hl
    simp only [Option.some.injEq] at h
    subst h
    simp [front, tail, table, le, le_length] at hl ⊢
    omega
  · simp only [rootAttributes, writeAttributes, writeAttribute, Value.form, ne_eq, ht, not_false_eq_true, if_true,
      List.append_assoc, List.cons_append, List.nil_append,
      u 3 (by omega), u 8 (by omega), u 0x25 (by omega), u 0x13 (by omega), u 0x0b (by omega), u 0x11 (by omega), u 0x12 (by omega),
      u 1 (by omega), u 7 (by omega), Option.bind_eq_bind, Option.bind_some] at h
    split_ifs at h with hl
    simp only [Option.some.injEq] at h
    subst h
    simp [front, tail, table, le, le_length, ht] at hl ⊢
    omega

theorem read_table (ts : Nat) : readAbbrevs true ((table ts).length + 1) (table ts) =
    some [⟨1, 0x11, false, [(0x03, 8), (0x25, 8), (0x13, 0x0b)] ++ if ts ≠ 0 then [(0x11, 1), (0x12, 7)] else []⟩] := by
  unfold table
  split_ifs <;> decide

theorem read_table_strict (ts fuel : Nat) : readAbbrevs false fuel (table ts) = none := by
  have nil : ∀ f, readAbbrevs false f [] = none := by
    intro f
    cases f <;> rfl
  cases fuel with
  | zero => rfl
  | succ f =>
    unfold table
    split_ifs
    · show (readAbbrevs false f []).bind _ = none
      rw [nil]; rfl
    · show (readAbbrevs false f []).bind _ = none
      rw [nil]; rfl

/-- The section after the relocations. -/
def image (st : St) (base : Nat) : Bytes := st.rela.foldl (fun b o => relocate b o base) st.info

theorem relocate_append (A B : Bytes) {Z : Bytes} (hZ : Z.length = 8) (base : Nat) :
    relocate (A ++ (Z ++ B)) A.length base = A ++ (le 8 base ++ B) := by
  unfold relocate
  rw [List.take_left, num_eq, ← List.append_assoc A Z B, show A.length + 8 = (A ++ Z).length by simp [hZ], List.drop_left,
    List.append_assoc]

theorem image_eq {file : Bytes} {std : Standard} {ts : Nat} {st : St} (h : flush file std ts = some st) (base : Nat) :
    image st base = le 4 ((front file std).length + (tail ts (le 8 base)).length + 1) ++
        (front file std ++ (tail ts (le 8 base) ++ [0])) := by
  obtain ⟨h1, _, h3, _⟩ := flush_eq h
  have hl : ∀ x, (tail ts (le 8 x)).length = if ts ≠ 0 then 16 else 0 := by
    intro x; unfold tail; split_ifs <;> simp [le_length]
  unfold image
  rw [h3, h1, hl, hl]
  by_cases ht : ts = 0
  · simp [ht, tail]
  · simp only [ne_eq, ht, not_false_eq_true, if_true, List.foldl_cons, List.foldl_nil, tail, List.append_assoc]
    rw [← List.append_assoc (le 4 _), ← List.append_assoc (le 4 _)]
    generalize hA : le 4 _ ++ front file std = A
    have hAl : 4 + (front file std).length = A.length := by rw [← hA]; simp [le_length]
    rw [hAl, relocate_append _ _ (by simp)]

theorem read_unit {file : Bytes} {std : Standard} {ts : Nat} {st : St} (h : flush file std ts = some st) (hf : 0 ∉ file)
    (hts : ts < 256 ^ 8) {base : Nat} (hb : base < 256 ^ 8) :
    readUnit true (image st base) st.abbr = some ⟨4, 8, 0x11,
      [(0x03, .str file), (0x25, .str (str% "lacc")), (0x13, .num std.language)] ++
        (if ts ≠ 0 then [(0x11, .addr base), (0x12, .num ts)] else []), []⟩ := by
  obtain ⟨_, h2, _, h4⟩ := flush_eq h
  have hl : ∀ x, (tail ts (le 8 x)).length = if ts ≠ 0 then 16 else 0 := by
    intro x; unfold tail; split_ifs <;> simp [le_length]
  rw [image_eq h base, h2]
  rw [show (tail ts (le 8 0)).length = (tail ts (le 8 base)).length by rw [hl, hl]] at h4
  unfold readUnit
  rw [readNum_le 4 _ _ (by omega)]
  simp only [Option.bind_eq_bind, Option.bind_some]
  have e : (front file std ++ (tail ts (le 8 base) ++ [0])).length =
      (front file std).length + (tail ts (le 8 base)).length + 1 := by simp; omega
  rw [if_neg (by omega), List.take_of_length_le (by omega), List.drop_of_length_le (by omega)]
  unfold front
  simp only [List.append_assoc]
  rw [readNum_le 2 4 _ (by omega)]
  simp only [Option.bind_some]
  rw [readNum_le 4 0 _ (by omega)]
  simp only [Option.bind_some]
  rw [readNum_le 1 8 _ (by omega)]
  simp only [Option.bind_some, List.drop_zero, read_table, List.cons_append]
  rw [show (1 : UInt8) = UInt8.ofNat 1 from rfl, readUleb_small (by omega)]
  simp only [Option.bind_some, List.find?_cons, beq_self_eq_true, Bool.false_eq_true, if_false, readValues, readValue, List.cons_append,
    List.nil_append, List.append_assoc]
  rw [readString_append _ _ hf]
  simp only [Option.bind_eq_bind, Option.bind_some]
  have hlacc : ∀ X : Bytes, readString (108 :: 97 :: 99 :: 99 :: 0 :: X) = some (str% "lacc", X) :=
    fun X => readString_append (str% "lacc") X (by decide)
  rw [hlacc]
  simp only [Option.bind_some]
  rw [readNum_le 1 _ _ (by cases std <;> decide)]
  simp only [Option.bind_some]
  by_cases ht : ts = 0
  · simp [ht, tail, readValues]
  · simp only [ne_eq, ht, not_false_eq_true, if_true, tail, readValues, readValue, List.append_assoc, Option.bind_eq_bind]
    rw [readNum_le 8 _ _ hb]
    simp only [Option.bind_some]
    rw [readNum_le 8 _ _ hts]
    simp

end Verif.Dwarf
