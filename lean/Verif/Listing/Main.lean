import Verif.Listing.Lemmas
import Verif.Listing.Statement
import Verif.Elf.Sections

/-!
# The text of a sequence of calls is read as what the object has
-/

namespace Verif.Listing

open Gas
open Encode (le)
open Asm (natText intText stored)
open Asm.Printed (Named IntRange symbol_text)

/-! ## Numbers -/

theorem le_low (n : Nat) : ∀ v : Int, le n v = low n v := by
  induction n with
  | zero => intro v; rfl
  | succ n ih =>
    intro v
    rw [Encode.le, ih]
    unfold low
    rw [List.range_succ_eq_map, List.map_cons, List.map_map]
    congr 1
    · simp
    · apply List.map_congr_left
      intro i _
      simp only [Function.comp]
      rw [Int.ediv_ediv_of_nonneg (by omega), Int.pow_succ, Int.mul_comm]

theorem low_bmod (n : Nat) (q : Int) : low n (q.bmod (256 ^ n)) = le n q := by
  rw [← le_low]
  apply Elf.le_congr
  exact Int.bmod_emod

theorem bmod_range {n : Nat} (hn : 0 < n) (q : Int) :
    -(2 ^ (8 * n - 1) : Int) ≤ q.bmod (256 ^ n) ∧ q.bmod (256 ^ n) < 2 ^ (8 * n) := by
  have h1 := Int.le_bmod (x := q) (m := 256 ^ n) (Nat.pow_pos (by omega))
  have h2 := Int.bmod_lt (x := q) (m := 256 ^ n) (Nat.pow_pos (by omega))
  have e : ((256 ^ n : Nat) : Int) = 2 * 2 ^ (8 * n - 1) := by
    have : (256 : Nat) ^ n = 2 * 2 ^ (8 * n - 1) := by
      rw [← Nat.pow_succ', show (8 * n - 1).succ = 8 * n by omega, Nat.pow_mul]
    rw [this]; push_cast; rfl
  have e2 : (2 : Int) ^ (8 * n) = 2 * 2 ^ (8 * n - 1) := by
    have := pow_succ' (2 : Int) (8 * n - 1)
    rwa [show (8 * n - 1) + 1 = 8 * n by omega] at this
  have : (0 : Int) < 2 ^ (8 * n - 1) := by positivity
  omega

theorem does_byte {syms a b} {v : Int} (hr : -(2 ^ (8 * 1 - 1) : Int) ≤ v ∧ v < 2 ^ (8 * 1)) (h : a.emit (low 1 v) = some b) :
    Does syms a (ln (str% "\t.byte\t" ++ intText v)) b :=
  does_arg (w := str% ".byte") (d := .int 1) (c := 9) (x := intText v) (by decide) (by decide) (by decide) (by decide)
    (flat_int v) (head_int v) (directive_int hr h)

theorem does_short {syms a b} {v : Int} (hr : -(2 ^ (8 * 2 - 1) : Int) ≤ v ∧ v < 2 ^ (8 * 2)) (h : a.emit (low 2 v) = some b) :
    Does syms a (ln (str% "\t.short\t" ++ intText v)) b :=
  does_arg (w := str% ".short") (d := .int 2) (c := 9) (x := intText v) (by decide) (by decide) (by decide) (by decide)
    (flat_int v) (head_int v) (directive_int hr h)

theorem does_int {syms a b} {v : Int} (hr : -(2 ^ (8 * 4 - 1) : Int) ≤ v ∧ v < 2 ^ (8 * 4)) (h : a.emit (low 4 v) = some b) :
    Does syms a (ln (str% "\t.int\t" ++ intText v)) b :=
  does_arg (w := str% ".int") (d := .int 4) (c := 9) (x := intText v) (by decide) (by decide) (by decide) (by decide)
    (flat_int v) (head_int v) (directive_int hr h)

theorem does_long {syms a b} {v : Int} (hr : -(2 ^ (8 * 4 - 1) : Int) ≤ v ∧ v < 2 ^ (8 * 4)) (h : a.emit (low 4 v) = some b) :
    Does syms a (ln (str% "\t.long\t" ++ intText v)) b :=
  does_arg (w := str% ".long") (d := .int 4) (c := 9) (x := intText v) (by decide) (by decide) (by decide) (by decide)
    (flat_int v) (head_int v) (directive_int hr h)

theorem does_quad {syms a b} {v : Int} (hr : -(2 ^ (8 * 8 - 1) : Int) ≤ v ∧ v < 2 ^ (8 * 8)) (h : a.emit (low 8 v) = some b) :
    Does syms a (ln (str% "\t.quad\t" ++ intText v)) b :=
  does_arg (w := str% ".quad") (d := .int 8) (c := 9) (x := intText v) (by decide) (by decide) (by decide) (by decide)
    (flat_int v) (head_int v) (directive_int hr h)

theorem does_bytes {syms} (q : Int) : ∀ (w k : Nat) (a : Image), a.sec = .data →
    Does syms a ((List.range' k w).flatMap fun i => ln (str% "\t.byte\t" ++ intText ((q / 256 ^ i).bmod 256)))
      { a with data := a.data ++ (List.range' k w).map fun i => (q / 256 ^ i % 256).toNat } := by
  intro w
  induction w with
  | zero =>
    intro k a _
    have : ({ a with data := a.data ++ [] } : Image) = a := by rw [List.append_nil]
    simp only [List.range'_zero, List.flatMap_nil, List.map_nil]
    rw [this]
    exact Does.nil
  | succ w ih =>
    intro k a ha
    rw [List.range'_succ, List.flatMap_cons, List.map_cons]
    have h1 := does_byte (syms := syms) (a := a) (b := { a with data := a.data ++ [(q / 256 ^ k % 256).toNat] })
      (v := (q / 256 ^ k).bmod 256) (bmod_range (n := 1) (by omega) _) (by
        have := low_bmod 1 (q / 256 ^ k)
        rw [show (256 : Nat) ^ 1 = 256 from rfl] at this
        rw [this]
        simp only [Image.emit, ha]
        rfl)
    have h2 := ih (k + 1) { a with data := a.data ++ [(q / 256 ^ k % 256).toNat] } ha
    have := h1.trans h2
    simp only [List.append_assoc, List.cons_append, List.nil_append] at this ⊢
    exact this

/-! ## Data -/

theorem datum_does {syms name a} {d : Datum} (hd : OpOk syms name (.datum d)) (ha : a.sec = .data) {o : Elf.Obj}
    (h : Same a o) : ∃ t b, datumText name d = some t ∧ Does syms a t b ∧ Same b (o.datum d.elf) ∧ b.sec = .data ∧
      b.sizes = a.sizes ∧ b.types = a.types ∧ b.commons = a.commons ∧ b.labels = a.labels ∧ b.code = a.code := by
  have fin : ∀ bs, Same { a with data := a.data ++ bs } (o.datum (.bytes bs)) := by
    intro bs
    exact ⟨by simp only [Elf.Obj.datum, h.data], h.rodata, h.rel, h.defs, h.globals, h.commons, h.locals, h.code, h.labels⟩
  have emit : ∀ bs, a.emit bs = some { a with data := a.data ++ bs } := by
    intro bs
    simp only [Image.emit, ha]
  cases d with
  | int w q =>
    simp only [OpOk] at hd
    refine ⟨if w = 1 then ln (str% "\t.byte\t" ++ intText (q.bmod (256 ^ 1)))
        else if w = 2 then ln (str% "\t.short\t" ++ intText (q.bmod (256 ^ 2)))
        else if w = 4 then ln (str% "\t.int\t" ++ intText (q.bmod (256 ^ 4)))
        else if w = 8 then ln (str% "\t.quad\t" ++ intText (q.bmod (256 ^ 8)))
        else (List.range' 0 w).flatMap fun i => ln (str% "\t.byte\t" ++ intText ((q / 256 ^ i).bmod 256)),
      { a with data := a.data ++ le w q }, ?_, ?_, fin _, ha, rfl, rfl, rfl, rfl, rfl⟩
    · simp only [datumText]
      rw [← List.range_eq_range']
      by_cases h1 : w = 1
      · rw [if_pos h1, if_pos h1]; rfl
      by_cases h2 : w = 2
      · rw [if_neg h1, if_neg h1, if_pos h2, if_pos h2]; rfl
      by_cases h4 : w = 4
      · rw [if_neg h1, if_neg h1, if_neg h2, if_neg h2, if_pos h4, if_pos h4]; rfl
      by_cases h8 : w = 8
      · rw [if_neg h1, if_neg h1, if_neg h2, if_neg h2, if_neg h4, if_neg h4, if_pos h8, if_pos h8]; rfl
      rw [if_neg h1, if_neg h1, if_neg h2, if_neg h2, if_neg h4, if_neg h4, if_neg h8, if_neg h8, if_pos (by omega)]
    · split_ifs with h1 h2 h4 h8
      · subst h1; exact does_byte (bmod_range (by omega) q) (by rw [low_bmod, emit])
      · subst h2; exact does_short (bmod_range (by omega) q) (by rw [low_bmod, emit])
      · subst h4; exact does_int (bmod_range (by omega) q) (by rw [low_bmod, emit])
      · subst h8; exact does_quad (bmod_range (by omega) q) (by rw [low_bmod, emit])
      · have := does_bytes (syms := syms) q w 0 a ha
        rw [le_low]
        unfold low
        rw [List.range_eq_range']
        exact this
  | addr s d =>
    simp only [OpOk] at hd
    refine ⟨_, { a with data := a.data ++ List.replicate 8 0, rel := a.rel ++ [(a.data.length, s, d)] }, rfl, ?_, ?_, ha,
      rfl, rfl, rfl, rfl, rfl⟩
    · obtain ⟨c, r, h1, h2, h3, _, h5⟩ := symbol_text (name := name) (a := { base := 0, index := 0, scale := 0, sym := some (.normal, s), disp := d }) rfl hd.1 hd.2
        (.inl rfl)
      have he : name s ++ (if d ≠ 0 then (if d < 0 then [] else str% "+") ++ intText d else []) = c :: r := by
        simp only [Asm.symText, Option.some.injEq] at h1
        rw [← h1]
        congr 1
        by_cases h0 : d = 0
        · rw [if_neg (by simpa using h0), if_neg (by simpa using h0)]
        · rw [if_pos h0, if_pos h0]
          by_cases hn : d < 0
          · rw [if_pos hn, if_neg (by omega)]
          · rw [if_neg hn, if_pos (by omega)]
      rw [he]
      have hb : Asm.Gas.isBlank c = false := word_not_blank c (by unfold Asm.Gas.isWord; rw [h2]; rfl)
      refine does_arg (w := str% ".quad") (d := .int 8) (c := 9) (x := c :: r) (by decide) (by decide) (by decide) (by decide)
        ?_ ⟨c, r, rfl, hb⟩ ?_
      · rw [← he]
        refine (flat_name hd.1).append ?_
        split_ifs
        · exact (show Flat [] by unfold Flat; decide).append (flat_int d)
        · exact (show Flat (str% "+") by unfold Flat; decide).append (flat_int d)
        · unfold Flat; decide
      · have hne := Asm.Printed.letter_ne c h2
        simp only [Image.directive, hne, h5, Option.bind_some, if_true, Image.address, ha, Bool.false_eq_true, if_false]
    · refine ⟨by simp only [Datum.elf, Elf.Obj.datum, h.data], h.rodata, ?_, h.defs, h.globals, h.commons, h.locals, h.code, h.labels⟩
      simp only [Datum.elf, Elf.Obj.datum, h.rel, h.data, List.map_append, List.map_cons, List.map_nil]
  | string w s =>
    simp only [OpOk] at hd
    by_cases hw : w = s.length
    · refine ⟨_, { a with data := a.data ++ toNats s }, by simp only [datumText]; rw [if_pos hw]; rfl,
        does_string (s := s) false (by rw [emit]; simp [toNats]), ?_, ha, rfl, rfl, rfl, rfl, rfl⟩
      have := fin (toNats s)
      rw [show (Datum.string w s).elf = .bytes (toNats s) from ?_]
      · exact this
      · simp only [Datum.elf]
        rw [hw, List.take_append_of_le_length (by simp [toNats]), List.take_of_length_le (by simp [toNats])]
    · have hw' : w = s.length + 1 := by omega
      refine ⟨_, { a with data := a.data ++ (toNats s ++ [0]) }, by simp only [datumText]; rw [if_neg hw, if_pos hw']; rfl,
        does_string (s := s) true (by rw [emit]; simp [toNats]), ?_, ha, rfl, rfl, rfl, rfl, rfl⟩
      have := fin (toNats s ++ [0])
      rw [show (Datum.string w s).elf = .bytes (toNats s ++ [0]) from ?_]
      · exact this
      · simp only [Datum.elf]
        rw [List.take_of_length_le (by simp [toNats]; omega)]

end Verif.Listing
