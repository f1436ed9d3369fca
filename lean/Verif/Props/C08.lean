import Verif.Tac
import Verif.Lex.Number
import Verif.Lex.StringLemmas
import Mathlib.Data.List.Induction
/-! # C08, C65 — numeric constants -/
namespace Verif.Lex

namespace Spec8

inductive Radix where
  | dec | oct | hex
  deriving DecidableEq

/-- Digit characters with values. -/
def decs : List (UInt8 × Nat) := [(48, 0), (49, 1), (50, 2), (51, 3), (52, 4), (53, 5), (54, 6),
  (55, 7), (56, 8), (57, 9)]

/-- `Const t r v`: `t` is the spelling, without suffix, of an integer constant of value `v`
(C99 6.4.4.1). -/
inductive Const : Bytes → Radix → Nat → Prop
  | dec {d : UInt8} {ds : Bytes} {v : Nat} : d ≠ chr% '0' → Spec.Digits decs 10 (d :: ds) v →
      Const (d :: ds) .dec v
  | oct {ds : Bytes} {v : Nat} : Spec.Digits Spec.octs 8 (chr% '0' :: ds) v →
      Const (chr% '0' :: ds) .oct v
  | hex {x : UInt8} {ds : Bytes} {v : Nat} : x ∈ str% "xX" → ds ≠ [] →
      Spec.Digits Spec.hexs 16 ds v → Const (chr% '0' :: x :: ds) .hex v

/-- Suffixes: spelling, has `u`, has `l` or `ll`. -/
def suffixes : List (Bytes × Bool × Bool) := [
  ([], false, false), (str% "u", true, false), (str% "U", true, false),
  (str% "l", false, true), (str% "L", false, true), (str% "ll", false, true), (str% "LL", false, true),
  (str% "ul", true, true), (str% "uL", true, true), (str% "Ul", true, true), (str% "UL", true, true),
  (str% "ull", true, true), (str% "uLL", true, true), (str% "Ull", true, true), (str% "ULL", true, true),
  (str% "lu", true, true), (str% "lU", true, true), (str% "Lu", true, true), (str% "LU", true, true),
  (str% "llu", true, true), (str% "llU", true, true), (str% "LLu", true, true), (str% "LLU", true, true)]

/-- Candidate types in order (C99 6.4.4.1p5, with `long long` the same as `long`). -/
def candidates (r : Radix) (u l : Bool) : List IntTy :=
  match r, u, l with
  | .dec, false, false => [.int, .long]
  | _, false, false => [.int, .uint, .long, .ulong]
  | _, true, false => [.uint, .ulong]
  | .dec, false, true => [.long]
  | _, false, true => [.long, .ulong]
  | _, true, true => [.ulong]

/-- Largest value of a type (LP64). -/
def maxValue : IntTy → Nat
  | .int => 2147483647
  | .uint => 4294967295
  | .long => 9223372036854775807
  | .ulong => 18446744073709551615

/-- The first candidate that can represent the value. -/
def typeOf (r : Radix) (u l : Bool) (v : Nat) : Option IntTy :=
  (candidates r u l).find? (fun t => v ≤ maxValue t)

end Spec8

open Spec8

theorem decs_val : ∀ p ∈ decs, isDec p.1 = true ∧ xval p.1 = p.2 := by decide

theorem digits_gen {tbl : List (UInt8 × Nat)} {base : Nat} {q : UInt8 → Bool}
    (ht : ∀ p ∈ tbl, q p.1 = true ∧ xval p.1 = p.2) {ds : Bytes} {n : Nat}
    (h : Spec.Digits tbl base ds n) : (∀ c ∈ ds, q c = true) ∧ digitsValue base ds = n := by
  induction h with
  | nil => exact ⟨by simp, rfl⟩
  | @snoc ds n c v _ hm ih =>
    refine ⟨?_, ?_⟩
    · intro x hx
      simp at hx
      rcases hx with hx | rfl
      · exact ih.1 x hx
      · exact (ht _ hm).1
    · unfold digitsValue at ih ⊢
      rw [List.foldl_append, ih.2]
      simp [(ht _ hm).2]

theorem suffix_heads : ∀ p ∈ suffixes, ∀ c ∈ p.1.head?, isDec c = false ∧ isOctal c = false ∧
    isXDigit c = false := by decide +kernel

theorem suffix_not_x : ∀ p ∈ suffixes, ∀ c ∈ p.1.head?, c ≠ chr% 'x' ∧ c ≠ chr% 'X' := by
  decide +kernel

theorem suffix_read : ∀ p ∈ suffixes, (readSuffix p.1).2 = [] ∧ (readSuffix p.1).1.u = p.2.1 ∧
    (readSuffix p.1).1.l = p.2.2 := by decide +kernel

theorem strtoul_const {t sfx : Bytes} {r : Radix} {v : Nat} {u l : Bool} (h : Const t r v)
    (hs : (sfx, u, l) ∈ suffixes) : strtoul0 (t ++ sfx) = (v, sfx) := by
  have hh := suffix_heads _ hs
  cases h with
  | @dec d ds v hd hv =>
    obtain ⟨h1, h2⟩ := digits_gen decs_val hv
    have := takeWhile_prefix (p := isDec) (ds := d :: ds) (t := sfx) h1 (fun c hc => (hh c hc).1)
    rw [List.cons_append] at this ⊢
    simp only [strtoul0, hd, if_false, this.1, this.2, h2]
  | @oct ds v hv =>
    obtain ⟨h1, h2⟩ := digits_gen octs_val hv
    have := takeWhile_prefix (p := isOctal) (ds := 48 :: ds) (t := sfx) h1 (fun c hc => (hh c hc).2.1)
    rw [List.cons_append] at this ⊢
    have hx : ∀ x d rest, ds ++ sfx = x :: d :: rest → ¬ ((x = 120 || x = 88) = true) := by
      intro x d rest he hx
      cases ds with
      | nil =>
        have := suffix_not_x _ hs x (by simp at he; simp [he])
        simp at hx
        tauto
      | cons y ds =>
        simp only [List.cons_append, List.cons.injEq] at he
        have := h1 y (by simp)
        rw [he.1] at this
        simp at hx
        rcases hx with rfl | rfl <;> simp [isOctal] at this
    simp only [strtoul0, if_true]
    rcases hds : ds ++ sfx with _ | ⟨x, _ | ⟨d, rest⟩⟩
    · rw [hds] at this; simp only [this.1, this.2, h2]
    · rw [hds] at this; simp only [this.1, this.2, h2]
    · have hx' := hx x d rest hds
      rw [hds] at this
      have e : ((x = 120 || x = 88) && isXDigit d) = false := by
        rw [Bool.and_eq_false_iff]
        left
        simpa using hx'
      simp only [e, Bool.false_eq_true, if_false, this.1, this.2, h2]
  | @hex x ds v hx hne hv =>
    obtain ⟨h1, h2⟩ := digits_gen hexs_val hv
    have := takeWhile_prefix (p := isXDigit) (ds := ds) (t := sfx) h1 (fun c hc => (hh c hc).2.2)
    cases ds with
    | nil => exact absurd rfl hne
    | cons d ds =>
      have hd := h1 d (by simp)
      have hx' : (x = 120 || x = 88) = true := by
        simp only [List.mem_cons, List.not_mem_nil, or_false] at hx
        simpa using hx
      simp only [List.cons_append] at this
      simp only [List.cons_append, strtoul0, if_true, hx', hd, Bool.and_self, this.1, this.2, h2]

theorem const_head {t sfx : Bytes} {r : Radix} {v : Nat} (h : Const t r v) :
    decide ((t ++ sfx).head? ≠ some (chr% '0')) = decide (r = .dec) := by
  cases h with
  | dec hd hv => simp [hd]
  | oct hv => simp
  | hex hx hne hv => simp

/-- **C08.** Every integer constant that fits in 64 bits is converted to its value with the first
type of the C99 list that can hold it, without a warning; if no type of the list can hold it the
compiler warns and uses unsigned long; a constant of 2^64 or more is an error. -/
theorem C08_integer_constant_type (strtod : Bytes → Nat × Bool) {t sfx : Bytes} {r : Radix} {v : Nat}
    {u l : Bool} (h : Const t r v) (hs : (sfx, u, l) ∈ suffixes) :
    convertNumber strtod (t ++ sfx) =
      if v ≥ 2 ^ 64 then .error
      else match typeOf r u l v with
        | some ty => .integer v ty false
        | none => .integer v .ulong true := by
  obtain ⟨h1, h2, h3⟩ := suffix_read _ hs
  simp only [convertNumber, strtoul_const h hs, h1, if_true]
  by_cases hv : v ≥ 2 ^ 64
  · rw [if_pos hv, if_pos hv]
  · rw [if_neg hv, if_neg hv, const_head h]
    have h64 : v ≤ 18446744073709551615 := by omega
    simp only [constantIntegerType, h2, h3, typeOf]
    by_cases a1 : v ≤ 2147483647
    · have a2 : v ≤ 4294967295 := by omega
      have a3 : v ≤ 9223372036854775807 := by omega
      cases r <;> cases u <;> cases l <;> simp [candidates, List.find?, maxValue, a1, a2, a3, h64]
    · by_cases a2 : v ≤ 4294967295
      · have a3 : v ≤ 9223372036854775807 := by omega
        cases r <;> cases u <;> cases l <;> simp [candidates, List.find?, maxValue, a1, a2, a3, h64]
      · by_cases a3 : v ≤ 9223372036854775807 <;>
        cases r <;> cases u <;> cases l <;> simp [candidates, List.find?, maxValue, a1, a2, a3, h64]

/-- `4294967295`, `0xFFFFFFFFu`, `0777L`: each an instance of the hypotheses. -/
example (sd) : convertNumber sd (str% "4294967295") = .integer 4294967295 .long false ∧
    convertNumber sd (str% "0xFFFFFFFF") = .integer 4294967295 .uint false ∧
    convertNumber sd (str% "0777Lu") = .integer 511 .ulong false ∧
    convertNumber sd (str% "18446744073709551615") = .integer 18446744073709551615 .ulong true ∧
    convertNumber sd (str% "18446744073709551616") = .error := by
  refine ⟨?_, ?_, ?_, ?_, ?_⟩ <;> rfl

example : Const (str% "0x1F") .hex 31 ∧ (str% "uLL", true, true) ∈ suffixes :=
  ⟨.hex (by decide) (by simp) (Spec.Digits.snoc (tbl := Spec.hexs) (t := [49]) (n := 1) (c := 70) (v := 15)
    (Spec.Digits.snoc (tbl := Spec.hexs) (t := []) (n := 0) (c := 49) (v := 1) .nil (by decide)) (by decide)), by decide⟩

theorem readSuffixL_valid (u : Bool) (s : Bytes) (h : (readSuffixL u s).2 = []) :
    s = [] ∨ (∃ c, toLower c = chr% 'l' ∧ (s = [c] ∨ s = [c, c] ∨
      (u = false ∧ ∃ d, toLower d = chr% 'u' ∧ (s = [c, d] ∨ s = [c, c, d])))) := by
  unfold readSuffixL at h
  grind

theorem lower_l : ∀ c : UInt8, toLower c = chr% 'l' → c = chr% 'l' ∨ c = chr% 'L' := by
  apply forall_byte; decide +kernel

theorem lower_u : ∀ c : UInt8, toLower c = chr% 'u' → c = chr% 'u' ∨ c = chr% 'U' := by
  apply forall_byte; decide +kernel

theorem readSuffix_valid (s : Bytes) (h : (readSuffix s).2 = []) : ∃ u l, (s, u, l) ∈ suffixes := by
  have key : s ∈ suffixes.map (·.1) := by
    unfold readSuffix at h
    cases s with
    | nil => decide
    | cons c rest =>
      simp only at h
      split at h
      · rename_i hc
        rcases readSuffixL_valid _ _ h with rfl | ⟨d, hd, rfl | rfl | ⟨hu, _⟩⟩
        · rcases lower_u c hc with rfl | rfl <;> decide
        · rcases lower_u c hc with rfl | rfl <;> rcases lower_l d hd with rfl | rfl <;> decide
        · rcases lower_u c hc with rfl | rfl <;> rcases lower_l d hd with rfl | rfl <;> decide
        · cases hu
      · rcases readSuffixL_valid _ _ h with h | ⟨d, hd, h | h | ⟨_, e, he, h | h⟩⟩
        · cases h
        all_goals
          rw [h]
          rcases lower_l d hd with rfl | rfl
          all_goals first
            | decide
            | (rcases lower_u e he with rfl | rfl <;> decide)
  obtain ⟨⟨a, u, l⟩, hm, rfl⟩ := List.mem_map.1 key
  exact ⟨u, l, hm⟩

theorem digits_of {tbl : List (UInt8 × Nat)} {base : Nat} {q : UInt8 → Bool}
    (ht : ∀ c, q c = true → (c, xval c) ∈ tbl) (ds : Bytes) :
    (∀ c ∈ ds, q c = true) → Spec.Digits tbl base ds (digitsValue base ds) := by
  refine List.reverseRecOn ds (fun _ => .nil) ?_
  intro l c ih h
  have := ih (fun x hx => h x (by simp [hx]))
  have e : digitsValue base (l ++ [c]) = digitsValue base l * base + xval c := by
    simp [digitsValue, List.foldl_append]
  rw [e]
  exact .snoc this (ht c (h c (by simp)))

theorem isDec_decs : ∀ c, isDec c = true → (c, xval c) ∈ decs := by
  apply forall_byte; decide +kernel
theorem isOctal_octs : ∀ c, isOctal c = true → (c, xval c) ∈ Spec.octs := by
  apply forall_byte; decide +kernel
theorem isXDigit_hexs : ∀ c, isXDigit c = true → (c, xval c) ∈ Spec.hexs := by
  apply forall_byte; decide +kernel

theorem takeWhile_all {α : Type} {p : α → Bool} (l : List α) : ∀ c ∈ l.takeWhile p, p c = true := by
  induction l with
  | nil => simp
  | cons a l ih =>
    intro c hc
    by_cases ha : p a = true
    · rw [List.takeWhile_cons_of_pos ha] at hc
      rcases List.mem_cons.1 hc with rfl | hc
      · exact ha
      · exact ih c hc
    · rw [List.takeWhile_cons_of_neg ha] at hc
      cases hc

theorem strtoul_valid (s : Bytes) (h : ∃ c ∈ s.head?, isDec c = true) :
    ∃ t r, s = t ++ (strtoul0 s).2 ∧ Const t r (strtoul0 s).1 := by
  obtain ⟨c, hc, hd⟩ := h
  cases s with
  | nil => cases hc
  | cons c' rest =>
    simp at hc
    subst hc
    have oct : c' = chr% '0' → ∃ t r, c' :: rest = t ++ (c' :: rest).dropWhile isOctal ∧
        Const t r (digitsValue 8 ((c' :: rest).takeWhile isOctal)) := by
      rintro rfl
      refine ⟨_, .oct, (List.takeWhile_append_dropWhile (p := isOctal)).symm, ?_⟩
      have := digits_of (base := 8) isOctal_octs _ (takeWhile_all (p := isOctal) (48 :: rest))
      rw [List.takeWhile_cons_of_pos (by decide)] at this ⊢
      exact .oct this
    unfold strtoul0
    simp only
    split
    · rename_i h0
      split
      · rename_i x d rest'
        split
        · rename_i hx
          subst h0
          simp only [Bool.and_eq_true, Bool.or_eq_true, decide_eq_true_eq] at hx
          refine ⟨48 :: x :: (d :: rest').takeWhile isXDigit, .hex, ?_, ?_⟩
          · simp only [List.cons_append, List.takeWhile_append_dropWhile]
          · refine .hex ?_ ?_ (digits_of isXDigit_hexs _ (takeWhile_all _))
            · rcases hx.1 with rfl | rfl <;> decide
            · rw [List.takeWhile_cons_of_pos hx.2]; simp
        · exact oct h0
      · exact oct h0
    · rename_i h0
      refine ⟨_, .dec, (List.takeWhile_append_dropWhile (p := isDec)).symm, ?_⟩
      have := digits_of (base := 10) isDec_decs _ (takeWhile_all (p := isDec) (c' :: rest))
      rw [List.takeWhile_cons_of_pos hd] at this ⊢
      exact .dec h0 this

/-- **C65** (partial).  The full property: a number token that is neither an integer constant nor a
floating constant of C is diagnosed.  Proved: whatever is accepted as an integer is the spelling of
an integer constant of that value with a valid suffix, and the value is below 2^64.  Missing: the
floating constants, where `08` and `1f` are accepted (below). -/
theorem C65_integers_are_constants_partial (strtod : Bytes → Nat × Bool) (s : Bytes) (v : Nat)
    (ty : IntTy) (w : Bool) (hd : ∃ c ∈ s.head?, isDec c = true)
    (h : convertNumber strtod s = .integer v ty w) :
    v < 2 ^ 64 ∧ ∃ t sfx r u l, s = t ++ sfx ∧ Const t r v ∧ (sfx, u, l) ∈ suffixes := by
  obtain ⟨t, r, e1, e2⟩ := strtoul_valid s hd
  unfold convertNumber at h
  simp only at h
  split at h
  · rename_i hs
    obtain ⟨u, l, hm⟩ := readSuffix_valid _ hs
    split at h
    · cases h
    · injection h with h1 h2 h3
      subst h1
      exact ⟨by omega, t, _, r, u, l, e1, e2, hm⟩
  · grind

/-- `0x1Ful` satisfies the hypotheses. -/
example (sd) : convertNumber sd (str% "0x1Ful") = .integer 31 .ulong false ∧
    ∃ c ∈ (str% "0x1Ful").head?, isDec c = true := ⟨rfl, 48, rfl, rfl⟩

/-- Suffixes of floating constants (6.4.4.2). -/
def floatSuffixes : List (Bytes × NumRes) :=
  [([], .double), (str% "f", .float), (str% "F", .float), (str% "l", .longDouble), (str% "L", .longDouble)]

/-- **C65** (partial), floating constants: whatever is accepted as one is text that `strtod` reads without error, followed by a
floating suffix, which decides the type.  What `strtod` reads is not modelled. -/
theorem C65_floating_suffix_partial (strtod : Bytes → Nat × Bool) (s : Bytes) (r : NumRes)
    (hf : r = .double ∨ r = .float ∨ r = .longDouble) (h : convertNumber strtod s = r) :
    (strtod s).2 = false ∧ (s.drop (strtod s).1, r) ∈ floatSuffixes := by
  unfold convertNumber at h
  simp only at h
  split at h
  · split at h
    · subst h; simp at hf
    · subst h; simp at hf
  · split at h
    · subst h; simp at hf
    · rename_i hd
      refine ⟨by simpa using hd, ?_⟩
      split at h
      · rename_i e; subst h; rw [e]; decide
      · rename_i c e
        rw [e]
        split at h
        · rename_i hc
          subst h
          simp only [Bool.or_eq_true, decide_eq_true_eq] at hc
          rcases hc with rfl | rfl <;> decide
        · split at h
          · rename_i hc
            subst h
            simp only [Bool.or_eq_true, decide_eq_true_eq] at hc
            rcases hc with rfl | rfl <;> decide
          · subst h; simp at hf
      · subst h; simp at hf

/-- `1.5f`, with a `strtod` that reads three characters. -/
example : convertNumber (fun _ => (3, false)) (str% "1.5f") = .float := rfl

/-- **C65** violated: `08` and `09` are not constants of any kind
in C, but they are accepted as floating constants, because the whole text is handed to `strtod`
when the integer scan stops at the digit 8.  `1f` is accepted as a float in the same way. -/
theorem C65_invalid_accepted_violated (strtod : Bytes → Nat × Bool)
    (hsd : strtod (str% "08") = (2, false) ∧ strtod (str% "1f") = (1, false)) :
    convertNumber strtod (str% "08") = .double ∧ convertNumber strtod (str% "1f") = .float := by
  constructor
  · simp only [convertNumber, hsd.1]; rfl
  · simp only [convertNumber, hsd.2]; rfl

end Verif.Lex
