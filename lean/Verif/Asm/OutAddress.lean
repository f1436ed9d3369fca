import Verif.Asm.OutLemmas
import Verif.Asm.Text

/-! The text of addresses is read as the address. -/

namespace Verif.Asm.Printed

open Gas
open Att (Arg)
open Encode (Addr AType memOf)
open Encode.Intel (Mem)

/-- A symbol the assembler can find by its name: a word of reasonable length. -/
structure Named (syms : Bytes → Option Nat) (name : Nat → Bytes) (s : Nat) : Prop where
  found : syms (name s) = some s
  word : ∀ c ∈ name s, isWord c = true
  head : ∃ c t, name s = c :: t ∧ isLetter c = true
  short : (name s).length ≤ 200

/-- Offsets are of type `int`. -/
def IntRange (d : Int) : Prop := -2147483648 ≤ d ∧ d ≤ 2147483647

/-- Addresses that can be written: relative to the instruction pointer if there is a
symbol, and with a scale exactly if there is an index. -/
def Written (syms : Bytes → Option Nat) (name : Nat → Bytes) (a : Addr) : Prop :=
  IntRange a.disp ∧
  match a.sym with
  | some (t, s) => Named syms name s ∧ a.base = 33 ∧ a.index = 0 ∧ a.scale = 0
      ∧ (t = .normal ∨ t = .got ∧ a.disp = 0)
  | none => (a.base ∈ Encode.gprs ∨ a.base = 0 ∧ a.index ≠ 0)
      ∧ (a.index = 0 ∧ a.scale = 0 ∨ a.index ∈ Encode.gprs ∧ a.index ≠ Encode.SP ∧ a.scale ∈ [1, 2, 4, 8])

theorem takeWhile_stop {p : UInt8 → Bool} {a : Bytes} (h : ∀ c ∈ a, p c = true) {b : Bytes}
    (hb : b = [] ∨ ∃ c r, b = c :: r ∧ p c = false) : (a ++ b).takeWhile p = a ∧ (a ++ b).dropWhile p = b := by
  induction a with
  | nil =>
    rcases hb with rfl | ⟨c, r, rfl, hc⟩
    · exact ⟨rfl, rfl⟩
    · simp [hc]
  | cons x a ih =>
    have hx := h x (by simp)
    have := ih (fun c hc => h c (by simp [hc]))
    simp [hx, this.1, this.2]

theorem inert_front {t : Bytes} (h : Inert t) : ∀ c ∈ t, (c != chr% '(') = true := by
  intro c hc
  have := h c hc
  simp only [inertC, Bool.and_eq_true] at this
  exact this.1.1.1.2

theorem parens_inner {front inner : Bytes} (h : Inert front) :
    parens (front ++ (str% "(" ++ (inner ++ str% ")"))) = some (front, some inner) := by
  have := takeWhile_stop (inert_front h) (b := str% "(" ++ (inner ++ str% ")"))
    (.inr ⟨_, inner ++ str% ")", rfl, by decide⟩)
  unfold parens
  rw [this.1, this.2]
  simp

theorem parens_bare {front : Bytes} (h : Inert front) : parens front = some (front, none) := by
  have := takeWhile_stop (inert_front h) (b := []) (.inl rfl)
  rw [List.append_nil] at this
  unfold parens
  rw [this.1, this.2]

theorem letter_ne : ∀ c, isLetter c = true → (Gas.isDigit c || c == chr% '-') = false := by
  apply forall_byte; decide +kernel

theorem word_stop : ∀ c, isWord c = true → (c != chr% '+' && c != chr% '-') = true := by
  apply forall_byte; decide +kernel

/-- Reading a name with something behind. -/
theorem readSymbol_of {syms : Bytes → Option Nat} {n how off : Bytes} {s : Nat} {m : AType}
    (hf : syms n = some s) (hw : ∀ c ∈ n, isWord c = true)
    (hh : how = [] ∨ ∃ r, how = chr% '@' :: r) (hb : ∀ c ∈ how, (c != chr% '+' && c != chr% '-') = true)
    (hm : modifier how = some m) (ho : off = [] ∨ ∃ c r, off = c :: r ∧ (c = chr% '+' ∨ c = chr% '-')) :
    readSymbol syms (n ++ (how ++ off)) = (offset off).map fun d => (m, s, d) := by
  have h1 := takeWhile_stop (p := isWord) hw (b := how ++ off) (by
    rcases hh with rfl | ⟨r, rfl⟩
    · rcases ho with rfl | ⟨c, r, rfl, hc⟩
      · exact .inl rfl
      · refine .inr ⟨c, r, rfl, ?_⟩
        rcases hc with rfl | rfl <;> decide
    · exact .inr ⟨_, _, rfl, by decide⟩)
  have h2 := takeWhile_stop hb (b := off) (by
    rcases ho with rfl | ⟨c, r, rfl, hc⟩
    · exact .inl rfl
    · refine .inr ⟨c, r, rfl, ?_⟩
      rcases hc with rfl | rfl <;> decide)
  unfold readSymbol
  simp only [h1.1, h1.2, h2.1, h2.2, hf, hm, Option.bind_some]

theorem named_inert {syms name s} (h : Named syms name s) : Inert (name s) :=
  fun c hc => word_inert c (h.word c hc)

/-- The symbol, with what is behind it. -/
theorem symbol_text {syms : Bytes → Option Nat} {name : Nat → Bytes} {a : Addr} {t : AType} {s : Nat}
    (hs : a.sym = some (t, s)) (hn : Named syms name s) (hd : IntRange a.disp)
    (ht : t = .normal ∨ a.disp = 0) :
    ∃ c r, symText name a = some (c :: r) ∧ isLetter c = true ∧ Inert (c :: r) ∧ (c :: r).length ≤ 212
      ∧ readSymbol syms (c :: r) = some (t, s, a.disp) := by
  obtain ⟨c, r, hc, hl⟩ := hn.head
  have hi := named_inert hn
  have hlen := hn.short
  have mk : ∀ how off m, (how = [] ∨ ∃ r, how = chr% '@' :: r) →
      (∀ c ∈ how, (c != chr% '+' && c != chr% '-') = true) → modifier how = some m →
      (off = [] ∨ ∃ c r, off = c :: r ∧ (c = chr% '+' ∨ c = chr% '-')) → Inert (how ++ off) →
      (how ++ off).length ≤ 12 → ∀ d, offset off = some d →
      ∃ c r, name s ++ (how ++ off) = c :: r ∧ isLetter c = true ∧ Inert (c :: r) ∧ (c :: r).length ≤ 212
        ∧ readSymbol syms (c :: r) = some (m, s, d) := by
    intro how off m h1 h2 h3 h4 h5 h6 d h7
    have he : name s ++ (how ++ off) = c :: (r ++ (how ++ off)) := by rw [hc]; rfl
    refine ⟨c, r ++ (how ++ off), he, hl, he ▸ hi.append h5, ?_, ?_⟩
    · rw [← he, List.length_append]; omega
    · rw [← he, readSymbol_of hn.found hn.word h1 h2 h3 h4, h7]; rfl
  unfold symText
  rw [hs]
  cases t with
  | got =>
    have hd0 : a.disp = 0 := by rcases ht with h | h; · cases h
                                · exact h
    obtain ⟨c, r, h1, h2⟩ := mk (str% "@GOTPCREL") [] .got (.inr ⟨_, rfl⟩) (by decide) (by decide) (.inl rfl)
      (show Inert (str% "@GOTPCREL") by unfold Inert; decide) (by decide) 0 rfl
    rw [hd0]
    simp only [if_true]
    rw [List.append_nil] at h1
    exact ⟨c, r, by rw [h1], h2⟩
  | plt =>
    have hd0 : a.disp = 0 := by rcases ht with h | h; · cases h
                                · exact h
    obtain ⟨c, r, h1, h2⟩ := mk (str% "@PLT") [] .plt (.inr ⟨_, rfl⟩) (by decide) (by decide) (.inl rfl)
      (show Inert (str% "@PLT") by unfold Inert; decide) (by decide) 0 rfl
    rw [hd0]
    simp only [if_true]
    rw [List.append_nil] at h1
    exact ⟨c, r, by rw [h1], h2⟩
  | normal =>
    simp only
    have hlen10 : a.disp.natAbs < 10 ^ 10 := by have := hd.1; have := hd.2; omega
    by_cases h0 : a.disp = 0
    · rw [if_neg (by simpa using h0)]
      obtain ⟨c, r, h1, h2⟩ := mk [] [] .normal (.inl rfl) (by simp) rfl (.inl rfl) (by intro c hc; simp at hc)
        (by decide) 0 rfl
      rw [h0]
      exact ⟨c, r, by rw [← h1]; rfl, h2⟩
    · rw [if_pos h0]
      by_cases hp : a.disp > 0
      · rw [if_pos hp]
        have ht : intText a.disp = natText a.disp.natAbs := by unfold intText; rw [if_neg (by omega)]
        obtain ⟨c, r, h1, h2⟩ := mk [] (chr% '+' :: intText a.disp) .normal (.inl rfl) (by simp) rfl
          (.inr ⟨_, _, rfl, .inl rfl⟩)
          (by
            intro c hc
            rcases List.mem_cons.mp hc with rfl | hc
            · decide
            · exact intText_inert _ c hc)
          (by have := intText_length hlen10; simp only [List.nil_append, List.length_cons]; omega) a.disp
          (by
            rw [offset, ht, readNat_text, Option.map_some, if_pos rfl]
            rw [show (a.disp.natAbs : Int) = a.disp by omega])
        exact ⟨c, r, by rw [← h1]; rfl, h2⟩
      · rw [if_neg hp]
        have ht : intText a.disp = chr% '-' :: natText a.disp.natAbs := by
          unfold intText; rw [if_pos (by omega)]
        obtain ⟨c, r, h1, h2⟩ := mk [] (intText a.disp) .normal (.inl rfl) (by simp) rfl
          (.inr ⟨_, _, ht, .inr rfl⟩) (intText_inert _)
          (by have := intText_length hlen10; simp only [List.nil_append]; omega) a.disp
          (by
            rw [ht, offset, readNat_text, Option.map_some, if_neg (by decide)]
            rw [show -(a.disp.natAbs : Int) = a.disp by omega])
        exact ⟨c, r, by rw [← h1], h2⟩

/-- The displacement alone. -/
theorem disp_text {name : Nat → Bytes} {a : Addr} (hs : a.sym = none) (hd : IntRange a.disp) :
    ∃ t, symText name a = some t ∧ Inert t ∧ t.length ≤ 11 ∧ numeric t = true
      ∧ (if t = [] then some 0 else readInt t) = some a.disp
      ∧ (t = [] ∨ ∃ c r, t = c :: r ∧ (Gas.isDigit c || c == chr% '-') = true) := by
  by_cases h0 : a.disp = 0
  · have ht : symText name a = some [] := by
      unfold symText
      rw [hs]
      exact congrArg some (if_neg (by simpa using h0))
    rw [ht, h0]
    exact ⟨[], rfl, (by intro c hc; simp at hc), by decide, rfl, rfl, .inl rfl⟩
  · have ht : symText name a = some (intText a.disp) := by
      unfold symText
      rw [hs]
      exact congrArg some (if_pos h0)
    obtain ⟨c, r, hc, hn⟩ := intText_head a.disp
    rw [ht]
    refine ⟨_, rfl, intText_inert _, intText_length (by have := hd.1; have := hd.2; omega), ?_, ?_,
      .inr ⟨c, r, hc, hn⟩⟩
    · rw [hc]; exact hn
    · rw [if_neg (by rw [hc]; simp), readInt_text]

theorem gpr_base {r : Nat} (h : r ∈ Encode.gprs) :
    ∃ s, regname 8 r = some s ∧ readBase s = some (r - 1) ∧ Inert s ∧ s.length ≤ 5 ∧ s ≠ [] := by
  obtain ⟨s, h1, h2, h3, h4⟩ := gprText r h 8 (by decide)
  refine ⟨_, h1, by unfold readBase; simp only [h2], ?_, by simp; omega, by simp⟩
  intro c hc
  rcases List.mem_cons.mp hc with rfl | hc
  · decide
  · exact List.all_eq_true.mp h3 c hc

theorem scale_text {n : Nat} (h : n ∈ [1, 2, 4, 8]) :
    readScale (intText n) = some n ∧ Inert (intText n) ∧ (intText n).length ≤ 1 := by
  have h1 : intText n = natText n := by unfold intText; rw [if_neg (by omega)]; rfl
  refine ⟨?_, intText_inert _, ?_⟩
  · unfold readScale
    rw [h1, readNat_text, Option.bind_some, if_pos]
    simpa using h
  · rw [h1]
    refine natText_length 0 n ?_
    simp only [List.mem_cons, List.not_mem_nil, or_false] at h
    rcases h with rfl | rfl | rfl | rfl <;> decide

/-- The registers. -/
theorem regs_text {a : Addr} (hb : a.base ∈ Encode.gprs ∨ a.base = 0 ∧ a.index ≠ 0)
    (hi : a.index = 0 ∧ a.scale = 0 ∨ a.index ∈ Encode.gprs ∧ a.index ≠ Encode.SP ∧ a.scale ∈ [1, 2, 4, 8]) :
    ∃ inner, regsText a = some (str% "(" ++ (inner ++ str% ")")) ∧ Solid 1 inner ∧ inner.length ≤ 16
      ∧ readRegs (splitComma inner)
        = some (if a.base = 0 then none else some (a.base - 1),
            if a.index = 0 then none else some (a.index - 1, if a.scale = 0 then 1 else a.scale)) := by
  have hn0 : ∀ {r}, r ∈ Encode.gprs → r ≠ 0 := fun {r} h =>
    (show ∀ r ∈ Encode.gprs, r ≠ 0 by decide) r h
  have h4 : ∀ {r}, r ∈ Encode.gprs → r ≠ Encode.SP → r - 1 ≠ 4 := fun {r} h =>
    (show ∀ r ∈ Encode.gprs, r ≠ Encode.SP → r - 1 ≠ 4 by decide) r h
  unfold regsText
  rcases hb with hb | ⟨hb, hi0⟩
  · obtain ⟨b, b1, b2, b3, b4, b5⟩ := gpr_base hb
    rw [if_pos (hn0 hb), b1, Option.bind_some, if_neg (hn0 hb)]
    rcases hi with ⟨hi, hs⟩ | ⟨hi, hsp, hs⟩
    · rw [if_neg (by simpa using hi), if_pos hs, if_pos hi]
      refine ⟨b, rfl, b3.solid, by omega, ?_⟩
      rw [splitComma_last b3]
      simp only [readRegs, b2, Option.map_some]
    · obtain ⟨i, i1, i2, i3, i4, _⟩ := gpr_base hi
      obtain ⟨s1, s2, s3⟩ := scale_text hs
      rw [if_pos (hn0 hi), i1, Option.map_some, if_neg (hn0 hi)]
      refine ⟨b ++ (str% "," ++ (i ++ (str% "," ++ intText a.scale))), by simp, ?_, ?_, ?_⟩
      · exact b3.solid.append (comma_solid.append (i3.solid.append (comma_solid.append s2.solid)))
      · simp; omega
      · rw [show b ++ (str% "," ++ (i ++ (str% "," ++ intText a.scale)))
            = b ++ (chr% ',' :: (i ++ (chr% ',' :: intText a.scale))) from rfl,
          splitComma_inert b3, splitComma_inert i3, splitComma_last s2]
        have : a.scale ≠ 0 := by intro h; rw [h] at hs; revert hs; decide
        simp only [readRegs, b2, i2, s1, Option.map_some, Option.bind_some, if_neg b5, if_neg (h4 hi hsp),
          if_neg this]
  · rcases hi with ⟨hi, _⟩ | ⟨hi, hsp, hs⟩
    · exact absurd hi hi0
    · obtain ⟨i, i1, i2, i3, i4, _⟩ := gpr_base hi
      obtain ⟨s1, s2, s3⟩ := scale_text hs
      rw [if_neg (by simpa using hb), if_pos hi0, i1, Option.map_some, if_pos hb, if_neg hi0]
      refine ⟨str% "," ++ (i ++ (str% "," ++ intText a.scale)), by simp, ?_, ?_, ?_⟩
      · exact comma_solid.append (i3.solid.append (comma_solid.append s2.solid))
      · simp; omega
      · rw [show str% "," ++ (i ++ (str% "," ++ intText a.scale))
            = [] ++ (chr% ',' :: (i ++ (chr% ',' :: intText a.scale))) from rfl,
          splitComma_inert (t := []) (by intro c hc; simp at hc), splitComma_inert i3, splitComma_last s2]
        have : a.scale ≠ 0 := by intro h; rw [h] at hs; revert hs; decide
        simp only [readRegs, i2, s1, Option.bind_some, if_true, if_neg (h4 hi hsp), if_neg this]

/-- How an address starts. -/
def starts (c : UInt8) : Bool := isLetter c || Gas.isDigit c || c == chr% '-' || c == chr% '('

theorem address_text {syms : Bytes → Option Nat} {name : Nat → Bytes} {a : Addr} (h : Written syms name a) :
    ∃ c r, addressText name a = some (c :: r) ∧ starts c = true ∧ Solid 0 (c :: r)
      ∧ readAddress syms (c :: r) = some (.mem (memOf a) (refOf a), refOf a) := by
  obtain ⟨hd, h⟩ := h
  unfold addressText
  cases hs : a.sym with
  | some p =>
    obtain ⟨t, s⟩ := p
    rw [hs] at h
    obtain ⟨hn, hb, hi, hsc, ht⟩ := h
    obtain ⟨c, r, h1, h2, h3, h4, h5⟩ := symbol_text hs hn hd (by rcases ht with h | h; exact .inl h; exact .inr h.2)
    have hr : regsText a = some (str% "(" ++ (str% "%rip" ++ str% ")")) := by
      unfold regsText
      rw [hb, hi, hsc]
      rfl
    rw [h1, hr, Option.bind_some, Option.bind_some, if_pos (by simp at h4 ⊢; omega)]
    refine ⟨c, r ++ (str% "(" ++ (str% "%rip" ++ str% ")")), rfl, by unfold starts; rw [h2]; rfl, ?_, ?_⟩
    · exact h3.solid.append (parens_solid (Inert.solid (by unfold Inert; decide)))
    · rw [← List.cons_append]
      unfold readAddress
      rw [parens_inner h3, Option.bind_some]
      simp only
      rw [if_neg (by show ¬ (Gas.isDigit c || c == chr% '-') = true; rw [letter_ne c h2]; decide), if_pos (by trivial), h5]
      simp only [Option.map_some, memOf, refOf, hs]
  | none =>
    rw [hs] at h
    obtain ⟨t, h1, h2, h3, h4, h5, h6⟩ := disp_text (name := name) hs hd
    obtain ⟨inner, i1, i2, i3, i4⟩ := regs_text h.1 h.2
    rw [h1, i1, Option.bind_some, Option.bind_some, if_pos (by simp; omega)]
    have hread : readAddress syms (t ++ (str% "(" ++ (inner ++ str% ")"))) = some (.mem (memOf a) (refOf a), refOf a) := by
      unfold readAddress
      rw [parens_inner h2, Option.bind_some]
      simp only
      rw [if_pos h4, h5, Option.bind_some, i4]
      simp only [Option.map_some, memOf, refOf, hs, Option.map_none]
    have hsolid : Solid 0 (t ++ (str% "(" ++ (inner ++ str% ")"))) := h2.solid.append (parens_solid i2)
    rcases h6 with rfl | ⟨c, r, rfl, hc⟩
    · exact ⟨_, _, rfl, by decide, hsolid, hread⟩
    · refine ⟨c, _, rfl, ?_, hsolid, hread⟩
      unfold starts
      rw [Bool.or_assoc (isLetter c), hc, Bool.or_true]; rfl

end Verif.Asm.Printed
