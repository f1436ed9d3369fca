import Verif.Listing.Model
import Verif.Listing.Spec
import Verif.Asm.OutAddress
import Verif.Lex.StringLemmas
import Verif.Elf.Object
import Verif.Word

/-!
# Lemmas: reading printed lines
-/

namespace Verif.Listing

open Gas
open Asm (natText intText stored)
open Asm.Printed (Named IntRange Inert readNat_text readInt_text natText_digits intText_head natText_head
  takeWhile_stop splitComma_inert splitComma_last natText_inert intText_inert named_inert symbol_text)
open Asm.Gas (skip isWord isDigit isLetter isBlank readNat readInt readSymbol splitComma)

/-- No end of line. -/
def Flat (t : Bytes) : Prop := (10 : UInt8) ∉ t

theorem Flat.append {a b : Bytes} (ha : Flat a) (hb : Flat b) : Flat (a ++ b) := by
  intro h
  rcases List.mem_append.mp h with h | h
  · exact ha h
  · exact hb h

theorem flat_nat (n : Nat) : Flat (natText n) := fun h => absurd (natText_digits n 10 h) (by decide)

theorem flat_int (x : Int) : Flat (intText x) := by
  unfold intText
  split_ifs
  · intro h
    rcases List.mem_cons.mp h with h | h
    · exact absurd h (by decide)
    · exact flat_nat _ h
  · exact flat_nat _

theorem flat_name {syms name s} (h : Named syms name s) : Flat (name s) :=
  fun hc => absurd (h.word 10 hc) (by decide)

theorem flat_char (c : UInt8) : Flat (Lex.printChar c) := by
  revert c
  unfold Flat
  apply Lex.forall_byte
  decide +kernel

theorem flat_chars (s : Bytes) : Flat (s.flatMap Lex.printChar) := by
  intro h
  obtain ⟨c, _, hc⟩ := List.mem_flatMap.mp h
  exact flat_char c hc

theorem flat_string (s : Bytes) : Flat (Lex.fprintstr s) := by
  unfold Lex.fprintstr
  exact ((show Flat [chr% '"'] by unfold Flat; decide).append (flat_chars s)).append (by unfold Flat; decide)

theorem lines_line {l : Bytes} (h : Flat l) (t : Bytes) : lines (ln l ++ t) = l :: lines t := by
  unfold ln
  induction l with
  | nil => rfl
  | cons c l ih =>
    have h1 : c ≠ 10 := fun e => h (by rw [e]; exact List.mem_cons_self)
    have h2 := ih (fun e => h (List.mem_cons_of_mem _ e))
    simp only [List.cons_append, lines, if_neg h1]
    rw [h2]

/-- A text takes what has been read from one state to another. -/
def Does (syms : Bytes → Option Nat) (a : Image) (t : Bytes) (b : Image) : Prop :=
  ∀ rest, Gas.read syms a (t ++ rest) = Gas.read syms b rest

theorem Does.nil {syms a} : Does syms a [] a := fun _ => rfl

theorem Does.trans {syms a b c t u} (h1 : Does syms a t b) (h2 : Does syms b u c) : Does syms a (t ++ u) c := by
  intro rest
  rw [List.append_assoc, h1, h2]

theorem Does.line {syms a b l} (hf : Flat l) (h : Gas.line syms a l = some b) : Does syms a (ln l) b := by
  intro rest
  unfold Gas.read
  rw [lines_line hf, List.foldlM_cons, h]
  rfl

theorem skip_word {c : UInt8} (h : isBlank c = false) (t : Bytes) : skip (c :: t) = c :: t := by
  unfold skip
  rw [List.dropWhile_cons, if_neg (by simp [h])]

theorem word_not_blank : ∀ c, isWord c = true → isBlank c = false := by
  apply Lex.forall_byte; decide +kernel

/-- A directive with an argument. -/
theorem line_arg {syms a} {w : Bytes} (hw : w.all isWord = true) (hne : w ≠ []) {c : UInt8} (hc : isBlank c = true) (x : Bytes) :
    Gas.line syms a (9 :: (w ++ c :: x)) = a.statement syms (9 :: (w ++ c :: x)) w (skip x) := by
  obtain ⟨d, v, rfl⟩ := List.exists_cons_of_ne_nil hne
  have hd : isWord d = true := by simp at hw; exact hw.1
  have h1 : skip (9 :: (d :: v ++ c :: x)) = d :: v ++ c :: x := by
    rw [show skip (9 :: (d :: v ++ c :: x)) = skip (d :: (v ++ c :: x)) from rfl, skip_word (word_not_blank d hd)]
    rfl
  have hcw : isWord c = false := by
    cases e : isWord c with
    | false => rfl
    | true => rw [word_not_blank c e] at hc; cases hc
  have h2 := takeWhile_stop (p := isWord) (a := d :: v) (fun e he => List.all_eq_true.mp hw e he) (b := c :: x)
    (.inr ⟨c, x, rfl, hcw⟩)
  unfold Gas.line
  simp only [h1, h2.1, h2.2]
  rw [if_neg (by intro e; subst e; exact absurd hc (by decide))]
  congr 1
  unfold skip
  rw [List.dropWhile_cons, if_pos hc]

theorem line_bare {syms a} {w : Bytes} (hw : w.all isWord = true) (hne : w ≠ []) :
    Gas.line syms a (9 :: w) = a.statement syms (9 :: w) w [] := by
  obtain ⟨d, v, rfl⟩ := List.exists_cons_of_ne_nil hne
  have hd : isWord d = true := by simp at hw; exact hw.1
  have h1 : skip (9 :: (d :: v)) = d :: v := by
    rw [show skip (9 :: (d :: v)) = skip (d :: v) from rfl, skip_word (word_not_blank d hd)]
  have h2 := takeWhile_stop (p := isWord) (a := d :: v) (fun e he => List.all_eq_true.mp hw e he) (b := []) (.inl rfl)
  rw [List.append_nil] at h2
  unfold Gas.line
  simp only [h1, h2.1, h2.2]

theorem does_bare {syms a b} {w : Bytes} {d : Dir} (hw : w.all isWord = true) (hne : w ≠ []) (hf : Flat w)
    (hd : directives.lookup w = some d) (h : a.directive syms d [] = some b) : Does syms a (ln (9 :: w)) b := by
  refine Does.line (fun h => ?_) ?_
  · rcases List.mem_cons.mp h with h | h
    · exact absurd h (by decide)
    · exact hf h
  · rw [line_bare hw hne]
    unfold Image.statement
    rw [hd]
    exact h

theorem does_arg {syms a b} {w : Bytes} {d : Dir} (hw : w.all isWord = true) (hne : w ≠ []) {c : UInt8}
    (hc : isBlank c = true) (hd : directives.lookup w = some d) {x : Bytes} (hf : Flat x)
    (hx : ∃ e y, x = e :: y ∧ isBlank e = false)
    (h : a.directive syms d x = some b) : Does syms a (ln (9 :: (w ++ c :: x))) b := by
  obtain ⟨e, y, rfl, he⟩ := hx
  refine Does.line (fun h => ?_) ?_
  · rcases List.mem_cons.mp h with h | h
    · exact absurd h (by decide)
    · rcases List.mem_append.mp h with h | h
      · exact absurd (List.all_eq_true.mp hw 10 h) (by decide)
      · rcases List.mem_cons.mp h with h | h
        · rw [← h] at hc; exact absurd hc (by decide)
        · exact hf h
  · rw [line_arg hw hne hc, skip_word he]
    unfold Image.statement
    rw [hd]
    exact h

/-! ## Kinds of lines -/

theorem head_nat (n : Nat) : ∃ e y, natText n = e :: y ∧ isBlank e = false := by
  obtain ⟨c, r, h, _⟩ := natText_head n
  have := natText_digits n c (by rw [h]; exact List.mem_cons_self)
  refine ⟨c, r, h, ?_⟩
  cases e : isBlank c with
  | false => rfl
  | true => exact absurd this (by
      have : ∀ c, isBlank c = true → ¬ isDigit c = true := by apply Lex.forall_byte; decide +kernel
      exact this c e)

theorem head_int (x : Int) : ∃ e y, intText x = e :: y ∧ isBlank e = false := by
  obtain ⟨c, r, h, hc⟩ := intText_head x
  refine ⟨c, r, h, ?_⟩
  have : ∀ c, (isDigit c || c == chr% '-') = true → isBlank c = false := by apply Lex.forall_byte; decide +kernel
  exact this c hc

theorem head_name {syms name s} (h : Named syms name s) (t : Bytes) : ∃ e y, name s ++ t = e :: y ∧ isBlank e = false := by
  obtain ⟨c, r, hc, hl⟩ := h.head
  refine ⟨c, r ++ t, by rw [hc]; rfl, word_not_blank c ?_⟩
  unfold isWord
  rw [hl]; rfl

theorem does_section {syms a} (s : Sec) : Does syms a (ln (match s with
      | .text => str% "\t.text"
      | .data => str% "\t.data"
      | .rodata => str% "\t.section\t.rodata")) { a with sec := s } := by
  cases s
  · exact does_bare (w := str% ".text") (d := .goto .text) (by decide) (by decide) (by unfold Flat; decide) (by decide) rfl
  · exact does_bare (w := str% ".data") (d := .goto .data) (by decide) (by decide) (by unfold Flat; decide) (by decide) rfl
  · exact does_arg (w := str% ".section") (d := .named) (c := 9) (x := str% ".rodata") (by decide) (by decide) (by decide)
      (by decide) (by unfold Flat; decide) ⟨_, _, rfl, by decide⟩ rfl

theorem does_align {syms a b} {n : Nat} (hn : 0 < n) (h : a.emit (List.replicate ((n - a.here % n) % n) 0) = some b) :
    Does syms a (ln (str% "\t.align\t" ++ natText n)) b := by
  refine does_arg (w := str% ".align") (d := .align) (c := 9) (x := natText n) (by decide) (by decide) (by decide) (by decide)
    (flat_nat n) (head_nat n) ?_
  simp only [Image.directive, readNat_text, Option.bind_some, if_neg (show n ≠ 0 by omega)]
  exact h

theorem does_label {syms name a} {s : Nat} (h : Named syms name s) : Does syms a (ln (name s ++ str% ":")) (a.label s) := by
  refine Does.line ((flat_name h).append (by unfold Flat; decide)) ?_
  obtain ⟨c, r, hc, hl⟩ := h.head
  have hw : isWord c = true := by unfold isWord; rw [hl]; rfl
  have h1 : skip (name s ++ str% ":") = name s ++ str% ":" := by
    rw [hc]; exact skip_word (word_not_blank c hw) _
  have h2 := takeWhile_stop (p := isWord) h.word (b := str% ":") (.inr ⟨_, _, rfl, by decide⟩)
  unfold Gas.line
  simp only [h1, h2.1, h2.2, if_true, h.found, Option.map_some]

theorem does_globl {syms name a} {s : Nat} (h : Named syms name s) :
    Does syms a (ln (str% "\t.globl\t" ++ name s)) { a with globals := a.globals ++ [s] } := by
  have hh := head_name h []
  rw [List.append_nil] at hh
  refine does_arg (w := str% ".globl") (d := .globl) (c := 9) (x := name s) (by decide) (by decide) (by decide) (by decide)
    (flat_name h) hh ?_
  simp only [Image.directive, h.found, Option.map_some]

theorem does_local {syms name a} {s : Nat} (h : Named syms name s) :
    Does syms a (ln (str% "\t.local\t" ++ name s)) { a with locals := a.locals ++ [s] } := by
  have hh := head_name h []
  rw [List.append_nil] at hh
  refine does_arg (w := str% ".local") (d := .loc) (c := 9) (x := name s) (by decide) (by decide) (by decide) (by decide)
    (flat_name h) hh ?_
  simp only [Image.directive, h.found, Option.map_some]

theorem comma_two {x y : Bytes} (hx : Inert x) (hy : splitComma y = [y]) : splitComma (x ++ (chr% ',' :: y)) = [x, y] := by
  rw [splitComma_inert hx, hy]

theorem does_type {syms name a} {s : Nat} (h : Named syms name s) (f : Bool) :
    Does syms a (ln (str% "\t.type\t" ++ (name s ++ if f then str% ", @function" else str% ", @object")))
      { a with types := a.types ++ [(s, f)] } := by
  cases f
  · refine does_arg (w := str% ".type") (d := .type) (c := 9) (x := name s ++ str% ", @object") (by decide) (by decide)
      (by decide) (by decide) ((flat_name h).append (by unfold Flat; decide)) (head_name h _) ?_
    have := comma_two (y := str% " @object") (named_inert h) (by decide)
    simp only [Image.directive]
    rw [show name s ++ str% ", @object" = name s ++ (chr% ',' :: str% " @object") from rfl, this]
    simp only [h.found, Option.bind_some]
    rw [if_neg (by decide), if_pos (by decide)]
  · refine does_arg (w := str% ".type") (d := .type) (c := 9) (x := name s ++ str% ", @function") (by decide) (by decide)
      (by decide) (by decide) ((flat_name h).append (by unfold Flat; decide)) (head_name h _) ?_
    have := comma_two (y := str% " @function") (named_inert h) (by decide)
    simp only [Image.directive]
    rw [show name s ++ str% ", @function" = name s ++ (chr% ',' :: str% " @function") from rfl, this]
    simp only [h.found, Option.bind_some]
    rw [if_pos (by decide)]

theorem splitComma_blank (t : Bytes) (h : Inert t) : splitComma (32 :: t) = [32 :: t] := by
  rw [splitComma, if_neg (by decide), splitComma_last h]
  rfl

theorem does_size {syms name a} {s : Nat} (h : Named syms name s) (n : Nat) :
    Does syms a (ln (str% "\t.size\t" ++ (name s ++ (str% ", " ++ natText n)))) { a with sizes := a.sizes ++ [(s, n)] } := by
  refine does_arg (w := str% ".size") (d := .size) (c := 9) (x := name s ++ (str% ", " ++ natText n)) (by decide) (by decide)
    (by decide) (by decide) ((flat_name h).append ((show Flat (str% ", ") by unfold Flat; decide).append (flat_nat n)))
    (head_name h _) ?_
  have := comma_two (y := 32 :: natText n) (named_inert h) (splitComma_blank _ (natText_inert n))
  simp only [Image.directive]
  rw [show name s ++ (str% ", " ++ natText n) = name s ++ (chr% ',' :: 32 :: natText n) from rfl, this]
  obtain ⟨e, y, he, hb⟩ := head_nat n
  have hs : skip (32 :: natText n) = natText n := by
    rw [show skip (32 :: natText n) = skip (natText n) from rfl, he]
    exact skip_word hb y
  simp only [h.found, Option.bind_some, hs, readNat_text, Option.map_some]
  rw [if_neg]
  intro e2
  have := natText_digits n (chr% '.') (by rw [e2]; exact List.mem_cons_self)
  exact absurd this (by decide)

theorem does_flush {syms name a} {s : Nat} (h : Named syms name s) (ha : a.sec = .text) :
    Does syms a (ln (str% "\t.size\t" ++ (name s ++ (str% ", .-" ++ name s)))) a := by
  refine does_arg (w := str% ".size") (d := .size) (c := 9) (x := name s ++ (str% ", .-" ++ name s)) (by decide) (by decide)
    (by decide) (by decide) ((flat_name h).append ((show Flat (str% ", .-") by unfold Flat; decide).append (flat_name h)))
    (head_name h _) ?_
  have hi : Inert (str% ".-" ++ name s) := Inert.append (by unfold Inert; decide) (named_inert h)
  have := comma_two (y := 32 :: (str% ".-" ++ name s)) (named_inert h) (splitComma_blank _ hi)
  simp only [Image.directive]
  rw [show name s ++ (str% ", .-" ++ name s) = name s ++ (chr% ',' :: 32 :: (str% ".-" ++ name s)) from rfl, this]
  have hs : skip (32 :: (str% ".-" ++ name s)) = str% ".-" ++ name s := by
    rw [show skip (32 :: (str% ".-" ++ name s)) = skip (str% ".-" ++ name s) from rfl]
    exact skip_word (c := chr% '.') (by decide) _
  simp only [h.found, Option.bind_some, hs, if_true, ha]

theorem does_comm {syms name a} {s : Nat} (h : Named syms name s) (n k : Nat) :
    Does syms a (ln (str% "\t.comm\t" ++ (name s ++ (str% "," ++ (natText n ++ (str% "," ++ natText k))))))
      { a with commons := a.commons ++ [(s, n, k)] } := by
  refine does_arg (w := str% ".comm") (d := .comm) (c := 9) (x := name s ++ (str% "," ++ (natText n ++ (str% "," ++ natText k))))
    (by decide) (by decide) (by decide) (by decide)
    ((flat_name h).append ((show Flat (str% ",") by unfold Flat; decide).append
      ((flat_nat n).append ((show Flat (str% ",") by unfold Flat; decide).append (flat_nat k)))))
    (head_name h _) ?_
  have := splitComma_inert (natText_inert n) (natText k)
  rw [splitComma_last (natText_inert k)] at this
  have h2 := splitComma_inert (named_inert h) (natText n ++ (chr% ',' :: natText k))
  rw [this] at h2
  simp only [Image.directive]
  rw [show name s ++ (str% "," ++ (natText n ++ (str% "," ++ natText k)))
    = name s ++ (chr% ',' :: (natText n ++ (chr% ',' :: natText k))) from rfl, h2]
  simp only [h.found, Option.bind_some, readNat_text, Option.map_some]

theorem does_zero {syms a b} {n : Nat} (h : a.emit (List.replicate n 0) = some b) :
    Does syms a (ln (str% "\t.zero " ++ natText n)) b := by
  refine does_arg (w := str% ".zero") (d := .zero) (c := 32) (x := natText n) (by decide) (by decide) (by decide) (by decide)
    (flat_nat n) (head_nat n) ?_
  simp only [Image.directive, readNat_text, Option.bind_some]
  exact h

/-- Numbers. -/
theorem directive_int {syms} {a b : Image} {n : Nat} {v : Int} (hr : -(2 ^ (8 * n - 1) : Int) ≤ v ∧ v < 2 ^ (8 * n))
    (h : a.emit (low n v) = some b) : a.directive syms (.int n) (intText v) = some b := by
  obtain ⟨c, r, hc, hd⟩ := intText_head v
  have := readInt_text v
  rw [hc] at this ⊢
  simp only [Image.directive, hd, if_true, this, Option.bind_some]
  unfold Image.number
  rw [if_pos hr]
  exact h

/-- Strings. -/
theorem chars_print (s : Bytes) : ∀ f, s.length < f → chars f (s.flatMap Lex.printChar ++ [chr% '"']) = some s := by
  induction s with
  | nil =>
    intro f hf
    obtain ⟨f, rfl⟩ := Nat.exists_eq_succ_of_ne_zero (show f ≠ 0 by omega)
    rfl
  | cons c s ih =>
    intro f hf
    obtain ⟨f, rfl⟩ := Nat.exists_eq_succ_of_ne_zero (show f ≠ 0 by omega)
    have ih := ih f (by simp at hf; omega)
    rw [List.flatMap_cons, List.append_assoc]
    generalize s.flatMap Lex.printChar ++ [chr% '"'] = rest at *
    have key : (Lex.printChar c = [c] ∧ c ≠ 34 ∧ c ≠ 92) ∨
        (∃ e, Lex.printChar c = [92, e] ∧ isOct e = false ∧ letters.lookup e = some c) ∨
        (∃ x y z, Lex.printChar c = [92, x, y, z] ∧ isOct x = true ∧ isOct y = true ∧ isOct z = true ∧
          UInt8.ofNat ((8 * (8 * (8 * 0 + (x.toNat - 48)) + (y.toNat - 48)) + (z.toNat - 48)) % 256) = c) := by
      clear ih hf
      have : ∀ c : UInt8, (match Lex.printChar c with
          | [d] => d == c && c != 34 && c != 92
          | [b, e] => b == 92 && !isOct e && letters.lookup e == some c
          | [b, x, y, z] => b == 92 && isOct x && isOct y && isOct z &&
              UInt8.ofNat ((8 * (8 * (8 * 0 + (x.toNat - 48)) + (y.toNat - 48)) + (z.toNat - 48)) % 256) == c
          | _ => false) = true := by
        apply Lex.forall_byte; decide +kernel
      have := this c
      split at this
      · rename_i d hd
        simp at this
        exact .inl ⟨by rw [hd, this.1.1], this.1.2, this.2⟩
      · rename_i b e hd
        simp at this
        exact .inr (.inl ⟨e, by rw [hd, this.1.1], this.1.2, this.2⟩)
      · rename_i b x y z hd
        simp only [Bool.and_eq_true, beq_iff_eq] at this
        exact .inr (.inr ⟨x, y, z, by rw [hd, this.1.1.1.1], this.1.1.1.2, this.1.1.2, this.1.2, this.2⟩)
      · cases this
    rcases key with ⟨h, h1, h2⟩ | ⟨e, h, h1, h2⟩ | ⟨x, y, z, h, hx, hy, hz, hv⟩
    · rw [h]
      simp only [List.cons_append, List.nil_append, chars, if_neg h1, if_neg h2, ih, Option.map_some]
    · rw [h]
      simp only [List.cons_append, List.nil_append, chars]
      rw [if_neg (by decide), if_pos trivial, h1]
      simp [h2, ih]
    · rw [h]
      simp only [List.cons_append, List.nil_append, chars]
      rw [if_neg (by decide), if_pos trivial]
      simp only [hx, if_true, octal, hy, hz]
      rw [ih, hv]
      rfl

theorem length_print (s : Bytes) : s.length ≤ (s.flatMap Lex.printChar).length := by
  induction s with
  | nil => simp
  | cons c s ih =>
    have : ∀ c, 1 ≤ (Lex.printChar c).length := by apply Lex.forall_byte; decide +kernel
    have := this c
    rw [List.flatMap_cons, List.length_append, List.length_cons]
    omega

theorem readString_print (s : Bytes) : readString (Lex.fprintstr s) = some s := by
  show (if chr% '"' = chr% '"' then _ else none) = _
  rw [if_pos rfl]
  refine chars_print s _ ?_
  have := length_print s
  show s.length < (s.flatMap Lex.printChar ++ [chr% '"']).length
  rw [List.length_append]
  exact Nat.lt_succ_of_le this

theorem does_string {syms a b} {s : Bytes} (z : Bool)
    (h : a.emit (s.map (·.toNat) ++ if z then [0] else []) = some b) :
    Does syms a (ln ((if z then str% "\t.string\t" else str% "\t.ascii\t") ++ Lex.fprintstr s)) b := by
  cases z
  · refine does_arg (w := str% ".ascii") (d := .str false) (c := 9) (x := Lex.fprintstr s) (by decide) (by decide) (by decide)
      (by decide) (flat_string s) ⟨chr% '"', _, rfl, by decide⟩ ?_
    simp only [Image.directive, readString_print, Option.bind_some]
    exact h
  · refine does_arg (w := str% ".string") (d := .str true) (c := 9) (x := Lex.fprintstr s) (by decide) (by decide) (by decide)
      (by decide) (flat_string s) ⟨chr% '"', _, rfl, by decide⟩ ?_
    simp only [Image.directive, readString_print, Option.bind_some]
    exact h

end Verif.Listing
