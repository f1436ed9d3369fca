import Verif.Lex.StringLemmas
/-! # C05, C13, C61 — string literals -/
namespace Verif.Lex
open Spec

/-- **C05.** The text written for a string is a C string literal denoting exactly its bytes. -/
theorem C05_printed_text_denotes (s : Bytes) : Literal (fprintstr s) s :=
  ⟨s.flatMap printChar, rfl, print_body _ s⟩

/-- **C05** (uniqueness). A literal denotes at most one byte sequence, so the printed text can
not be read as anything else. -/
theorem C05_denotation_unique {text a b : Bytes} (h1 : Literal text a) (h2 : Literal text b) :
    a = b := by
  obtain ⟨t1, e1, b1⟩ := h1
  obtain ⟨t2, e2, b2⟩ := h2
  rw [e1] at e2
  simp only [List.cons_append, List.nil_append, List.cons.injEq, true_and] at e2
  have : t1 = t2 := by
    have := congrArg List.dropLast e2
    simpa using this
  subst this
  exact body_unique b1 b2

/-- **C05** (own reader). Re-reading the printed text with the compiler's own tokeniser and
escape conversion returns the original bytes and stops right after the literal. -/
theorem C05_own_reader_round_trip (s rest : Bytes) :
    ∃ raw, strtostr (fprintstr s ++ rest) = some (raw, rest) ∧ convertString raw = some s := by
  have hb := print_body (fun x => ¬ LooksPrefixed x) s
  refine ⟨s.flatMap printChar, ?_, convert_body hb _ (Nat.le_refl _)⟩
  have := strtostr_body hb rest
  simpa [fprintstr] using this

example : fprintstr [0, 34, 92, 255, 49, 10] = str% "\"\\000\\\"\\\\\\3771\\n\"" := by decide

/-- **C13.** For every argument without stray backslashes, the token made by `#` becomes, after
conversion, the spelling of the argument with white space normalised. -/
theorem C13_stringify_spelling (l : List STok) (h : ∀ t ∈ l, Plain t) :
    ∃ s, stringify l = some s ∧ deliver s = some (argText l) := by
  unfold stringify
  cases l with
  | nil => exact ⟨_, rfl, rfl⟩
  | cons t ts =>
    simp only
    split
    · rename_i hc
      refine ⟨_, rfl, ?_⟩
      simp [deliver, argText, spelling, hc.1, hc.2]
    · rw [if_neg (loop_last _ h)]
      exact ⟨_, rfl, conv_list _ h _ (Nat.le_refl _)⟩

/-- `#x` for `"a\n" , 'b'` : quotes and backslashes inside literals are escaped. -/
example : (stringify [⟨.string, str% "a\\n", 3⟩, ⟨.other, str% ",", 1⟩, ⟨.char, str% "\\\\", 2⟩]).bind deliver
    = some (str% "\"a\\n\" , '\\\\'") ∧
    (∀ t ∈ [STok.mk .string (str% "a\\n") 3, ⟨.other, str% ",", 1⟩, ⟨.char, str% "\\\\", 2⟩], Plain t) := by
  decide

/-- **C61** (partial). The full property is `∀ t bs, Body t bs → convertString t = some bs`.
It holds for literals in which no hexadecimal escape has digits that look like `0x..`. -/
theorem C61_escape_values_partial {t bs : Bytes} (h : BodyP (fun x => ¬ LooksPrefixed x) t bs) :
    convertString t = some bs := convert_body h _ (Nat.le_refl _)

/-- `\x41\101B` -/
example : convertString (str% "\\x4a\\1012\\?") = some (str% "JA2?") := by decide

/-- The text between the quotes is delimited correctly for every literal body. -/
theorem C61_literal_extent {t bs : Bytes} (h : Body t bs) (rest : Bytes) :
    strtostr (chr% '"' :: (t ++ chr% '"' :: rest)) = some (t, rest) := strtostr_body h rest

/-- **C61** violated: `"\x0x41"` denotes a NUL byte followed by `x41`, but the compiler reads the
single byte `A`, because `strtol` with base 16 skips a `0x` prefix (tokenize.c:309). -/
theorem C61_hex_prefix_violated :
    Body (str% "\\x0x41") (0 :: str% "x41") ∧ convertString (str% "\\x0x41") = some (str% "A") := by
  refine ⟨?_, by decide⟩
  have h : Digits hexs 16 ([] ++ [chr% '0']) (0 * 16 + 0) := Digits.snoc Digits.nil (by decide)
  have h4 : Body (str% "x41") (str% "x41") :=
    .plain (by decide) (by decide) (by decide) (.plain (by decide) (by decide) (by decide)
      (.plain (by decide) (by decide) (by decide) .nil))
  exact BodyP.hex (ds := [chr% '0']) (t := str% "x41") (n := 0) h (by decide) (by
    intro c hc v
    simp only [List.head?_cons, Option.mem_some_iff] at hc
    subst hc
    simp [hexs, octs]) (by decide) trivial h4

end Verif.Lex
