import Verif.Lex.Retok
/-! # C07, C59, C62, C63 — tokenisation -/
namespace Verif.Lex
open Spec

/-- **C07** (partial: digraphs are missing from the code, see the violation below).  The full
property is the same statement with `punctuators ++ digraphs` for `punctuators`.

For every text whose longest prefix in the list of punctuators is `w`, the tokeniser returns the
token of `w` and stops right after it.  A period followed by a digit is a number, not a punctuator;
a period followed by a byte above 127 is passed to `isdigit` as a negative value. -/
theorem C07_maximal_munch_partial (c99 : Bool) (s w : Bytes) (id : Nat)
    (h : Longest punctuators s w id)
    (hdot : w = str% "." → at' s 1 < 128 ∧ digit (at' s 1) = false) :
    tokenizeInternal c99 s = .tok ⟨id, false, w, 0⟩ (s.drop w.length) :=
  punct_munch c99 s w id h (fun hw => ⟨(hdot hw).1, by rw [(classes _).1]; exact (hdot hw).2⟩)

/-- `>>=1` meets the hypotheses with the three-character punctuator. -/
example : Longest punctuators (str% ">>=1") (str% ">>=") 0x52 := by
  refine ⟨by decide, ⟨str% "1", rfl⟩, ?_⟩
  intro p hp _
  have : ∀ p ∈ punctuators, p.1.length ≤ 3 := by decide +kernel
  exact this p hp

/-- **C07** violated: `<:` is a C99 punctuator (for `[`), but `<` is returned. -/
theorem C07_digraphs_violated : ∃ s w id, Longest (punctuators ++ digraphs) s w id ∧
    tokenizeInternal true s ≠ .tok ⟨id, false, w, 0⟩ (s.drop w.length) ∧
    tokenizeInternal true s = .tok ⟨60, false, str% "<", 0⟩ (str% ":") := by
  refine ⟨str% "<:", str% "<:", 91, ⟨by decide, ⟨[], rfl⟩, ?_⟩, ?_, by decide +kernel⟩
  · intro p hp hpre
    exact hpre.length_le
  · decide +kernel

/-- **C62** (partial).  A letter or underscore starts a word that extends over all following
letters, digits and underscores; the token is the keyword with exactly that spelling if there is
one (`inline` and `restrict` only from C99 on), and an identifier otherwise.

The full property also says that every word is subject to macro replacement; the code makes an
exception for the four words in `neverMacro`. -/
theorem C62_words_partial (c99 : Bool) (c : UInt8) (w rest : Bytes) (hc : nondigit c = true)
    (hw : ∀ x ∈ w, identChar x = true)
    (hr : ∀ x ∈ rest.head?, identChar x = false ∧ x < 128) :
    tokenizeInternal c99 (c :: w ++ rest) =
      .tok ⟨wordId c99 (c :: w), decide ((c :: w) ∉ neverMacro), c :: w, 0⟩ rest := by
  refine word_all c99 hc ⟨rfl, ?_, ?_⟩
  · intro x hx
    simp at hx
    rcases hx with rfl | hx
    · simp [identChar, hc]
    · exact hw x hx
  · cases rest with
    | nil => decide
    | cons x r => exact hr x (by simp)

/-- `intx` is an identifier, `int(` the keyword, `inline` depends on the standard. -/
example : tokenizeInternal true (str% "intx ") = .tok ⟨117, true, str% "intx", 0⟩ (str% " ") ∧
    tokenizeInternal false (str% "int(") = .tok ⟨18, true, str% "int", 0⟩ (str% "(") ∧
    tokenizeInternal false (str% "inline") = .tok ⟨117, true, str% "inline", 0⟩ [] ∧
    tokenizeInternal true (str% "inline") = .tok ⟨32, true, str% "inline", 0⟩ [] := by
  decide +kernel

/-- **C62** violated: the token of `_Bool` is not expandable, so the word can not be a macro name:
`#define _Bool char` ends in a diagnostic (directive.c:620-624). -/
theorem C62_bool_not_expandable_violated :
    tokenizeInternal true (str% "_Bool ") = .tok ⟨0x32, false, str% "_Bool", 0⟩ (str% " ") := by
  decide +kernel

/-- **C63.** A digit, or a period and a digit, starts a number that extends over the longest
prefix that is a preprocessing number. -/
theorem C63_preprocessing_numbers (c99 : Bool) (s : Bytes) (ha : ∀ c ∈ s, c < 128)
    (hd : digit (at' s 0) = true ∨ (at' s 0 = 46 ∧ digit (at' s 1) = true)) :
    ∃ n rest, tokenizeInternal c99 s = .tok ⟨tPREP_NUMBER, false, n, 0⟩ rest ∧ s = n ++ rest ∧
      PPNum c99 n ∧ ∀ m, PPNum c99 m → m <+: s → m.length ≤ n.length := by
  obtain ⟨n, rest, e1, e2, e3, e4⟩ := num_munch c99 s (AsciiRun.of_all ha) hd
  refine ⟨n, rest, e1, e2, e3, ?_⟩
  intro m hm hp
  exact num_longest e3 e4 hm (by rw [← e2]; exact hp)

/-- `.5e+3f+1` and, depending on the standard, `0x1p-2`. -/
example : tokenizeInternal true (str% ".5e+3f+1") = .tok ⟨120, false, str% ".5e+3f", 0⟩ (str% "+1") ∧
    tokenizeInternal true (str% "0x1p-2") = .tok ⟨120, false, str% "0x1p-2", 0⟩ [] ∧
    tokenizeInternal false (str% "0x1p-2") = .tok ⟨120, false, str% "0x1p", 0⟩ (str% "-2") := by
  decide +kernel

/-- **C59** (partial).  The full property is the same statement without the hypothesis that white
space separates the tokens.  For every list of C tokens in which every token but the first is
preceded by white space, tokenising the text written by `-E` gives the list back. -/
theorem C59_retokenise_partial (c99 : Bool) (ts : List Tok)
    (h : ∀ t ∈ ts, IsTok c99 t ∧ t.ws < 65536) (hw : ∀ t ∈ ts.tail, 0 < t.ws) :
    tokenizeAll c99 (ts.length + 1) (printTokens ts) = some ts :=
  retok_all c99 ts h hw _ (by omega)

/-- `x = 'a'` meets the hypotheses. -/
example : let ts : List Tok := [⟨117, true, str% "x", 0⟩, ⟨61, false, str% "=", 1⟩,
      ⟨121, false, str% "a", 3⟩]
    (∀ t ∈ ts, IsTok true t ∧ t.ws < 65536) ∧ (∀ t ∈ ts.tail, 0 < t.ws) := by
  refine ⟨?_, by decide⟩
  intro t ht
  simp only [List.mem_cons, List.not_mem_nil, or_false] at ht
  rcases ht with rfl | rfl | rfl
  · exact ⟨IsTok.word (c := 120) (w := []) (by decide) (by simp), by decide⟩
  · exact ⟨IsTok.punct (by decide), by decide⟩
  · exact ⟨IsTok.char (CharBody.plain (by decide) (by decide)), by decide⟩

/-- **C59** violated: `-` followed by the expansion `-1` of a macro is written as `--1`, which reads
back as `--` and `1`. -/
theorem C59_merged_tokens_violated :
    let ts : List Tok := [⟨45, false, str% "-", 0⟩, ⟨45, false, str% "-", 0⟩, ⟨120, false, str% "1", 0⟩]
    printTokens ts = str% "--1" ∧
    tokenizeAll true 4 (printTokens ts) =
      some [⟨0x49, false, str% "--", 0⟩, ⟨120, false, str% "1", 0⟩] := by
  decide +kernel

end Verif.Lex
