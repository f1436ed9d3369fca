import Verif.Input.Lemmas
import Verif.Input.ChunkLemmas
/-!
# C06 and C66: from the bytes of a file to logical lines

C06, in full: for every file, the lines handed to the tokeniser are the logical lines of translation
phases 1 to 3: trigraphs replaced, backslash-newline pairs deleted, each comment replaced by one
space, literals copied.

C66: the lines do not depend on how the file is cut into buffer reads.
-/
namespace Verif.Input
open Spec

/-- One line.  Whenever the standard gives the text a first logical line, the reader returns that
line, leaves exactly the text after it and counts the physical lines it passed.

Restricted to texts without two adjacent question marks: trigraphs are not covered (and they are
not handled correctly, see the violations below).  The text has no NUL byte in the sense that the
list ends where the buffer does. -/
theorem C06_logical_line_partial (s t r : Bytes) (hN : NoMarks s)
    (h : phase3 .code (splice s) = some (t, r)) :
    ∃ pre rest n, readLine s = .line t rest n ∧ s = pre ++ rest ∧ splice rest = r ∧
      n = pre.count (chr% '\n') := by
  obtain ⟨rest, n, e1, e2, ⟨pre, e3⟩, _, e5⟩ := loop1_spec s [] t r hN (by simp) h
  refine ⟨pre, rest, n, e1, e3.symm, e2, ?_⟩
  rw [← e3] at e5
  simp only [nls, List.count_append] at e5
  omega

/-- The whole file.  A file must not end in a backslash and a newline (C99 5.1.1.2). -/
theorem C06_file_lines_partial (k : Nat) (s : Bytes) (ls : List Bytes) (hN : NoMarks s)
    (hE : ¬ str% "\\\n" <:+ s) (h : logicalLines k (splice s) = some ls) :
    readLines k s = some ls :=
  readLines_spec k s ls hN hE h

instance (s : Bytes) : Decidable (NoMarks s) := inferInstanceAs (Decidable (¬ _))

/-- The hypotheses hold for a text with a splice inside a comment opener, a comment over two lines,
comment openers inside literals and an escaped quote. -/
example : NoMarks (str% "a /\\\n* x\n*\\\n/ \"/*\\\"//\" '\"' // z\nb\n") ∧
    ¬ str% "\\\n" <:+ (str% "a /\\\n* x\n*\\\n/ \"/*\\\"//\" '\"' // z\nb\n") ∧
    logicalLines 3 (splice (str% "a /\\\n* x\n*\\\n/ \"/*\\\"//\" '\"' // z\nb\n")) =
      some [str% "a   \"/*\\\"//\" '\"' ", str% "b"] := by
  decide +kernel

/-- `??` that begins no trigraph: the last character of the line is lost. -/
theorem C06_question_marks_violated :
    phase3 .code (splice (phase1 (str% "a ?? b\n"))) = some (str% "a ?? b", []) ∧
    readLine (str% "a ?? b\n") = .line (str% "a ?? ") [] 1 := by
  decide +kernel

/-- `??/` before a newline is a spliced line, but the reader ends the line there. -/
theorem C06_trigraph_splice_violated :
    phase3 .code (splice (phase1 (str% "a??/\nb\n"))) = some (str% "ab", []) ∧
    readLine (str% "a??/\nb\n") = .line (str% "a\\") (str% "b\n") 1 := by
  decide +kernel

/-- A question mark before a trigraph is lost. -/
theorem C06_three_marks_violated :
    phase3 .code (splice (phase1 (str% "a ???=b\n"))) = some (str% "a ?#b", []) ∧
    readLine (str% "a ???=b\n") = .line (str% "a #b") [] 1 := by
  decide +kernel

/-- **C66** A file that is empty or ends in a newline gives the same lines, or the same failure,
for every buffer size, as if it were in the buffer as a whole.  `fuel` bounds the rounds of one
call, `k` the number of calls. -/
theorem C66_buffering_invisible (c : Bytes) (size fuel k : Nat) (hE : c = [] ∨ c.getLast? = some 10)
    (hsize : 2 ≤ size) (hf : 3 * c.length + 3 < fuel) :
    allLines fuel k (Src.opened c size) = readLines k c := by
  have := allLines_spec fuel k (Src.opened c size)
    ⟨by simp only [Src.opened, List.length_nil]; omega,
     by simp only [Src.opened, List.length_nil]; omega, by simp [Src.opened], by simp [Src.opened]⟩
    (by simpa [Src.content, Src.opened] using hf) hE
  simpa [Src.content, Src.opened] using this

/-- A line together with its NUL terminator fits in the line buffer: the buffer has at least `size`
bytes, of which the first is a sentinel.  The line number advances by the newlines passed. -/
theorem C66_line_fits (s s' : Src) (t : Bytes) (fuel : Nat) (hs : Round s)
    (hf : s.rounds < fuel) (hE : s.content = [] ∨ s.content.getLast? = some 10)
    (h : nextLine fuel s = .line t s') :
    t.length + 1 + 1 ≤ s'.size ∧ Round s' ∧ ∃ n, readLine s.content = .line t s'.content n ∧
      s'.line = s.line + n := by
  have hr := nextLine_spec fuel s hs hf hE
  rw [h] at hr
  by_cases hc : s.content = []
  · have := hr.1 hc; simp at this
  · have h2 := hr.2 hc
    cases he : readLine s.content with
    | line t1 rest n =>
      rw [he] at h2
      obtain ⟨s1, e1, e2, e3, e4, e5⟩ := h2
      simp only [Next.line.injEq] at e1
      obtain ⟨rfl, rfl⟩ := e1
      exact ⟨e5, e3, n, by rw [e2], e4⟩
    | incomplete => rw [he] at h2; simp at h2
    | error => rw [he] at h2; simp at h2

/-- A file of 12 bytes read through a buffer of three: lines come out whole. -/
example : allLines 60 4 (Src.opened (str% "ab/*\n*/c\n\nd\n") 3) =
    some [str% "ab c", [], str% "d"] := by
  decide +kernel

example : Round (Src.opened (str% "ab\n") 4096) :=
  ⟨by decide, by decide, by decide, by decide⟩

end Verif.Input
