import Verif.Bytes
/-!
# Specification: translation phases 2 and 3 (C99 5.1.1.2)

For sources without trigraph marks.  Phase 2 deletes each backslash followed by a newline; phase 3
replaces each comment by one space.  String and character literals are copied.
-/
namespace Verif.Input.Spec
open Verif (Bytes)

/-- Phase 2. -/
def splice : Bytes → Bytes
  | [] => []
  | [c] => [c]
  | c :: d :: r =>
    if c = chr% '\\' ∧ d = chr% '\n' then splice r else c :: splice (d :: r)

/-- The nine trigraphs (C99 5.2.1.1), third character and replacement. -/
def trigraphs : List (UInt8 × UInt8) :=
  [(chr% '=', chr% '#'), (chr% '(', chr% '['), (chr% '/', chr% '\\'), (chr% ')', chr% ']'),
   (chr% '\'', chr% '^'), (chr% '<', chr% '{'), (chr% '!', chr% '|'), (chr% '>', chr% '}'),
   (chr% '-', chr% '~')]

/-- Phase 1. -/
def phase1 : Bytes → Bytes
  | a :: b :: c :: r =>
    if a = chr% '?' ∧ b = chr% '?' then
      match trigraphs.lookup c with
      | some x => x :: phase1 r
      | none => a :: phase1 (b :: c :: r)
    else a :: phase1 (b :: c :: r)
  | s => s

inductive Mode where
  | code
  | lit (q : UInt8)
  | block
  | line

/-- Phase 3 up to the first newline that is not inside a comment: the logical line and the text
after it.  `none`: a literal or comment is not closed, or there is no newline. -/
def phase3 : Mode → Bytes → Option (Bytes × Bytes)
  | _, [] => none
  | .code, [c] => if c = chr% '\n' then some ([], []) else none
  | .code, c :: d :: r =>
    if c = chr% '\n' then some ([], d :: r)
    else if c = chr% '/' ∧ d = chr% '*' then (phase3 .block r).map fun p => (chr% ' ' :: p.1, p.2)
    else if c = chr% '/' ∧ d = chr% '/' then phase3 .line r
    else if c = chr% '"' ∨ c = chr% '\'' then (phase3 (.lit c) (d :: r)).map fun p => (c :: p.1, p.2)
    else (phase3 .code (d :: r)).map fun p => (c :: p.1, p.2)
  | .lit _, [_] => none
  | .lit q, c :: d :: r =>
    if c = chr% '\n' then none
    else if c = chr% '\\' then
      if d = chr% '\n' then none else (phase3 (.lit q) r).map fun p => (c :: d :: p.1, p.2)
    else if c = q then (phase3 .code (d :: r)).map fun p => (c :: p.1, p.2)
    else (phase3 (.lit q) (d :: r)).map fun p => (c :: p.1, p.2)
  | .block, [_] => none
  | .block, c :: d :: r =>
    if c = chr% '*' ∧ d = chr% '/' then phase3 .code r else phase3 .block (d :: r)
  | .line, c :: r => if c = chr% '\n' then some ([], r) else phase3 .line r

/-- The logical lines of a text. -/
def logicalLines : Nat → Bytes → Option (List Bytes)
  | 0, _ => none
  | _ + 1, [] => some []
  | k + 1, s =>
    match phase3 .code s with
    | some (t, r) => (logicalLines k r).map (t :: ·)
    | none => none

/-- No two adjacent question marks. -/
def NoMarks (s : Bytes) : Prop := ¬ [chr% '?', chr% '?'] <:+: s

end Verif.Input.Spec
