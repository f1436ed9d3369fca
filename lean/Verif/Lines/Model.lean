import Verif.Tac
import Verif.Bytes

/-!
# Numbers of lines and names of files

Model of src/preprocessor/input.c:71-103 (`push_file`, `pop_file`) and 627-664 (`getprepline`), and of
src/preprocessor/directive.c:685-709 (`preprocess_line_directive`): what
`current_file_path` and `current_file_line` are, which diagnostics, `__FILE__` and `__LINE__` use.

Simplifications.  A file is the sequence of its logical lines, each with the number of lines of
text it is made of (C06, C66), and an included file (C14) is part of the line that includes it.
Of directives there are `#line` with a valid number, `#include`, `#if 0` and `#endif`; which
lines are in active blocks is C09.  Numbers do not overflow.
-/

namespace Verif.Lines

abbrev Path := Bytes

/-- The lines of a file; `n` is the number of lines of text. -/
inductive Items
  | nil
  | text (n : Nat) (r : Items)
  | ifZero (n : Nat) (r : Items)
  | endif (n : Nat) (r : Items)
  /-- `#line k` or `#line k "q"` -/
  | line (n k : Nat) (q : Option Path) (r : Items)
  | incl (n : Nat) (p : Path) (file r : Items)
  deriving DecidableEq, Repr

/-- input.c:31-53, `struct source`: name, lines read, and what is left. -/
structure Source where
  path : Path
  line : Nat
  rest : Items
  deriving DecidableEq, Repr

structure State where
  stack : List Source
  /-- `current_file_path` and `current_file_line` -/
  path : Path
  line : Nat
  stale : Bool
  /-- number of open conditionals whose lines are left out -/
  dead : Nat
  deriving DecidableEq, Repr

inductive Res
  | next (s : State)
  /-- The line, with the name and the number that go with it. -/
  | line (p : Path) (n : Nat) (s : State)
  | eof
  /-- `is_directive` of a null pointer, input.c:653 -/
  | crash
  deriving DecidableEq, Repr

/-- One round of the loop in `getprepline`, and the directive if there is one. -/
def step (s : State) : Res :=
  match s.stack with
  | [] => .eof
  | f :: st =>
    let cp := if s.stale then f.path else s.path
    let cl := if s.stale then f.line else s.line
    match f.rest with
    | .nil =>
      if st = [] then .eof
      else if s.dead ≠ 0 then .crash
      else .next ⟨st, cp, cl, true, s.dead⟩
    | .text n r =>
      let s' : State := ⟨⟨f.path, f.line + n, r⟩ :: st, cp, cl + n, false, s.dead⟩
      if s.dead ≠ 0 then .next s' else .line cp (cl + n) s'
    | .ifZero n r =>
      .line cp (cl + n) ⟨⟨f.path, f.line + n, r⟩ :: st, cp, cl + n, false, s.dead + 1⟩
    | .endif n r =>
      .line cp (cl + n) ⟨⟨f.path, f.line + n, r⟩ :: st, cp, cl + n, false, s.dead - 1⟩
    | .line n k q r =>
      .line cp (cl + n)
        (if s.dead ≠ 0 then ⟨⟨f.path, f.line + n, r⟩ :: st, cp, cl + n, false, s.dead⟩
         else ⟨⟨f.path, f.line + n, r⟩ :: st, q.getD cp, k - 1, false, s.dead⟩)
    | .incl n p file r =>
      .line cp (cl + n)
        (if s.dead ≠ 0 then ⟨⟨f.path, f.line + n, r⟩ :: st, cp, cl + n, false, s.dead⟩
         else ⟨⟨p, 0, file⟩ :: ⟨f.path, f.line + n, r⟩ :: st, p, 0, false, s.dead⟩)

inductive End
  | eof | crash | more
  deriving DecidableEq, Repr

/-- The lines that are read in a number of rounds. -/
def run : Nat → State → List (Path × Nat) × End
  | 0, _ => ([], .more)
  | k + 1, s =>
    match step s with
    | .next s => run k s
    | .line p n s => ((p, n) :: (run k s).1, (run k s).2)
    | .eof => ([], .eof)
    | .crash => ([], .crash)

/-- `set_input_file`, input.c:239-274: a file as it is opened. -/
def opened (p : Path) (file : Items) : State := ⟨[⟨p, 0, file⟩], p, 0, false, 0⟩

end Verif.Lines
