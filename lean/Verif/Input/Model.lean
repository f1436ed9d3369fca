import Verif.Bytes
/-!
# Model: assembling logical lines

`read_comment`, `read_line_comment`, `read_trigraph`, `read_literal` and `read_line`
(src/preprocessor/input.c:276-539).  The buffer is a byte list; its terminating NUL is the end of
the list.  What has been written is kept in reverse order, so that `write[-1]` is the head.
-/
namespace Verif.Input
open Verif (Bytes)

/-- `read_comment`, input.c:284-304: text after the comment and number of lines ended. -/
def readComment : Bytes → Nat → Option (Bytes × Nat)
  | [], _ => none
  | c :: r, n =>
    if c = chr% '*' then
      match skip r n with
      | (d :: r', n') => if d = chr% '/' then some (r', n') else
          readComment r n
      | ([], _) => none
    else if c = chr% '\n' then readComment r (n + 1)
    else readComment r n
where
  /-- The inner `while` loop, input.c:292-295.  The real loop also advances the main pointer over
  the splices; they contain neither `*` nor `/`, and their newlines are counted when the main
  loop passes over them here. -/
  skip : Bytes → Nat → Bytes × Nat
    | [], n => ([], n)
    | [c], n => ([c], n)
    | c :: d :: r, n =>
      if c = chr% '\\' && d = chr% '\n' then skip r (n + 1) else (c :: d :: r, n)

/-- `read_line_comment`, input.c:311-328. -/
def readLineComment : Bytes → Nat → Option (Bytes × Nat)
  | [], _ => none
  | [c], n => if c = chr% '\n' then some ([], n) else none
  | c :: d :: r, n =>
    if c = chr% '\\' && d = chr% '\n' then readLineComment r (n + 1)
    else if c = chr% '\n' then some (d :: r, n)
    else readLineComment (d :: r) n

/-- `read_trigraph`, input.c:336-352; `none` for 0. -/
def trigraph (c : UInt8) : Option UInt8 :=
  if c = chr% '=' then some (chr% '#')
  else if c = chr% '(' then some (chr% '[')
  else if c = chr% '/' then some (chr% '\\')
  else if c = chr% ')' then some (chr% ']')
  else if c = chr% '\'' then some (chr% '^')
  else if c = chr% '<' then some (chr% '{')
  else if c = chr% '!' then some (chr% '|')
  else if c = chr% '>' then some (chr% '}')
  else if c = chr% '-' then some (chr% '~')
  else none

/-- Outcome of reading a literal. -/
inductive Lit where
  | done (out rest : Bytes) (lines : Nat)
  | incomplete
  | error
  deriving DecidableEq, Repr

/-- Number of backslashes at the end of what was written, input.c:396-399.  The scan stops at the
opening quote at the latest. -/
def backslashes (out : Bytes) : Nat := (out.takeWhile (fun c => c = chr% '\\')).length

/-- The loop of `read_literal`, input.c:374-412, after the opening quote was copied. -/
def readLiteral (q : UInt8) (out : Bytes) : Bytes → Nat → Lit
  | [], _ => .incomplete
  | c :: r, n =>
    if c = chr% '\n' then
      if out.head? = some (chr% '\\') then readLiteral q out.tail r (n + 1) else .error
    else if c = chr% '?' then
      match r with
      | d :: x :: r' =>
        if d = chr% '?' then
          match trigraph x with
          | some t => readLiteral q (t :: out) r' n
          | none => readLiteral q (c :: out) (d :: x :: r') n
        else readLiteral q (c :: out) (d :: x :: r') n
      | r => readLiteral q (c :: out) r n
    else if c = q && backslashes out % 2 = 0 then .done (c :: out) r n
    else readLiteral q (c :: out) r n

/-- Outcome of `read_line`: a logical line, the unread text and the number of newlines passed;
a line that is not complete (return value 0); or a diagnostic and `exit(1)`. -/
inductive LRes where
  | line (text rest : Bytes) (lines : Nat)
  | incomplete
  | error
  deriving DecidableEq, Repr

/-- Second loop of `read_line`, input.c:472-536.  `l` is the text at `line[i]`, `start` and `count`
the characters not yet copied.  The fuel bounds the number of rounds. -/
def loop2 : Nat → (l start : Bytes) → (count : Nat) → (out : Bytes) → (lines : Nat) → LRes
  | 0, _, _, _, _, _ => .incomplete
  | _ + 1, [], _, _, _, _ => .incomplete
  | k + 1, c :: r, start, count, out, lines =>
    if c = chr% '\n' then .line (((start.take count).reverse ++ out).reverse) r (lines + 1)
    else if c = chr% '"' || c = chr% '\'' || c = chr% '*' || c = chr% '/' || c = chr% '?' ||
        c = chr% '\\' then
      let out := (start.take count).reverse ++ out
      let start := start.drop count
      if c = chr% '"' || c = chr% '\'' then
        match readLiteral c (c :: out) r lines with
        | .done out' r' lines' => loop2 k r' r' 0 out' lines'
        | .incomplete => .incomplete
        | .error => .error
      else if c = chr% '*' && out.head? = some (chr% '/') then
        match readComment r lines with
        | some (r', lines') => loop2 k r' r' 0 (chr% ' ' :: out.tail) lines'
        | none => .incomplete
      else if c = chr% '\\' && r.head? = some (chr% '\n') then
        loop2 k r.tail r.tail 0 out (lines + 1)
      else if c = chr% '?' && r.head? = some (chr% '?') then
        match r.tail with
        | x :: r' =>
          match trigraph x with
          | some t => loop2 k r' r' 0 (t :: out) lines
          | none => loop2 k r start 0 out lines
        | [] => loop2 k r start 0 out lines
      else if c = chr% '/' && out.head? = some (chr% '/') then
        match readLineComment r lines with
        | some (r', lines') => .line out.tail.reverse r' (lines' + 1)
        | none => .incomplete
      else loop2 k r start 1 out lines
    else loop2 k r start (count + 1) out lines

/-- First loop of `read_line`, input.c:448-470. -/
def loop1 (start : Bytes) : (l : Bytes) → (count : Nat) → LRes
  | [], _ => .incomplete
  | c :: r, count =>
    if c = chr% '\n' then .line (start.take count) r 1
    else if c = chr% '"' || c = chr% '\'' || c = chr% '/' || c = chr% '?' || c = chr% '\\' then
      loop2 (r.length + 2) (c :: r) start count [] 0
    else loop1 start r (count + 1)

/-- `read_line`, input.c:433-539. -/
def readLine (s : Bytes) : LRes := loop1 s s 0

/-- All logical lines of a file: `initial_preprocess_line` and `getprepline` (input.c:544-612)
with the whole file in the buffer.  An incomplete last line is an error. -/
def readLines : Nat → Bytes → Option (List Bytes)
  | 0, _ => none
  | _ + 1, [] => some []
  | k + 1, s =>
    match readLine s with
    | .line t rest _ => (readLines k rest).map (t :: ·)
    | _ => none

end Verif.Input
