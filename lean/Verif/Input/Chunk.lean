import Verif.Input.Model
/-!
# Model: reading a file through a buffer

`initial_preprocess_line` (src/preprocessor/input.c:544-612).  Only the part of the buffer from
`processed` on is kept.
-/
namespace Verif.Input
open Verif (Bytes)

/-- `struct source`, input.c:20-46: `pend` is `buffer[processed .. read)`,
`file` what `fread` has not delivered yet, `eof` the end-of-file indicator. -/
structure Src where
  pend : Bytes
  processed : Nat
  size : Nat
  file : Bytes
  eof : Bool
  line : Nat

/-- Outcome of one call.  `missing`: the file does not end in a newline, which is diagnosed
("Missing newline at end of file."); what happens next is not modelled.  `stuck`: an assertion
fails. -/
inductive Next where
  | null
  | line (text : Bytes) (s : Src)
  | error
  | missing
  | stuck

/-- Outcome of the refill block, input.c:552-580. -/
inductive Fill where
  | null
  | error
  | missing
  | go (s : Src)

/-- input.c:552-580.  `fread` delivers fewer bytes than asked only at the end of the file, and then
sets the indicator. -/
def fill (s : Src) : Fill :=
  if s.pend = [] || s.processed = 0 then
    if s.eof then
      if s.pend ≠ [] then .error else .null
    else
      let k := if s.processed = 0 then s.size - s.pend.length - 1 else s.size - 1
      let buf := s.pend ++ s.file.take k
      let eof := (s.file.take k).length < k
      let s' : Src := ⟨buf, 0, s.size, s.file.drop k, eof, s.line⟩
      if eof then
        if buf = [] then .null
        else if buf.getLast? ≠ some (chr% '\n') then .missing
        else .go s'
      else .go s'
  else .go s

/-- `initial_preprocess_line`, input.c:544-612; 4096 is `FILE_BUFFER_SIZE` (input.c:18). -/
def nextLine : Nat → Src → Next
  | 0, _ => .stuck
  | fuel + 1, s =>
    match fill s with
    | .null => .null
    | .error => .error
    | .missing => .missing
    | .go s =>
      if s.pend = [] then .stuck else
      match readLine s.pend with
      | .line t rest n =>
        .line t { s with pend := rest, processed := s.processed + (s.pend.length - rest.length),
                         line := s.line + n }
      | .error => .error
      | .incomplete =>
        if s.processed = 0 then nextLine fuel { s with size := s.size + 4096 }
        else nextLine fuel { s with processed := 0 }

/-- All lines of the file: calling `initial_preprocess_line` until it returns `NULL`. -/
def allLines (fuel : Nat) : Nat → Src → Option (List Bytes)
  | 0, _ => none
  | k + 1, s =>
    match nextLine fuel s with
    | .null => some []
    | .line t s' => (allLines fuel k s').map (t :: ·)
    | _ => none

/-- The state after opening a file of contents `c`, `push_file`, input.c:74-84. -/
def Src.opened (c : Bytes) (size : Nat) : Src := ⟨[], 0, size, c, false, 0⟩

end Verif.Input
