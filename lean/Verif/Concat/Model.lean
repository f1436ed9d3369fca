import Verif.Bytes
/-!
# Model: filling the parser's lookahead, joining string literals

src/preprocessor/preprocess.c: `add_to_lookahead` 390-424, `is_lookahead_ready` 432-451,
`preprocess_line` 553-611, `next` 623, `peekn` 634, with `-E` off.  The deque is a list (its refinement
is C04).  The lines are given as the tokens that are left after directives and macro expansion, in
order; a directive is a line without tokens.  Conversion of numbers and characters acts on one token and
is part of `other`.
-/
namespace Verif.Concat

inductive Tok where
  | string (b : Bytes)
  | other (n : Nat)
  | end_
  deriving DecidableEq, Repr

structure State where
  /-- lines not yet read -/
  lines : List (List Tok)
  lookahead : List Tok
  deriving DecidableEq, Repr

/-- `add_to_lookahead`, preprocess.c:390-424. -/
def add (q : List Tok) (t : Tok) : List Tok :=
  match t with
  | .string b =>
    match q.getLast? with
    | some (.string a) => q.dropLast ++ [.string (a ++ b)]
    | _ => q ++ [t]
  | _ => q ++ [t]

/-- `is_lookahead_ready`, preprocess.c:432-451. -/
def ready (q : List Tok) (n : Nat) : Bool :=
  if q.length < n then false
  else
    match q.getLast? with
    | some (.string _) => false
    | _ => true

/-- The `do … while` loop of `preprocess_line`, preprocess.c:560-606. -/
def readLines (n : Nat) : List (List Tok) → List Tok → State
  | [], q => ⟨[], q⟩
  | l :: ls, q =>
    let q' := l.foldl add q
    if ready q' n then ⟨ls, q'⟩ else readLines n ls q'

/-- `preprocess_line`, preprocess.c:553-611; the last loop pads with `END`. -/
def preprocessLine (n : Nat) (s : State) : State :=
  let s' := readLines n s.lines s.lookahead
  { s' with lookahead := s'.lookahead ++ List.replicate (n - s'.lookahead.length) .end_ }

/-- `peekn`, preprocess.c:634-642; `none` is the failed `assert(n > 0)`. -/
def peekn (n : Nat) (s : State) : Option (State × Tok) :=
  if n = 0 then none
  else
    let s' := if s.lookahead.length < n then preprocessLine n s else s
    (s'.lookahead[n - 1]?).map fun t => (s', t)

/-- `next`, preprocess.c:623-627; `none` is the failed assertion. -/
def next (s : State) : Option State :=
  match s.lookahead with
  | [] => none
  | _ :: q => some { s with lookahead := q }

/-- What the parser does: look at the n-th token ahead, or step over one that was looked at. -/
inductive Op where
  | peek (n : Nat)
  | step

/-- Run, with the tokens seen: `step` is preceded by `peek`, as in `consume`. -/
def run : State → List Op → Option (List Tok)
  | _, [] => some []
  | s, .peek n :: ops => (peekn n s).bind fun p => (run p.1 ops).map fun ts => p.2 :: ts
  | s, .step :: ops => (peekn 1 s).bind fun p => (next p.1).bind fun s' => run s' ops

end Verif.Concat
