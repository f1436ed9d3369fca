/-!
# Model: macro expansion

src/preprocessor/macro.c: `paste` and `stringify` are parameters (`stringify` is modelled in the
`Lex` area); `array_replace_slice`, `expand_stringify_and_paste`, `expand_macro`, `read_arg`,
`read_args`, `expand_line`, `expand` are transcribed on token lists.  `__LINE__`-like built-in
macros (`macro_definition` refreshing `__LINE__`, macro.c:137-160) are not modelled.

Reading outside an array is the outcome `ub`; a diagnostic with `exit(1)` is `err`.  `fuel` is not a
behaviour of the program: it says that the recursion is deeper than the given bound.
-/
namespace Verif.Macro

/-- Token classes that the expander distinguishes. -/
inductive Kind where
  | word | lpar | rpar | comma | newline | param | hash | paste | other
  deriving DecidableEq, Repr

/-- `struct token`, include/lacc/token.h:92-114.  `id` stands for the spelling, or for the parameter
number of a `PARAM` token. -/
structure Tok where
  kind : Kind
  id : Nat
  expandable : Bool
  disabled : Bool
  ws : Nat
  deriving DecidableEq, Repr

/-- `struct macro`, macro.h:9-22. -/
structure Def where
  name : Nat
  funLike : Bool
  params : Nat
  vararg : Bool
  body : List Tok
  deriving DecidableEq, Repr

inductive Res (α : Type) where
  | ok (a : α)
  | err
  | ub
  | fuel
  deriving DecidableEq, Repr

def Res.bind {α β : Type} : Res α → (α → Res β) → Res β
  | .ok a, f => f a
  | .err, _ => .err
  | .ub, _ => .ub
  | .fuel, _ => .fuel

/-- What the expander is given: the definitions and the two spelling operations. -/
structure Env where
  lookup : Nat → Option Def
  paste : Tok → Tok → Option Tok
  stringify : List Tok → Tok

/-- The body of the `TOKEN_PASTE` case, macro.c:363-405.  `list` is the array built so far; `s` the
token after `##`.  The flag says that the parameter is to be visited again (`i--`). -/
def pasteStep (E : Env) (d : Def) (args : List (List Tok)) (list : List Tok) (s : Tok) :
    Res (List Tok × Bool) :=
  let arg (t : Tok) : Res (List Tok) :=
    match args[t.id]? with
    | some a => .ok a
    | none => .ub
  let second (list : List Tok) (t : Tok) : Res (List Tok × Bool) :=
    if s.kind = .param then
      if d.vararg && t.kind = .comma && s.id = d.params - 1 then
        (arg s).bind fun a =>
          if a ≠ [] then .ok (list, true) else .ok (list.dropLast, false)
      else
        (arg s).bind fun a =>
          match a with
          | [] => .ok (list, false)
          | x :: xs =>
            match E.paste t x with
            | some p => .ok (list.dropLast ++ p :: xs, false)
            | none => .err
    else
      match E.paste t s with
      | some p => .ok (list.dropLast ++ [p], false)
      | none => .err
  match list.getLast? with
  | none => .ub
  | some t =>
    if t.kind = .param then
      (arg t).bind fun a =>
        match a.getLast? with
        | none =>
          if s.kind = .param then (arg s).bind fun b => .ok (list.dropLast ++ b, false)
          else .ok (list.dropLast ++ [s], false)
        | some t' => second (list.dropLast ++ a) t'
    else second list t

/-- The loop of `expand_stringify_and_paste`, macro.c:359-418. -/
def pasteLoop (E : Env) (d : Def) (args : List (List Tok)) : List Tok → List Tok → Res (List Tok)
  | list, [] => .ok list
  | list, t :: r =>
    if t.kind = .paste then
      match r with
      | [] => .ub
      | s :: r' =>
        match pasteStep E d args list s with
        | .ok (list', true) =>
          -- the parameter itself is visited next and pushed by the default case
          pasteLoop E d args (list' ++ [s]) r'
        | .ok (list', false) => pasteLoop E d args list' r'
        | .err => .err
        | .ub => .ub
        | .fuel => .fuel
    else if t.kind = .hash then
      match r with
      | s :: r' =>
        if s.kind = .param then
          match args[s.id]? with
          | some a => pasteLoop E d args (list ++ [E.stringify a]) r'
          | none => .ub
        else .err
      | [] => .err
    else pasteLoop E d args (list ++ [t]) r

/-- `expand_stringify_and_paste`, macro.c:342-421. -/
def stringifyAndPaste (E : Env) (d : Def) (args : List (List Tok)) : Res (List Tok) :=
  if (d.body.head?).map (·.kind) = some .paste then .err
  else if d.body.length > 2 && (d.body.getLast?).map (·.kind) = some .paste then .err
  else pasteLoop E d args [] d.body

/-- The replacement of parameters by expanded arguments, macro.c:449-461. -/
def substitute (args : List (List Tok)) : List Tok → Res (List Tok)
  | [] => .ok []
  | t :: r =>
    if t.kind = .param then
      match args[t.id]? with
      | some a => (substitute args r).bind fun r' => .ok (a ++ r')
      | none => .ub
    else (substitute args r).bind fun r' => .ok (t :: r')

/-- macro.c:442-446: the first token of an expanded argument has leading whitespace. -/
def spaced : List Tok → List Tok
  | [] => []
  | t :: r => (if t.ws = 0 then { t with ws := 1 } else t) :: r

/-- `read_arg`, macro.c:478-513: the argument and the text from the terminator on. -/
def readArg (scope : List Nat) (va : Bool) : Nat → List Tok → Res (List Tok × List Tok)
  | _, [] => .ub
  | nesting, t :: r =>
    if nesting ≠ 0 ∨ ((t.kind ≠ .comma ∨ va = true) ∧ t.kind ≠ .rpar) then
      if t.kind = .newline then .err
      else
        let n' := if t.kind = .lpar then nesting + 1 else if t.kind = .rpar then nesting - 1 else nesting
        let t' := if t.expandable && t.id ∈ scope then { t with disabled := true } else t
        (readArg scope va n' r).bind fun p => .ok (t' :: p.1, p.2)
    else .ok ([], t :: r)

/-- The loop over the named parameters in `read_args`, macro.c:531-546.  `left` parameters without
`...` are still to be read, `i` have been read.  The result says whether the variable argument is
still to be read. -/
def readNamed (scope : List Nat) (d : Def) : Nat → Nat → List Tok →
    Res (List (List Tok) × List Tok × Bool)
  | 0, _, ts => .ok ([], ts, d.vararg)
  | left + 1, i, ts =>
    (readArg scope false 0 ts).bind fun p =>
      match p.2 with
      | [] => .ub
      | t :: r =>
        if t.kind ≠ .comma then
          if i + 1 = d.params then .ok ([p.1], p.2, d.vararg)
          else if d.vararg && i + 2 = d.params then .ok ([p.1, []], p.2, false)
          else .err
        else
          (readNamed scope d left (i + 1) r).bind fun q => .ok (p.1 :: q.1, q.2)

/-- `read_args`, macro.c:515-565.  With `i = -1` the variable argument keeps the zero value of
`calloc`, an empty array.  When a comma follows the last named parameter the list is one token
further and the test for `)` sees what is there. -/
def readArgs (scope : List Nat) (d : Def) (ts : List Tok) : Res (List (List Tok) × List Tok) :=
  if d.funLike then
    match ts with
    | [] => .ub
    | t :: r =>
      if t.kind ≠ .lpar then .err
      else
        let close (args : List (List Tok)) (r : List Tok) : Res (List (List Tok) × List Tok) :=
          match r with
          | [] => .ub
          | t :: r' => if t.kind ≠ .rpar then .err else .ok (args, r')
        if d.params = 0 then close [] r
        else
          (readNamed scope d (d.params - (if d.vararg then 1 else 0)) 0 r).bind fun q =>
            if q.2.2 then
              (readArg scope true 0 q.2.1).bind fun p => close (q.1 ++ [p.1]) p.2
            else close q.1 q.2.1
  else .ok ([], ts)

/-- Expanded arguments, macro.c:440-447; `f` is `expand`. -/
def expandArgs (f : List Tok → Res (List Tok × Nat)) : List (List Tok) → Res (List (List Tok))
  | [] => .ok []
  | a :: as => (f a).bind fun e => (expandArgs f as).bind fun es => .ok (spaced e.1 :: es)

/-- The first token of an expansion takes the whitespace of the macro name, macro.c:604-607. -/
def setWs (ws : Nat) : List Tok → List Tok
  | [] => []
  | t :: r => { t with ws := ws } :: r

mutual
/-- `expand_macro`, macro.c:427-468. -/
def expandMacro (E : Env) : Nat → List Nat → Def → List (List Tok) → Res (List Tok)
  | 0, _, _, _ => .fuel
  | k + 1, scope, d, args =>
    (stringifyAndPaste E d args).bind fun list =>
      (if d.params > 0 then
        (expandArgs (fun a => expandLine E k [] a) args).bind fun es => substitute es list
       else .ok list).bind fun list' =>
        (expandLine E k scope list').bind fun r => .ok r.1

/-- `expand_line`, macro.c:567-617: the list and the number of replacements.  The part of the
array before `i` is not visited again, so the loop is a recursion over the rest. -/
def expandLine (E : Env) : Nat → List Nat → List Tok → Res (List Tok × Nat)
  | 0, _, _ => .fuel
  | _ + 1, _, [] => .ok ([], 0)
  | k + 1, scope, t :: r =>
    let skip (t : Tok) : Res (List Tok × Nat) :=
      (expandLine E k scope r).bind fun q => .ok (t :: q.1, q.2)
    if !t.expandable || t.disabled then skip t
    else
      match E.lookup t.id with
      | none => skip t
      | some d =>
        if t.id ∈ scope then skip { t with disabled := true }
        else if d.funLike && (r.head?).map (·.kind) ≠ some .lpar then skip t
        else
          (readArgs scope d r).bind fun a =>
            (expandMacro E k (d.name :: scope) d a.1).bind fun expn =>
              (expandLine E k scope a.2).bind fun q => .ok (setWs t.ws expn ++ q.1, q.2 + 1)
end

/-- `expand`, macro.c:619-627. -/
def expand (E : Env) (k : Nat) (list : List Tok) : Res (List Tok × Nat) := expandLine E k [] list

end Verif.Macro
