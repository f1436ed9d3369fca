/-!
# Model: conditional inclusion

`branch_stack`, `push_state`, `pop_state`, `in_active_block` and the conditional part of
`preprocess_directive` (src/preprocessor/directive.c), driven line by line as in
`preprocess_line` (src/preprocessor/preprocess.c:553-609) and `getprepline`
(src/preprocessor/input.c:626-664).

A condition is `some b` when its evaluation gives `b`, and `none` when evaluating it ends in a
diagnostic and `exit(1)`.  Macro expansion of `#if` lines is not part of this model.
-/
namespace Verif.Cond

/-- `enum state`, directive.c:33-50. -/
inductive St where
  | live | disabled | dead
  deriving DecidableEq, Repr

/-- Lines as the preprocessor sees them.  `if_` stands for `#if`, `#ifdef` and `#ifndef`. -/
inductive Line where
  | text (n : Nat)
  | if_ (c : Option Bool)
  | elif (c : Option Bool)
  | else_
  | endif
  deriving DecidableEq, Repr

/-- The stack, top first. -/
abbrev Stack := List St

/-- `in_active_block`, directive.c:86-94. -/
def active (σ : Stack) : Bool :=
  match σ with
  | [] => true
  | s :: _ => s = .live

/-- State pushed for a condition. -/
def ofBool (b : Bool) : St := if b then .live else .dead

/-- One line: `preprocess_directive`, directive.c:712-795 for directives; a text line is kept
when `in_active_block()` (`getprepline`, input.c:653-655, drops all other lines).
A failing `assert(state == BRANCH_DISABLED)` is modelled as `none` too.  `none` is `exit(1)`. -/
def step (σ : Stack) (l : Line) : Option (Stack × List Nat) :=
  match l with
  | .text n => some (σ, if active σ then [n] else [])
  | .if_ c =>
    if active σ then c.map (fun b => (ofBool b :: σ, []))
    else some (.disabled :: σ, [])
  | .else_ =>
    match σ with
    | [] => none
    | s :: σ' =>
      if active σ' then some ((if s = .dead then .live else .disabled) :: σ', [])
      else if s = .disabled then some (.disabled :: σ', []) else none
  | .elif c =>
    match σ with
    | [] => none
    | s :: σ' =>
      if active σ' then
        if s = .dead then c.map (fun b => (ofBool b :: σ', []))
        else some (.disabled :: σ', [])
      else if s = .disabled then some (.disabled :: σ', []) else none
  | .endif =>
    match σ with
    | [] => none
    | _ :: σ' => some (σ', [])

/-- All lines; the result is the stack at the end and the kept text lines. -/
def run (σ : Stack) : List Line → Option (Stack × List Nat)
  | [] => some (σ, [])
  | l :: ls =>
    match step σ l with
    | none => none
    | some (σ', out) => (run σ' ls).map (fun r => (r.1, out ++ r.2))

/-- A whole translation unit: at the end of input the stack is not looked at
(preprocess.c:561-566: `preprocess_line` delivers `END` whatever the stack is). -/
def preprocess (ls : List Line) : Option (List Nat) := (run [] ls).map (fun r => r.2)

end Verif.Cond
