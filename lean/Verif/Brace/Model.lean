import Verif.Tac

/-!
# Reading initialisers with braces

src/parser/initializer.c:60-590: which element of an object each expression of an initialiser is for.  An element is given by the way to it from the
object, of array indices and positions of members, instead of its offset and type.  Left out: members of anonymous structures and unions
(`initialize_struct` skips those with the offset of the one before), flexible array members other than to reject them, setting the length of an
array without one, and the evaluation of the expressions (they are symbols here).
-/

namespace Verif.Brace

/-- Types of objects.  `arr 0` is an array without length; `struct` and `union` have a number that stands for their name. -/
inductive T
  | scalar (char : Bool)
  | arr (n : Nat) (e : T)
  | struct (k : Nat) (ms : List T)
  | union (k : Nat) (ms : List T)

/-- Expressions in initialisers: of scalar type, of the type of a structure or union, string literals. -/
inductive Ex
  | scalar (v : Nat)
  | record (k v : Nat)
  | string (v : Nat)
  deriving DecidableEq, Repr

/-- Tokens; `.m` and `[k]` are one token each, and so is an expression. -/
inductive Tok
  | lb
  | rb
  | comma
  | eq
  | dot (m : Nat)
  | idx (k : Nat)
  | ex (e : Ex)
  deriving DecidableEq, Repr

abbrev Path := List Nat

/-- What is left of the input, `block->expr` if `block->has_init_value`, and the list of assignments so far. -/
structure S where
  toks : List Tok
  init : Option Ex
  out : List (Path × Ex)
  deriving DecidableEq, Repr

/-- An error is reported; the array of members is read behind its end; the model gives up. -/
inductive Res
  | ok (s : S)
  | error
  | bounds
  | fuel
  deriving DecidableEq, Repr

def Res.bind (r : Res) (f : S → Res) : Res :=
  match r with
  | .ok s => f s
  | r => r

/-- An expression can be assigned to the object as a whole: `eval_assign` for scalars, lines 352-354 and 464-470. -/
def T.takes : T → Ex → Bool
  | .scalar _, .scalar _ => true
  | .scalar c, .string _ => !c
  | .struct k _, .record j _ => k == j
  | .union k _, .record j _ => k == j
  | .arr _ (.scalar c), .string _ => c
  | _, _ => false

/-- `read_initializer_element`, lines 92-125. -/
def readElement (s : S) : Res :=
  match s.toks with
  | .ex e :: r => .ok { s with toks := r, init := some e }
  | _ => .error

/-- `assign_initializer_element`, lines 310-328. -/
def assign (t : T) (p : Path) (s : S) : Res :=
  match s.init with
  | some e => if t.takes e then .ok { s with init := none, out := s.out ++ [(p, e)] } else .error
  | none => .error

/-- `next_element`, lines 133-150; `cur` is `state == CURRENT`. -/
def nextElement (cur : Bool) : List Tok → Option (List Tok)
  | .comma :: r =>
    match r with
    | .rb :: _ => none
    | .dot _ :: _ => if cur then some r else none
    | _ => some r
  | _ => none

/-- `has_next_array_element`, lines 373-394, and lines 483-487 with the test for the last element. -/
def nextArray (cur : Bool) (n c : Nat) : List Tok → Option (List Tok)
  | .comma :: r =>
    match r with
    | .rb :: _ => none
    | .dot _ :: _ => none
    | .idx _ :: _ => if cur then some r else none
    | _ => if n ≠ 0 ∧ n ≤ c then none else some r
  | _ => none

/-- Lines 345-354 and 453-460: an expression is read, unless there is one or something else follows. -/
def readFirst (s : S) : Res :=
  match s.init, s.toks with
  | none, .dot _ :: _ | none, .lb :: _ | none, .idx _ :: _ => .ok s
  | none, _ => readElement s
  | some _, _ => .ok s

/-- `try_consume(',')` and `consume('}')`. -/
def close (s : S) : Res :=
  match s.toks with
  | .comma :: .rb :: r => .ok { s with toks := r }
  | .rb :: r => .ok { s with toks := r }
  | _ => .error

/-- A `=` that may follow a designator. -/
def skipEq : List Tok → List Tok
  | .eq :: r => r
  | r => r

mutual
/-- `initialize_member`, lines 508-548. -/
def member : Nat → T → Path → S → Res
  | 0, _, _, _ => .fuel
  | f + 1, .scalar c, p, s =>
    match s.init, s.toks with
    | none, .lb :: r =>
      (readElement { s with toks := r }).bind fun s =>
        match s.toks with
        | .rb :: r => assign (.scalar c) p { s with toks := r }
        | _ => .error
    | none, _ => (readElement s).bind (assign (.scalar c) p)
    | some _, _ => assign (.scalar c) p s
  | f + 1, .arr n e, p, s =>
    if n = 0 then .error
    else
      match s.init, s.toks with
      | none, .lb :: r => (array f n e p true { s with toks := r }).bind close
      | _, _ => array f n e p false s
  | f + 1, .struct k ms, p, s =>
    match s.init, s.toks with
    | none, .lb :: r => (record f (.struct k ms) p true { s with toks := r }).bind close
    | _, _ => record f (.struct k ms) p false s
  | f + 1, .union k ms, p, s =>
    match s.init, s.toks with
    | none, .lb :: r => (record f (.union k ms) p true { s with toks := r }).bind close
    | _, _ => record f (.union k ms) p false s

/-- `initialize_struct_or_union`, lines 339-370. -/
def record : Nat → T → Path → Bool → S → Res
  | 0, _, _, _, _ => .fuel
  | f + 1, t, p, cur, s =>
    (readFirst s).bind fun s =>
      match s.init.map t.takes with
      | some true => assign t p s
      | _ =>
        match t with
        | .struct _ ms => structLoop f ms p cur 0 s
        | .union _ ms => unionLoop f ms p cur false s.out s
        | _ => .error

/-- The loop of `initialize_struct`, lines 272-303. -/
def structLoop : Nat → List T → Path → Bool → Nat → S → Res
  | 0, _, _, _, _, _ => .fuel
  | f + 1, ms, p, cur, i, s =>
    match s.init, s.toks with
    | none, .dot m :: r =>
      match ms[m]? with
      | none => .error
      | some t =>
        (member f t (p ++ [m]) { s with toks := skipEq r }).bind fun s =>
          match nextElement cur s.toks with
          | some r => structLoop f ms p cur (m + 1) { s with toks := r }
          | none => .ok s
    | _, _ =>
      match ms[i]? with
      | none => .bounds
      | some t =>
        (member f t (p ++ [i]) s).bind fun s =>
          if ms.length ≤ i + 1 then .ok s
          else
            match nextElement cur s.toks with
            | some r => structLoop f ms p cur (i + 1) { s with toks := r }
            | none => .ok s

/-- The loop of `initialize_union`, lines 222-240; `done` is as there, and `old` is `values`, to which only the last list is added. -/
def unionLoop : Nat → List T → Path → Bool → Bool → List (Path × Ex) → S → Res
  | 0, _, _, _, _, _, _ => .fuel
  | f + 1, ms, p, cur, done, old, s =>
    match s.toks with
    | .dot m :: r =>
      match ms[m]? with
      | none => .error
      | some t =>
        (member f t (p ++ [m]) { s with toks := skipEq r, out := old }).bind fun s =>
          match nextElement cur s.toks with
          | some r => unionLoop f ms p cur true old { s with toks := r }
          | none => .ok s
    | _ =>
      if done then .ok s
      else
        match ms[0]? with
        | none => .bounds
        | some t =>
          (member f t (p ++ [0]) { s with out := old }).bind fun s =>
            match nextElement cur s.toks with
            | some r => unionLoop f ms p cur true old { s with toks := r }
            | none => .ok s

/-- `initialize_array`, lines 436-506. -/
def array : Nat → Nat → T → Path → Bool → S → Res
  | 0, _, _, _, _, _ => .fuel
  | f + 1, n, e, p, cur, s =>
    (readFirst s).bind fun s =>
      match s.init.map (T.arr n e).takes with
      | some true => assign (.arr n e) p s
      | _ => arrayLoop f n e p cur 0 0 s

/-- Its loop, lines 473-490. -/
def arrayLoop : Nat → Nat → T → Path → Bool → Nat → Nat → S → Res
  | 0, _, _, _, _, _, _, _ => .fuel
  | f + 1, n, e, p, cur, i, c, s =>
    match s.toks with
    | .idx k :: r =>
      (member f e (p ++ [k]) { s with toks := skipEq r }).bind fun s =>
        match nextArray cur n (max c (k + 1)) s.toks with
        | some r => arrayLoop f n e p cur (k + 1) (max c (k + 1)) { s with toks := r }
        | none => .ok s
    | _ =>
      (member f e (p ++ [i]) s).bind fun s =>
        match nextArray cur n (max c (i + 1)) s.toks with
        | some r => arrayLoop f n e p cur (i + 1) (max c (i + 1)) { s with toks := r }
        | none => .ok s
end

/-- `initialize_object`, lines 550-582, of an object with braces; the object is no scalar. -/
def braced (f : Nat) (t : T) (s : S) : Res :=
  match s.toks with
  | .lb :: r =>
    match t with
    | .struct _ _ | .union _ _ => (record f t [] true { s with toks := r }).bind close
    | .arr n e => (array f n e [] true { s with toks := r }).bind close
    | .scalar _ => .error
  | _ => .error

end Verif.Brace
