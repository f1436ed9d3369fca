/-!
# Model of `include/lacc/array.h` and `include/lacc/deque.h`

Storage is a list of cells of length `capacity`; a cell that was never written is `none` and
reading it (or reading outside the storage) is undefined behaviour, outcome `none`.
-/
namespace Verif.Deque

/-- `array_of(T)`, array.h:5-10; `capacity` is the length of `data`. -/
structure Arr (α : Type) where
  length : Nat
  data : List (Option α)

/-- `deque_of(T)`, deque.h:10-14. -/
structure Deq (α : Type) where
  cursor : Nat
  array : Arr α

def Arr.init {α : Type} : Arr α := ⟨0, []⟩
def Deq.init {α : Type} : Deq α := ⟨0, Arr.init⟩

variable {α : Type}

/-- `(arr)->data[i]` as an rvalue. -/
def Arr.get (a : Arr α) (i : Nat) : Option α := (a.data[i]?).join

/-- `array_push_back`, array.h:13-24: doubles a full array (16 at first), then stores. -/
def Arr.pushBack (a : Arr α) (x : α) : Arr α :=
  let data :=
    if a.length = a.data.length then
      a.data ++ List.replicate ((if a.data.length ≠ 0 then a.data.length * 2 else 16) - a.data.length) none
    else a.data
  ⟨a.length + 1, data.set a.length (some x)⟩

/-- `memmove` of `n` cells from position `src` to position 0 of the same storage. -/
def moveDown (data : List (Option α)) (src n : Nat) : List (Option α) :=
  (data.drop src).take n ++ data.drop n

/-- `deque_len`, deque.h:16-17. -/
def Deq.len (d : Deq α) : Nat := d.array.length - d.cursor

/-- `deque_push_back`, deque.h:19-30. -/
def Deq.pushBack (d : Deq α) (x : α) : Deq α :=
  if d.cursor ≠ 0 ∧ d.array.length = d.array.data.length then
    ⟨0, Arr.pushBack ⟨d.len, moveDown d.array.data d.cursor d.len⟩ x⟩
  else ⟨d.cursor, d.array.pushBack x⟩

/-- `deque_get`, deque.h:41-42. -/
def Deq.get (d : Deq α) (i : Nat) : Option α := d.array.get (d.cursor + i)

/-- `deque_back`, deque.h:32-33. -/
def Deq.back (d : Deq α) : Option α := d.get (d.len - 1)

/-- `deque_pop_front`, deque.h:38-39. -/
def Deq.popFront (d : Deq α) : Option (Deq α × α) :=
  (d.array.get d.cursor).map (fun x => (⟨d.cursor + 1, d.array⟩, x))

/-- `deque_pop_back` = `array_pop_back`, deque.h:35-36, array.h:47-48. -/
def Deq.popBack (d : Deq α) : Option (Deq α × α) :=
  if d.array.length = 0 then none
  else (d.array.get (d.array.length - 1)).map
    (fun x => (⟨d.cursor, ⟨d.array.length - 1, d.array.data⟩⟩, x))

/-- `deque_empty`, deque.h:44-48. -/
def Deq.empty (d : Deq α) : Deq α := ⟨0, ⟨0, d.array.data⟩⟩

/-- `deque_destroy`, deque.h:50-54, array.h:107-115. -/
def Deq.destroy (_ : Deq α) : Deq α := Deq.init

/-- Client operations. -/
inductive Op (α : Type) where
  | pushBack (x : α)
  | popFront
  | popBack
  | get (i : Nat)
  | back
  | len
  | empty
  | destroy

/-- Observable result of an operation. -/
inductive Out (α : Type) where
  | unit
  | val (x : α)
  | num (n : Nat)
  deriving DecidableEq

def exec (d : Deq α) : Op α → Option (Deq α × Out α)
  | .pushBack x => some (d.pushBack x, .unit)
  | .popFront => (d.popFront).map (fun r => (r.1, .val r.2))
  | .popBack => (d.popBack).map (fun r => (r.1, .val r.2))
  | .get i => (d.get i).map (fun x => (d, .val x))
  | .back => (d.back).map (fun x => (d, .val x))
  | .len => some (d, .num d.len)
  | .empty => some (d.empty, .unit)
  | .destroy => some (d.destroy, .unit)

def run : Deq α → List (Op α) → Option (List (Out α))
  | _, [] => some []
  | d, op :: ops =>
    match exec d op with
    | none => none
    | some (d', o) => (run d' ops).map (fun os => o :: os)

/-! ## Specification: a list of the undelivered elements -/

/-- Abstract queue; `none` when the client asks for an element that is not there. -/
def specExec (q : List α) : Op α → Option (List α × Out α)
  | .pushBack x => some (q ++ [x], .unit)
  | .popFront =>
    match q with
    | [] => none
    | x :: q' => some (q', .val x)
  | .popBack => (q.getLast?).map (fun x => (q.dropLast, .val x))
  | .get i => (q[i]?).map (fun x => (q, .val x))
  | .back => (q.getLast?).map (fun x => (q, .val x))
  | .len => some (q, .num q.length)
  | .empty => some ([], .unit)
  | .destroy => some ([], .unit)

def specRun : List α → List (Op α) → Option (List (Out α))
  | _, [] => some []
  | q, op :: ops =>
    match specExec q op with
    | none => none
    | some (q', o) => (specRun q' ops).map (fun os => o :: os)

end Verif.Deque
