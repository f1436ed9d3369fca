import Verif.Deque.Lemmas
/-! # C04 — the lookahead buffer is a FIFO queue -/
namespace Verif.Deque

/-- **C04.** For every sequence of operations in which the client never takes an element from
an empty buffer or indexes past its end, the buffer answers like a list of undelivered
elements; in particular no uninitialised or out-of-bounds cell is read. -/
theorem C04_deque_is_queue {α : Type} (ops : List (Op α)) {os : List (Out α)}
    (h : specRun [] ops = some os) : run Deq.init ops = some os :=
  sim_run ops (by constructor <;> simp [Deq.init, Arr.init]) h

/-- Compaction (17th push on a full array with a moved cursor) keeps order. -/
example : specRun [] ((List.range 16).map Op.pushBack ++ [.popFront, .popFront, .pushBack 99,
      .get 0, .back, .len, .popBack, .popFront]) =
    some (List.replicate 16 .unit ++ [.val 0, .val 1, .unit, .val 2, .val 99, .num 15, .val 99, .val 2])
    := by decide

end Verif.Deque
