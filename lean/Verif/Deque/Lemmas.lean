import Verif.Tac
import Verif.Deque.Model
namespace Verif.Deque

variable {α : Type}

/-- Simulation: cells `cursor ..< length` hold exactly the queue. -/
structure Sim (d : Deq α) (q : List α) : Prop where
  cur : d.cursor ≤ d.array.length
  cap : d.array.length ≤ d.array.data.length
  len : d.array.length = d.cursor + q.length
  cell : ∀ i, i < q.length → d.array.data[d.cursor + i]? = some q[i]?

theorem arr_push {a : Arr α} (x : α) (h : a.length ≤ a.data.length) :
    (a.pushBack x).length = a.length + 1 ∧ a.length + 1 ≤ (a.pushBack x).data.length ∧
    (a.pushBack x).data[a.length]? = some (some x) ∧
    ∀ i, i < a.length → (a.pushBack x).data[i]? = a.data[i]? := by
  unfold Arr.pushBack
  simp only
  split
  · rename_i he
    have hlen : a.length < (a.data ++ List.replicate
        ((if a.data.length ≠ 0 then a.data.length * 2 else 16) - a.data.length)
          (none : Option α)).length := by
      rw [List.length_append, List.length_replicate]
      split <;> omega
    refine ⟨trivial, by rw [List.length_set]; omega, ?_, ?_⟩
    · rw [List.getElem?_set_self hlen]
    · intro i hi
      rw [List.getElem?_set_ne (by omega), List.getElem?_append_left (by omega)]
  · refine ⟨trivial, by rw [List.length_set]; omega, ?_, ?_⟩
    · rw [List.getElem?_set_self (by omega)]
    · intro i hi
      rw [List.getElem?_set_ne (by omega)]

theorem sim_push {d : Deq α} {q : List α} (h : Sim d q) (x : α) : Sim (d.pushBack x) (q ++ [x]) := by
  obtain ⟨h1, h2, h3, h4⟩ := h
  unfold Deq.pushBack
  have core : ∀ (c : Nat) (a : Arr α), a.length ≤ a.data.length → a.length = c + q.length →
      (∀ i, i < q.length → a.data[c + i]? = some q[i]?) → Sim ⟨c, a.pushBack x⟩ (q ++ [x]) := by
    intro c a g1 g2 g3
    obtain ⟨p1, p2, p3, p4⟩ := arr_push x g1
    refine ⟨by simp only [p1]; omega, by simp only [p1]; omega,
      by simp only [p1, List.length_append, List.length_singleton]; omega, ?_⟩
    intro i hi
    simp only [List.length_append, List.length_singleton] at hi
    simp only
    by_cases hc : i = q.length
    · subst hc
      rw [← g2, p3]
      simp
    · rw [p4 _ (by omega), g3 i (by omega), List.getElem?_append_left (by omega)]
  split
  · rename_i hc
    apply core
    · simp only [Deq.len, moveDown, List.length_append, List.length_take, List.length_drop]
      omega
    · simp only [Deq.len]; omega
    · intro i hi
      have hlen : ((d.array.data.drop d.cursor).take d.len).length = q.length := by
        simp only [List.length_take, List.length_drop, Deq.len]; omega
      simp only [moveDown, Nat.zero_add]
      rw [List.getElem?_append_left (by omega), List.getElem?_take_of_lt (by simp only [Deq.len]; omega),
        List.getElem?_drop, h4 i hi]
  · exact core _ _ h2 h3 h4

theorem sim_get {d : Deq α} {q : List α} (h : Sim d q) {i : Nat} {x : α} (hx : q[i]? = some x) :
    d.get i = some x := by
  have hi : i < q.length := by
    by_contra hc
    rw [List.getElem?_eq_none (by omega)] at hx
    simp at hx
  simp [Deq.get, Arr.get, h.cell i hi, hx]

theorem sim_exec {d : Deq α} {q q' : List α} {o : Out α} (h : Sim d q) (op : Op α)
    (hs : specExec q op = some (q', o)) : ∃ d', exec d op = some (d', o) ∧ Sim d' q' := by
  cases op with
  | pushBack x =>
    simp only [specExec, Option.some.injEq, Prod.mk.injEq] at hs
    obtain ⟨rfl, rfl⟩ := hs
    exact ⟨_, rfl, sim_push h x⟩
  | popFront =>
    cases q with
    | nil => simp [specExec] at hs
    | cons x q =>
      simp only [specExec, Option.some.injEq, Prod.mk.injEq] at hs
      obtain ⟨rfl, rfl⟩ := hs
      have hg : d.array.get d.cursor = some x := by
        have := sim_get h (i := 0) (x := x) (by simp)
        simpa [Deq.get] using this
      obtain ⟨h1, h2, h3, h4⟩ := h
      simp only [List.length_cons] at h3 h4
      refine ⟨⟨d.cursor + 1, d.array⟩, by simp [exec, Deq.popFront, hg], ⟨?_, h2, ?_, ?_⟩⟩
      · simp only; omega
      · simp only; omega
      · intro i hi
        have := h4 (i + 1) (by omega)
        simp only [List.getElem?_cons_succ] at this
        simp only [← this]
        congr 1
        omega
  | popBack =>
    cases hl : q.getLast? with
    | none => simp [specExec, hl] at hs
    | some x =>
      simp only [specExec, hl, Option.map_some, Option.some.injEq, Prod.mk.injEq] at hs
      obtain ⟨rfl, rfl⟩ := hs
      have hq : q ≠ [] := by rintro rfl; simp at hl
      have hq1 : 0 < q.length := List.length_pos_iff.mpr hq
      have hlast : q[q.length - 1]? = some x := by
        rw [← hl, List.getLast?_eq_getElem?]
      obtain ⟨h1, h2, h3, h4⟩ := h
      have hg : d.array.get (d.array.length - 1) = some x := by
        have := h4 (q.length - 1) (by omega)
        rw [hlast] at this
        have he : d.array.length - 1 = d.cursor + (q.length - 1) := by omega
        simp [Arr.get, he, this]
      refine ⟨⟨d.cursor, ⟨d.array.length - 1, d.array.data⟩⟩, ?_, ⟨?_, ?_, ?_, ?_⟩⟩
      · have : d.array.length ≠ 0 := by omega
        simp [exec, Deq.popBack, this, hg]
      · simp only; omega
      · simp only; omega
      · simp only [List.length_dropLast]; omega
      · intro i hi
        simp only [List.length_dropLast] at hi
        simp only
        rw [h4 i (by omega), List.getElem?_dropLast, if_pos (by omega)]
  | get i =>
    cases hl : q[i]? with
    | none => simp [specExec, hl] at hs
    | some x =>
      simp only [specExec, hl, Option.map_some, Option.some.injEq, Prod.mk.injEq] at hs
      obtain ⟨rfl, rfl⟩ := hs
      exact ⟨d, by simp [exec, sim_get h hl], h⟩
  | back =>
    cases hl : q.getLast? with
    | none => simp [specExec, hl] at hs
    | some x =>
      simp only [specExec, hl, Option.map_some, Option.some.injEq, Prod.mk.injEq] at hs
      obtain ⟨rfl, rfl⟩ := hs
      rw [List.getLast?_eq_getElem?] at hl
      have hb : d.back = some x := by
        unfold Deq.back
        have : d.len = q.length := by simp only [Deq.len, h.len]; omega
        rw [this]
        exact sim_get h hl
      exact ⟨d, by simp [exec, hb], h⟩
  | len =>
    simp only [specExec, Option.some.injEq, Prod.mk.injEq] at hs
    obtain ⟨rfl, rfl⟩ := hs
    refine ⟨d, ?_, h⟩
    have : d.len = q.length := by simp only [Deq.len, h.len]; omega
    simp [exec, this]
  | empty =>
    simp only [specExec, Option.some.injEq, Prod.mk.injEq] at hs
    obtain ⟨rfl, rfl⟩ := hs
    exact ⟨_, rfl, by constructor <;> simp [Deq.empty]⟩
  | destroy =>
    simp only [specExec, Option.some.injEq, Prod.mk.injEq] at hs
    obtain ⟨rfl, rfl⟩ := hs
    exact ⟨_, rfl, by constructor <;> simp [Deq.destroy, Deq.init, Arr.init]⟩

theorem sim_run (ops : List (Op α)) : ∀ {d : Deq α} {q : List α}, Sim d q →
    ∀ {os}, specRun q ops = some os → run d ops = some os := by
  induction ops with
  | nil => intro d q _ os h; simpa [specRun, run] using h
  | cons op ops ih =>
    intro d q h os hs
    simp only [specRun] at hs
    split at hs
    · simp at hs
    rename_i q' o he
    obtain ⟨d', h1, h2⟩ := sim_exec h op he
    rw [Option.map_eq_some_iff] at hs
    obtain ⟨os', h3, rfl⟩ := hs
    simp [run, h1, ih h2 h3]

end Verif.Deque
