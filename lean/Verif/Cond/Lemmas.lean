import Verif.Tac
import Verif.Cond.Spec
namespace Verif.Cond
open Spec

/-- Outcome of running `ls` from `σ`, with output prefixed. -/
theorem run_append (σ : Stack) (a b : List Line) :
    run σ (a ++ b) = match run σ a with
      | none => none
      | some (σ', out) => (run σ' b).map (fun r => (r.1, out ++ r.2)) := by
  induction a generalizing σ with
  | nil =>
    simp [run]
  | cons l a ih =>
    simp only [List.cons_append, run]
    cases h : step σ l with
    | none => rfl
    | some p =>
      obtain ⟨σ', out⟩ := p
      simp only [ih]
      cases h2 : run σ' a with
      | none => rfl
      | some q =>
        obtain ⟨σ'', out2⟩ := q
        cases h3 : run σ'' b with
        | none => simp [h3]
        | some r => simp [h3]

theorem run_cons (σ : Stack) (l : Line) (ls : List Line) :
    run σ (l :: ls) = match step σ l with
    | none => none
    | some (σ', out) => (run σ' ls).map (fun r => (r.1, out ++ r.2)) := rfl

mutual
theorem item_dead (i : Item) (σ : Stack) (h : active σ = false) : run σ i.lines = some (σ, []) := by
  cases i with
  | text n => simp [Item.lines, run, step, h]
  | cond c body tail =>
    simp only [Item.lines, run_cons, step, h, Bool.false_eq_true, if_false, run_append]
    rw [items_dead body (.disabled :: σ) rfl]
    simp only [tail_dead tail σ h]
    rfl
theorem items_dead (is : Items) (σ : Stack) (h : active σ = false) :
    run σ is.lines = some (σ, []) := by
  cases is with
  | nil => rfl
  | cons i is =>
    simp only [Items.lines, run_append]
    rw [item_dead i σ h]
    simp only [items_dead is σ h]
    rfl
/-- Inside a dead parent every group is skipped. -/
theorem tail_dead (t : Tail) (σ : Stack) (h : active σ = false) :
    run (.disabled :: σ) t.lines = some (σ, []) := by
  cases t with
  | endif => rfl
  | els body =>
    simp only [Tail.lines, run_cons, step, h, Bool.false_eq_true, if_false, if_true, run_append]
    rw [items_dead body (.disabled :: σ) rfl]
    rfl
  | elif c body rest =>
    simp only [Tail.lines, run_cons, step, h, Bool.false_eq_true, if_false, if_true, run_append]
    rw [items_dead body (.disabled :: σ) rfl]
    simp only [tail_dead rest σ h]
    rfl
end

/-- After a group was taken (`live` or `disabled` on top), the remaining groups are skipped and
their conditions are not evaluated. -/
theorem tail_taken (t : Tail) (σ : Stack) (h : active σ = true) (s : St) (hs : s ≠ .dead) :
    run (s :: σ) t.lines = some (σ, []) := by
  cases t with
  | endif => rfl
  | els body =>
    simp only [Tail.lines, run_cons, step, h, if_true, if_neg hs, run_append]
    rw [items_dead body (.disabled :: σ) rfl]
    rfl
  | elif c body rest =>
    simp only [Tail.lines, run_cons, step, h, if_true, if_neg hs, run_append]
    rw [items_dead body (.disabled :: σ) rfl]
    simp only [tail_taken rest σ h .disabled (by decide)]
    rfl

mutual
theorem item_live (i : Item) (σ : Stack) (h : active σ = true) :
    run σ i.lines = i.keep.map (fun o => (σ, o)) := by
  cases i with
  | text n => simp [Item.lines, run, step, h, Item.keep]
  | cond c body tail =>
    simp only [Item.lines, run_cons, step, h, if_true, Item.keep]
    cases c with
    | none => rfl
    | some b =>
      cases b with
      | true =>
        simp only [Option.map_some, ofBool, if_true, run_append]
        rw [items_live body (.live :: σ) rfl]
        cases hk : body.keep with
        | none => rfl
        | some o =>
          simp only [Option.map_some, tail_taken tail σ h .live (by decide)]
          simp
      | false =>
        simp only [Option.map_some, ofBool, Bool.false_eq_true, if_false, run_append]
        rw [items_dead body (.dead :: σ) rfl]
        simp only [tail_live tail σ h]
        cases tail.keep <;> simp
theorem items_live (is : Items) (σ : Stack) (h : active σ = true) :
    run σ is.lines = is.keep.map (fun o => (σ, o)) := by
  cases is with
  | nil => rfl
  | cons i is =>
    simp only [Items.lines, run_append, Items.keep]
    rw [item_live i σ h]
    cases hi : i.keep with
    | none => rfl
    | some a =>
      simp only [Option.map_some, items_live is σ h]
      cases is.keep <;> simp
theorem tail_live (t : Tail) (σ : Stack) (h : active σ = true) :
    run (.dead :: σ) t.lines = t.keep.map (fun o => (σ, o)) := by
  cases t with
  | endif => rfl
  | els body =>
    simp only [Tail.lines, run_cons, step, h, if_true, run_append, Tail.keep]
    rw [items_live body (.live :: σ) rfl]
    cases body.keep <;> simp [run, step]
  | elif c body rest =>
    simp only [Tail.lines, run_cons, step, h, if_true, Tail.keep]
    cases c with
    | none => rfl
    | some b =>
      cases b with
      | true =>
        simp only [Option.map_some, ofBool, if_true, run_append]
        rw [items_live body (.live :: σ) rfl]
        cases hk : body.keep with
        | none => rfl
        | some o =>
          simp only [Option.map_some, tail_taken rest σ h .live (by decide)]
          simp
      | false =>
        simp only [Option.map_some, ofBool, Bool.false_eq_true, if_false, run_append]
        rw [items_dead body (.dead :: σ) rfl]
        simp only [tail_live rest σ h]
        cases rest.keep <;> simp
end

/-- Depth of open conditionals after some lines, when none of them closes too much. -/
def depth : Nat → List Line → Option Nat
  | d, [] => some d
  | d, .text _ :: ls => depth d ls
  | d, .if_ _ :: ls => depth (d + 1) ls
  | 0, .elif _ :: _ => none
  | 0, .else_ :: _ => none
  | 0, .endif :: _ => none
  | d + 1, .elif _ :: ls => depth (d + 1) ls
  | d + 1, .else_ :: ls => depth (d + 1) ls
  | d + 1, .endif :: ls => depth d ls

theorem run_depth (ls : List Line) : ∀ σ r, run σ ls = some r → depth σ.length ls = some r.1.length := by
  induction ls with
  | nil => intro σ r h; simp [run] at h; subst h; rfl
  | cons l ls ih =>
    intro σ r h
    simp only [run] at h
    cases hs : step σ l with
    | none => rw [hs] at h; simp at h
    | some p =>
      obtain ⟨σ', out⟩ := p
      rw [hs] at h
      simp only [Option.map_eq_some_iff] at h
      obtain ⟨q, hq, rfl⟩ := h
      have := ih σ' q hq
      cases l with
      | text n => simp [step] at hs; obtain ⟨rfl, -⟩ := hs; simpa [depth] using this
      | if_ c =>
        have hl : σ'.length = σ.length + 1 := by
          simp only [step] at hs
          split at hs
          · cases c with
            | none => simp at hs
            | some b => simp at hs; rw [← hs.1]; simp
          · simp at hs; rw [← hs.1]; simp
        simp only [depth]; rw [← hl]; exact this
      | else_ =>
        cases σ with
        | nil => simp [step] at hs
        | cons s σ =>
          have hl : σ'.length = σ.length + 1 := by
            simp only [step] at hs
            split at hs
            · simp at hs; rw [← hs.1]; simp
            · split at hs
              · simp at hs; rw [← hs.1]; simp
              · simp at hs
          simp only [List.length_cons, depth]; rw [← hl]; exact this
      | elif c =>
        cases σ with
        | nil => simp [step] at hs
        | cons s σ =>
          have hl : σ'.length = σ.length + 1 := by
            simp only [step] at hs
            split at hs
            · split at hs
              · cases c with
                | none => simp at hs
                | some b => simp at hs; rw [← hs.1]; simp
              · simp at hs; rw [← hs.1]; simp
            · split at hs
              · simp at hs; rw [← hs.1]; simp
              · simp at hs
          simp only [List.length_cons, depth]; rw [← hl]; exact this
      | endif =>
        cases σ with
        | nil => simp [step] at hs
        | cons s σ =>
          simp [step] at hs
          obtain ⟨rfl, -⟩ := hs
          simpa [depth] using this

end Verif.Cond
