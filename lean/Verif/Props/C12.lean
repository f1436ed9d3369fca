import Verif.Concat.Lemmas
/-! # C12: adjacent string literals are concatenated before parsing -/
namespace Verif.Concat
open Spec

/-- However the parser mixes looking ahead and consuming, and however the tokens are spread over
lines, it sees the token stream in which each maximal run of string literals is one literal. -/
theorem C12_parser_sees_joined (lines : List (List Tok)) (ops : List Op) (ho : ∀ o ∈ ops, o ≠ .peek 0) :
    run ⟨lines, []⟩ ops = some (seen (joined lines.flatten) 0 ops) := by
  apply run_seen _ _ _ _ _ ho
  exact .inr ⟨rfl, trivial, Nat.zero_le _, rfl⟩

/-- A literal split over three lines with an empty line, followed by another token. -/
example : (∀ o ∈ [Op.peek 2, .peek 1, .step, .peek 1, .step, .peek 1], o ≠ Op.peek 0) ∧
    run ⟨[[.other 1, .string [1]], [], [.string [2]], [.string [3], .other 2]], []⟩
      [Op.step, .peek 2, .peek 1, .step, .peek 1, .step, .peek 1] =
      some [.other 2, .string [1, 2, 3], .other 2, .end_] := by
  refine ⟨?_, by decide⟩
  intro o ho
  simp only [List.mem_cons, List.not_mem_nil, or_false] at ho
  rcases ho with rfl | rfl | rfl | rfl | rfl | rfl <;> simp

/-- Facts that fix the meaning of `joined`: the bytes of a run come in order, other tokens stay, and no
two literals are adjacent. -/
theorem C12_joined_run (a b : Bytes) (l r : List Tok) :
    joined (l ++ .string a :: .string b :: r) = joined (l ++ .string (a ++ b) :: r) := by
  have := joined_congr (x := [.string a, .string b]) (y := [.string (a ++ b)])
    (fun r => by simpa using joined_str_str a b r) l r
  simpa using this

theorem C12_joined_no_adjacent (ts l r : List Tok) (a b : Bytes) :
    joined ts ≠ l ++ .string a :: .string b :: r := by
  intro h
  have hs := joined_noAdj ts
  rw [h] at hs
  clear h
  induction l with
  | nil => exact hs.1 ⟨rfl, rfl⟩
  | cons t l ih => exact ih (sep_tail hs)

theorem C12_joined_fixed (ts : List Tok) (h : ∀ l r a b, ts ≠ l ++ .string a :: .string b :: r) :
    joined ts = ts := by
  apply joined_sep
  induction ts with
  | nil => trivial
  | cons t ts ih =>
    cases ts with
    | nil => trivial
    | cons u ts =>
      refine ⟨?_, ih fun l r a b hh => h (t :: l) r a b (by rw [hh]; rfl)⟩
      rintro ⟨h1, h2⟩
      cases t with
      | string a =>
        cases u with
        | string b => exact h [] ts a b rfl
        | other n => simp [isStr] at h2
        | end_ => simp [isStr] at h2
      | other n => simp [isStr] at h1
      | end_ => simp [isStr] at h1

example : ∀ l r a b, ([.other 1, .string [1], .other 2] : List Tok) ≠ l ++ .string a :: .string b :: r := by
  intro l r a b h
  rcases l with _ | ⟨x, _ | ⟨y, _ | ⟨z, l⟩⟩⟩ <;> simp at h

end Verif.Concat
