import Verif.Cond.Lemmas
/-! # C09, C64 — conditional inclusion -/
namespace Verif.Cond
open Spec

/-- **C09.** For every well nested sequence of lines, exactly the lines of taken groups are kept,
in order; conditions of groups that are not reached are never evaluated, and if a condition that
must be evaluated is invalid the compiler stops. -/
theorem C09_taken_groups (is : Items) : preprocess is.lines = is.keep := by
  unfold preprocess
  rw [items_live is [] rfl]
  cases is.keep <;> rfl

/-- `#if 0 / #if <invalid> / #endif / #elif 1 / 7 / #else / 8 / #endif`. -/
example : let is : Items := .cons (.cond (some false)
      (.cons (.cond none .nil .endif) .nil)
      (.elif (some true) (.cons (.text 7) .nil) (.els (.cons (.text 8) .nil)))) .nil
    is.lines = [.if_ (some false), .if_ none, .endif, .elif (some true), .text 7, .else_, .text 8, .endif]
    ∧ preprocess is.lines = some [7] := by
  constructor
  · rfl
  · rw [C09_taken_groups]; rfl

/-- **C64** (partial).  The full property: input is accepted only if every `#elif`, `#else` and
`#endif` belongs to an open `#if`, every `#if` is closed, and nothing but `#endif` follows an
`#else`.  Proved: an accepted input never closes or continues a conditional that is not open. -/
theorem C64_unmatched_diagnosed_partial (ls : List Line) (h : depth 0 ls = none) :
    preprocess ls = none := by
  unfold preprocess
  cases hr : run [] ls with
  | none => rfl
  | some r =>
    have := run_depth ls [] r hr
    rw [show ([] : Stack).length = 0 from rfl, h] at this
    simp at this

/-- Input with one `#endif` too many. -/
example : depth 0 [.if_ (some true), .endif, .text 1, .endif] = none := rfl

/-- **C64** violated: an `#if` without `#endif`, and a second `#else`, are accepted silently. -/
theorem C64_unterminated_if_violated :
    preprocess [.if_ (some false), .text 1] = some [] ∧
    preprocess [.if_ (some false), .else_, .text 1, .else_, .text 2, .endif] = some [1] := by
  decide

end Verif.Cond
