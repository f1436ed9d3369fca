import Verif.IfExpr.Lemmas
/-! # C10 — evaluation of `#if` expressions -/
namespace Verif.IfExpr
open Spec

/-- **C10** (partial).  The full property: for every token sequence that the C grammar derives as a
conditional expression `e` with a defined value `v`, the `#if` group is taken exactly if `v ≠ 0`.
Proved for all expressions of any size in the fragment `Plain`.  Missing are the cases in which the code is wrong (theorems
below): chained `==`/`!=`, chained `|`, unevaluated operands without a value, `!` of an unsigned
operand and shifts of signed operands by unsigned counts. -/
theorem C10_if_value_partial {ts : List PTok} {e : E} (h : Gram 12 ts e) (hp : Plain e) :
    ∃ v, eval e = some v ∧
      evalIf (ts ++ [.bad]) = (if v ≠ 0 then Verdict.taken else Verdict.skipped) := by
  obtain ⟨n, hr, hg⟩ := main h hp
  refine ⟨val n, hr.1, ?_⟩
  unfold evalIf constantExpression
  rw [hg.c rfl _ (by simp) [.bad] trivial _ (by simp)]
  simp only
  have hz := val_zero n
  by_cases hv : n.v = 0
  · rw [if_neg (by simpa using hv), if_neg (by simpa using hz.2 hv)]
  · rw [if_pos (by simpa using hv), if_pos (by simpa using fun h => hv (hz.1 h))]

section examples

/-- The tokens of `-1 + 2 * (3 > 2u) == 1 && 0x8000000000000000 >> 3 ? 2 : X`. -/
def sample : List PTok :=
  [.bin .sub, .num .int 1, .bin .add, .num .int 2, .bin .mul, .lpar, .num .int 3, .bin .gt,
   .num .uint 2, .rpar, .bin .eq, .num .int 1, .bin .land, .num .ulong 0x8000000000000000, .bin .shr,
   .num .int 3, .quest, .num .int 2, .colon, .word]

def sampleE : E :=
  .cond (.bin .land (.bin .eq (.bin .add (.un .minus (.num .int 1)) (.bin .mul (.num .int 2)
      (.paren (.bin .gt (.num .int 3) (.num .uint 2))))) (.num .int 1))
    (.bin .shr (.num .ulong 0x8000000000000000) (.num .int 3))) (.num .int 2) .word

theorem _root_.Verif.IfExpr.Spec.Gram.ups {k : Nat} {ts : List PTok} {e : E} (h : Gram k ts e) (j : Nat) (hj : k + j ≤ 12) :
    Gram (k + j) ts e := by
  induction j with
  | zero => exact h
  | succ j ih => exact Gram.up (k := k + j) (by omega) (ih (by omega))

/-- The hypotheses of `C10_if_value_partial` hold for the sample. -/
example : Gram 12 sample sampleE ∧ Plain sampleE ∧ evalIf (sample ++ [.bad]) = .taken := by
  refine ⟨?_, ?_, ?_⟩
  · have n : ∀ ty v k, k ≤ 12 → Gram k [.num ty v] (.num ty v) := by
      intro ty v k hk
      have := Gram.ups (Gram.num (ty := ty) (v := v)) k (by omega)
      simpa using this
    have p : Gram 12 [.num .int 3, .bin .gt, .num .uint 2] (.bin .gt (.num .int 3) (.num .uint 2)) :=
      (Gram.bin (op := .gt) (k := 4) rfl (n _ _ 5 (by omega)) (n _ _ 4 (by omega))).ups 7 (by omega)
    have m := Gram.bin (op := .mul) (k := 1) rfl (n .int 2 2 (by omega)) ((Gram.paren p).ups 1 (by omega))
    have a := Gram.bin (op := .add) (k := 2) rfl
      ((Gram.un (op := .minus) (n .int 1 1 (by omega))).ups 2 (by omega)) m
    have q := Gram.bin (op := .eq) (k := 5) rfl (a.ups 3 (by omega)) (n .int 1 5 (by omega))
    have s := Gram.bin (op := .shr) (k := 3) rfl (n .ulong 0x8000000000000000 4 (by omega)) (n .int 3 3 (by omega))
    have la := Gram.bin (op := .land) (k := 9) rfl (q.ups 4 (by omega)) (s.ups 5 (by omega))
    exact Gram.cond (la.ups 1 (by omega)) (n _ _ 12 (by omega)) (Gram.word.ups 12 (by omega))
  · simp [sampleE, Plain, isEquality, signed]
    decide
  · decide +kernel

end examples

/-- **C10** violated: `1 == 2 == 0` is true in C (`(1 == 2) == 0`) but the group is skipped. -/
theorem C10_equality_chain_violated :
    Gram 6 [.num .int 1, .bin .eq, .num .int 2, .bin .eq, .num .int 0]
      (.bin .eq (.bin .eq (.num .int 1) (.num .int 2)) (.num .int 0)) ∧
    eval (.bin .eq (.bin .eq (.num .int 1) (.num .int 2)) (.num .int 0)) = some 1 ∧
    evalIf [.num .int 1, .bin .eq, .num .int 2, .bin .eq, .num .int 0, .bad] = .skipped := by
  refine ⟨?_, by decide, by decide +kernel⟩
  have n : ∀ v k, k ≤ 12 → Gram k [.num .int v] (.num .int v) := by
    intro v k hk
    have := Gram.ups (Gram.num (ty := .int) (v := v)) k (by omega)
    simpa using this
  have := Gram.bin (op := .eq) (k := 5) rfl (n 1 6 (by omega)) (n 2 5 (by omega))
  exact Gram.bin (op := .eq) (k := 5) rfl this (n 0 5 (by omega))

/-- **C10** violated: `0 | 0 | 1` is 1, but the second `|` is not parsed and the rest of the line
is ignored. -/
theorem C10_or_chain_violated :
    eval (.bin .or (.bin .or (.num .int 0) (.num .int 0)) (.num .int 1)) = some 1 ∧
    evalIf [.num .int 0, .bin .or, .num .int 0, .bin .or, .num .int 1, .bad] = .skipped := by
  constructor <;> decide +kernel

/-- **C10** violated: `0 && 1 / 0` is 0, but ends in a diagnostic. -/
theorem C10_short_circuit_violated :
    eval (.bin .land (.num .int 0) (.bin .div (.num .int 1) (.num .int 0))) = some 0 ∧
    evalIf [.num .int 0, .bin .land, .num .int 1, .bin .div, .num .int 0, .bad] = .diagnosed := by
  constructor <;> decide +kernel

/-- **C10** violated: `!0u - 2 < 0` and `(1 << 1u) - 3 < 0` are true, but computed as unsigned. -/
theorem C10_signedness_violated :
    eval (.bin .lt (.bin .sub (.un .not (.num .uint 0)) (.num .int 2)) (.num .int 0)) = some 1 ∧
    evalIf [.bang, .num .uint 0, .bin .sub, .num .int 2, .bin .lt, .num .int 0, .bad] = .skipped ∧
    eval (.bin .lt (.bin .sub (.paren (.bin .shl (.num .int 1) (.num .uint 1))) (.num .int 3))
      (.num .int 0)) = some 1 ∧
    evalIf [.lpar, .num .int 1, .bin .shl, .num .uint 1, .rpar, .bin .sub, .num .int 3, .bin .lt,
      .num .int 0, .bad] = .skipped := by
  refine ⟨?_, ?_, ?_, ?_⟩ <;> decide +kernel

/-- **C10** violated: `1 ? 2 : (-0x7fffffffffffffff - 1) / -1` has the value 2, but the compiler
divides `LONG_MIN` by -1. -/
theorem C10_host_undefined_violated :
    eval (.cond (.num .int 1) (.num .int 2) (.bin .div (.paren (.bin .sub (.un .minus
      (.num .long 0x7fffffffffffffff)) (.num .int 1))) (.un .minus (.num .int 1)))) = some 2 ∧
    evalIf [.num .int 1, .quest, .num .int 2, .colon, .lpar, .bin .sub, .num .long 0x7fffffffffffffff,
      .bin .sub, .num .int 1, .rpar, .bin .div, .bin .sub, .num .int 1, .bad] = .undefined := by
  constructor <;> decide +kernel

end Verif.IfExpr
