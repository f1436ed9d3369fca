import Verif.Field.Lemmas

/-!
# C72: bit-fields in expressions have the values and types that C gives them
-/

namespace Verif.Field

open Verif.Types.Spec (Basic)
open Verif.Expr (Exp Env Does)
open Verif.Fold.Spec (conv)

/-- **C72**, in part.  Assignments to ordinary variables, with bit-fields of any width and type, signed or unsigned, in the expressions, have the
results that C says, where narrow bit-fields of unsigned type are operands of `+`, `-`, `!`, comparisons and casts, on the right of shifts, or on their
own.  Missing: other operators, which violate the property, assignments to bit-fields (C87), and the code (C88 has it for variables, C87 for loading
bit-fields). -/
theorem C72_program_partial (W : Decls) (N : Nat) (p : List (Nat × Exp)) (hp : ∀ s ∈ p, s.1 < N ∧ W.width s.1 = none ∧ Ok W N s.2)
    (ρ ρ' : Nat → Int) (hf : W.Fits N ρ) (h : exec W ρ p = some ρ') (n : Nat) (t : Nat → Option (Basic × Int)) :
    ∃ M st σ, lowerAll W p n = some ((), M, st) ∧ Does W.ty N M ⟨ρ, t⟩ st σ ∧ σ.vars = ρ' := by
  have go : ∀ (p : List (Nat × Exp)), (∀ s ∈ p, s.1 < N ∧ W.width s.1 = none ∧ Ok W N s.2) → ∀ (σ : Env) (n : Nat), W.Fits N σ.vars →
      exec W σ.vars p = some ρ' → Expr.Sound W.ty N σ n (lowerAll W p) fun σ' _ _ => σ'.vars = ρ' := by
    intro p
    induction p with
    | nil =>
      intro _ σ n _ he
      cases he
      exact .pure rfl
    | cons s r ih =>
      intro hp σ n hf he
      obtain ⟨i, e⟩ := s
      obtain ⟨h1, h2, h3⟩ := hp (i, e) (by simp)
      simp only [exec, Option.bind_eq_bind, Option.bind_eq_some_iff, Prod.exists] at he
      obtain ⟨b, x, hv, he⟩ := he
      refine .bind (assign_sound hf h3 hv h1) ?_
      intro σ1 n1 _ l1 e1
      exact ih (fun s hs => hp s (List.mem_cons_of_mem _ hs)) σ1 n1 (by rw [e1]; exact put_fits hf h1 h2) (by rw [e1]; exact he)
  obtain ⟨_, M, st, σ, h1, _, h2, h3⟩ := go p hp ⟨ρ, t⟩ n hf h
  exact ⟨M, st, σ, h1, h2, h3⟩

/-- What is executed has no other result. -/
theorem C72_unique_partial (W : Decls) (N : Nat) (p : List (Nat × Exp)) (hp : ∀ s ∈ p, s.1 < N ∧ W.width s.1 = none ∧ Ok W N s.2)
    (ρ ρ' : Nat → Int) (hf : W.Fits N ρ) (h : exec W ρ p = some ρ') (n : Nat) (t : Nat → Option (Basic × Int)) (M : Nat) (st : List Expr.Stmt)
    (σ : Env) (hl : lowerAll W p n = some ((), M, st)) (hd : Does W.ty N M ⟨ρ, t⟩ st σ) : σ.vars = ρ' := by
  obtain ⟨M', st', σ', h1, h2, h3⟩ := C72_program_partial W N p hp ρ ρ' hf h n t
  rw [hl] at h1
  cases h1
  rw [does_unique hd h2]
  exact h3

/-- `struct { unsigned x : 3; int y : 5; } s; long a, b;`: variables 0 to 3. -/
def record : Decls := ⟨fun i => [.uint, .int, .long, .long].getD i .long, fun i => [some 3, some 5, none, none].getD i none⟩

theorem record_narrow : record.Narrow 0 := ⟨rfl, 3, by decide, rfl⟩

theorem record_wide {i : Nat} (h : 0 < i) : ¬ record.Narrow i := by
  rintro ⟨h1, w, h2, h3⟩
  rcases i with _ | _ | _ | _ | i
  · omega
  all_goals cases h1

theorem record_operand (i : Nat) : record.operand i = if i = 0 then .int else record.ty i := by
  by_cases h : i = 0
  · subst h; exact operand_narrow record_narrow
  · rw [if_neg h]; exact operand_other (record_wide (by omega))

/-- `s.x = 1`, `s.y = -7`, `a = b = 0`. -/
def values : Nat → Int := fun i => [1, -7, 0, 0].getD i 0

theorem values_fit : record.Fits 4 values := by
  intro i hi
  have : i = 0 ∨ i = 1 ∨ i = 2 ∨ i = 3 := by omega
  rcases this with rfl | rfl | rfl | rfl
  · exact ⟨⟨_, _, rfl, by decide⟩, by rintro w h _; cases h; decide⟩
  · exact ⟨⟨_, _, rfl, by decide⟩, by rintro w h h'; cases h'⟩
  · exact ⟨⟨_, _, rfl, by decide⟩, by rintro w h _; cases h⟩
  · exact ⟨⟨_, _, rfl, by decide⟩, by rintro w h _; cases h⟩

/-- `a = s.x + s.y; b = -s.x < (1 << s.x);`: the sum is negative, as the bit-field is an `int`. -/
def mixed : List (Nat × Exp) :=
  [(2, .bin .add (.var 0) (.var 1)), (3, .rel .lt (.neg (.var 0)) (.bin .shl (.const .int 1) (.var 0)))]

example : exec record values mixed = some (Expr.put (Expr.put values 2 (-6)) 3 1) ∧ (∀ s ∈ mixed, s.1 < 4 ∧ record.width s.1 = none ∧ Ok record 4 s.2) := by
  constructor
  · simp only [exec, mixed, Exp.value, record_operand, Option.bind_eq_bind, Option.bind_some]
    rfl
  · intro s hs
    simp only [mixed, List.mem_cons, List.not_mem_nil, or_false] at hs
    rcases hs with rfl | rfl
    · exact ⟨by decide, rfl, show (0 : Nat) < 4 by decide, show (1 : Nat) < 4 by decide, .inl rfl⟩
    · exact ⟨by decide, rfl, show (0 : Nat) < 4 by decide, ⟨_, _, rfl, by decide⟩, show (0 : Nat) < 4 by decide, .inr (.inr ⟨id, .inl rfl⟩)⟩

/-- `a = s.x * -1;` -/
def times : List (Nat × Exp) := [(2, .bin .mul (.var 0) (.neg (.const .int 1)))]

/-- The same variables, none of them a bit-field. -/
def W0 : Decls := ⟨record.ty, fun _ => none⟩

/-- The code computes the product of unsigned numbers, as if `s.x` were an ordinary `unsigned`. -/
theorem C72_product_violated :
    exec record values times = some (Expr.put values 2 (-1)) ∧
    ∃ M st σ, lowerAll record times 0 = some ((), M, st) ∧ Does record.ty 4 M ⟨values, fun _ => none⟩ st σ ∧
      (∀ σ', Does record.ty 4 M ⟨values, fun _ => none⟩ st σ' → σ'.vars 2 = 4294967295) := by
  refine ⟨?_, ?_⟩
  · simp only [exec, times, Exp.value, record_operand, Option.bind_eq_bind, Option.bind_some]
    rfl
  · have h0 : W0.Fits 4 values := by
      intro i hi
      exact ⟨(values_fit i hi).1, fun w h => by cases h⟩
    obtain ⟨M, st, σ, h1, h2, h3⟩ := C72_program_partial W0 4 times (by
      intro s hs
      simp only [times, List.mem_cons, List.not_mem_nil, or_false] at hs
      subst hs
      refine ⟨by decide, rfl, show (0 : Nat) < 4 by decide, ⟨_, _, rfl, by decide⟩, .inr (.inr ⟨?_, .inr (.inr id)⟩)⟩
      rintro ⟨_, w, _, h⟩
      cases h) values (Expr.put values 2 4294967295) h0 (by
      have : ∀ i, W0.operand i = W0.ty i := fun i => operand_other (by rintro ⟨_, w, _, h⟩; cases h)
      simp only [exec, times, Exp.value, this, Option.bind_eq_bind, Option.bind_some]
      rfl) 0 (fun _ => none)
    refine ⟨M, st, σ, ?_, h2, fun σ' h => ?_⟩
    · rw [← h1]; rfl
    · rw [does_unique h h2, h3]; rfl

end Verif.Field
