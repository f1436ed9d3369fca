import Verif.Sizeof.Spec

/-!
# C106: `sizeof` is the size of complete types, and refused for others

In full: `sizeof` of a complete type below half of the address space is its size in bytes, and `sizeof`, `_Alignof` and arrays
of other types are refused.

Proved: sizes (`C106_sizeof`), arrays of complete types are made (`C106_array`), `_Alignof` is accepted for complete types only (`C106_alignof`).
`sizeof` and arrays of other types are refused only for arrays without length and functions without prototype
(`C106_refused_partial`); the `_violated` theorems have what is accepted.  For arrays that
are too large see C19.
-/

namespace Verif.Sizeof

theorem sizeOf_of {t : Ty} {s : Nat} (h : HasSize t s) (hs : s < 2 ^ 64) : sizeOf t = s := by
  have key : ∀ {t : Ty} {s : Nat}, HasSize t s → sizeOf t % 2 ^ 64 = s % 2 ^ 64 := by
    intro t s h
    induction h with
    | scalar => rfl
    | record => rfl
    | @array n s e _ ih =>
      simp only [sizeOf, Option.getD_some]
      rw [Nat.mod_mod, Nat.mul_mod, ih, ← Nat.mul_mod]
  have := key h
  rw [Nat.mod_eq_of_lt hs] at this
  cases h with
  | scalar => rfl
  | record => rfl
  | array _ => simpa [sizeOf] using this

theorem isComplete_of {t : Ty} {s : Nat} (h : HasSize t s) : isComplete t = true := by
  cases h <;> rfl

/-- `sizeof` of a complete type is its size. -/
theorem C106_sizeof (t : Ty) (s : Nat) (h : HasSize t s) (hs : s < 2 ^ 64) : sizeofType t = some s := by
  simp [sizeofType, isComplete_of h, sizeOf_of h hs]

/-- Arrays of complete types are made, with the right size, if they have less than half of the address space. -/
theorem C106_array (n s : Nat) (e : Ty) (h : HasSize e s) (hs : s < 2 ^ 64) (hn : n * s < 2 ^ 63) :
    ∃ t, makeArray (some n) e = some t ∧ HasSize t (n * s) ∧ sizeofType t = some (n * s) := by
  have ha : HasSize (.array (some n) e) (n * s) := .array h
  refine ⟨.array (some n) e, ?_, ha, C106_sizeof _ _ ha (by omega)⟩
  simp only [makeArray, isComplete_of h, sizeOf_of h hs, Bool.not_true, Bool.false_eq_true, if_false]
  rw [Nat.mod_eq_of_lt (by omega), if_neg (by omega)]

/-- Sizes and lengths are not zero, and sizes fit. -/
def Plain : Ty → Prop
  | .scalar s => s ≠ 0
  | .record s => s ≠ some 0
  | .array n e => Plain e ∧ n ≠ some 0 ∧ ∀ k, n = some k → k * sizeOf e < 2 ^ 64
  | .void | .fn _ => True

theorem sizeOf_ne {t : Ty} (h : Plain t) : sizeOf t ≠ 0 ↔ Complete t := by
  induction t with
  | void => simp [sizeOf, Complete]; intro s h; cases h
  | fn p => simp [sizeOf, Complete]; intro s h; cases h
  | scalar s => exact ⟨fun _ => ⟨_, .scalar⟩, fun _ => h⟩
  | record s =>
    cases s with
    | none => simp [sizeOf, Complete]; intro s h; cases h
    | some s =>
      refine ⟨fun _ => ⟨_, .record⟩, fun _ e => ?_⟩
      simp [sizeOf] at e
      exact h (by rw [e])
  | array n e ih =>
    obtain ⟨h1, h2, h3⟩ := h
    cases n with
    | none => simp [sizeOf, Complete]; intro s h; cases h
    | some k =>
      have hk : k ≠ 0 := fun e => h2 (by rw [e])
      simp only [sizeOf, Option.getD_some]
      rw [Nat.mod_eq_of_lt (h3 k rfl)]
      constructor
      · intro hz
        obtain ⟨s, hs⟩ := (ih h1).1 (fun e => hz (by rw [e, Nat.mul_zero]))
        exact ⟨_, .array hs⟩
      · rintro ⟨s, hs⟩
        cases hs with
        | array hs => exact Nat.mul_ne_zero hk ((ih h1).2 ⟨_, hs⟩)

/-- `_Alignof` is accepted for complete types only. -/
theorem C106_alignof (t : Ty) (h : Plain t) : alignofType t = true ↔ Complete t := by
  rw [← sizeOf_ne h]
  cases t <;> simp [alignofType, sizeOf] <;> exact decide_eq_true_iff

/-- The exceptions: `void`, incomplete structures and functions with a prototype, and arrays of these. -/
def Ordinary : Ty → Prop
  | .void => False
  | .fn p => p = false
  | .record s => s ≠ none
  | .scalar _ => True
  | .array _ e => Complete e

/-- `sizeof` and arrays of incomplete types are refused. -/
theorem C106_refused_partial (t : Ty) (ho : Ordinary t) (h : ¬ Complete t) :
    sizeofType t = none ∧ ∀ n, makeArray n t = none := by
  have hc : isComplete t = false := by
    cases t with
    | void => exact ho.elim
    | scalar s => exact absurd ⟨_, .scalar⟩ h
    | fn p => exact ho
    | record s =>
      cases s with
      | none => exact absurd rfl ho
      | some s => exact absurd ⟨_, .record⟩ h
    | array n e =>
      cases n with
      | none => rfl
      | some k =>
        obtain ⟨s, hs⟩ := ho
        exact absurd ⟨_, .array hs⟩ h
  exact ⟨by simp [sizeofType, hc], fun n => by simp [makeArray, hc]⟩

/-! ## Examples and witnesses -/

def a34 : Ty := .array (some 3) (.array (some 4) (.scalar 4))

example : HasSize a34 48 := .array (.array .scalar)
example : sizeofType a34 = some 48 := by decide
example : Plain a34 := by
  refine ⟨⟨nofun, by decide, ?_⟩, by decide, ?_⟩ <;> intro k h <;> cases h <;> decide
example : Ordinary (.array none (.scalar 4)) ∧ ¬ Complete (.array none (.scalar 4)) := by
  refine ⟨⟨_, .scalar⟩, ?_⟩
  rintro ⟨s, h⟩; cases h
example : sizeofType (.array none (.scalar 4)) = none := by decide

/-- `sizeof (void)`, `sizeof (struct S)` without members and `sizeof f` for a function with a prototype are zero. -/
theorem C106_sizeof_violated :
    (sizeofType .void = some 0 ∧ ¬ Complete .void) ∧
    (sizeofType (.record none) = some 0 ∧ ¬ Complete (.record none)) ∧
    sizeofType (.fn true) = some 0 ∧ ¬ Complete (.fn true) := by
  refine ⟨⟨rfl, ?_⟩, ⟨rfl, ?_⟩, rfl, ?_⟩ <;> (rintro ⟨s, h⟩; cases h)

/-- `struct S a[10];` with an incomplete structure is an array of size zero. -/
theorem C106_elements_violated :
    makeArray (some 10) (.record none) = some (.array (some 10) (.record none)) ∧
    sizeofType (.array (some 10) (.record none)) = some 0 ∧ ¬ Complete (.record none) := by
  refine ⟨by decide, by decide, ?_⟩
  rintro ⟨s, h⟩; cases h

end Verif.Sizeof
