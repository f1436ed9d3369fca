import Verif.Abi.Lemmas

/-!
# C37: classes of arguments and results

The classification the compiler uses for arguments and results is the one of the System V
ABI, section 3.2.3 (`SysV.passing`, written from the text of the ABI).
-/

namespace Verif.Abi

open SysV

/-- Scalars: integers, booleans, pointers, float, double and long double. -/
theorem C37_scalars (t : Ty) (hl : laidOut t = true)
    (ht : (∀ n e, t ≠ .array n e) ∧ ∀ n a f ms, t ≠ .agg n a f ms) :
    ∃ pc, classify t = some pc ∧ Agrees pc (passing t) := by
  cases t with
  | array n e => exact absurd rfl (ht.1 n e)
  | agg n a f ms => exact absurd rfl (ht.2 n a f ms)
  | int n s =>
    refine ⟨_, rfl, ?_⟩
    simp only [laidOut, Bool.or_eq_true, beq_iff_eq] at hl
    rcases hl with ((rfl | rfl) | rfl) | rfl <;> cases s <;> decide
  | _ => exact ⟨_, rfl, by decide⟩

example : ∃ pc, classify (.int 4 true) = some pc ∧ Agrees pc (passing (.int 4 true)) :=
  C37_scalars _ (by decide) ⟨nofun, nofun⟩

/-- Structures and unions, without `_Bool` members, where every direct member starts at a
multiple of its size: the classes are those of the ABI, eightbyte by eightbyte.

Missing from the full property: `_Bool` members (`C37_bool_violated`) and members which
are aligned but not at a multiple of their size (`C37_aligned_violated`). -/
theorem C37_partial (n a : Nat) (flexible : Bool) (ms : Mems) (hl : laidOut (.agg n a flexible ms) = true)
    (hb : boolFreeIn ms = true) (hs : sizeAligned ms = true) :
    ∃ pc, classify (.agg n a flexible ms) = some pc ∧ Agrees pc (passing (.agg n a flexible ms)) := by
  cases flexible with
  | true => exact ⟨noClass.set 0 .memory, by simp [classify], by simp [passing, variablySized, Agrees, noClass]⟩
  | false =>
    by_cases h4 : (n + 7) / 8 ≤ 4
    · obtain ⟨pc, e, h⟩ := classify_agrees hl hb h4
      have hl' := hl
      simp only [laidOut, Bool.and_eq_true] at hl'
      refine ⟨_, ?_, h⟩
      simp [classify, h4, hasUnaligned_false ms n a hl'.2, hs, e]
    · refine ⟨noClass.set 0 .memory, by simp [classify, h4], ?_⟩
      have : count (.agg n a false ms) > 4 := by simp only [count, Ty.size]; omega
      simp [passing, this, Agrees, noClass]

/-- `struct { double d; int i; float f; }`. -/
def mixed : Mems := .cons 0 .double (.cons 8 (.int 4 true) (.cons 12 .float .nil))

example : ∃ pc, classify (.agg 16 8 false mixed) = some pc ∧ Agrees pc (passing (.agg 16 8 false mixed)) :=
  C37_partial 16 8 false mixed (by decide) (by decide) (by decide)
example : passing (.agg 16 8 false mixed) = .eightbytes [.sse, .integer] := by decide
/-- `union { long double; struct { long a, b; } }`. -/
example : passing (.agg 16 16 false (.cons 0 .ldouble (.cons 0
    (.agg 16 8 false (.cons 0 (.int 8 true) (.cons 8 (.int 8 true) .nil))) .nil))) =
    .eightbytes [.integer, .integer] := by decide

/-- Objects of more than 16 bytes are passed in memory, whatever is in them, if they
contain no `_Bool`. -/
theorem C37_large_partial (n a : Nat) (flexible : Bool) (ms : Mems)
    (hl : laidOut (.agg n a flexible ms) = true) (hb : boolFreeIn ms = true) (hn : 16 < n) :
    passing (.agg n a flexible ms) = .memory ∧
      ∃ pc, classify (.agg n a flexible ms) = some pc ∧ pc.head? = some .memory := by
  have hp : passing (.agg n a flexible ms) = .memory := by
    cases flexible with
    | true => simp [passing, variablySized]
    | false =>
      simp only [passing]
      split_ifs with h1 h2 h3 h4
      · rfl
      · rfl
      · rfl
      · rfl
      · exfalso
        apply h4
        refine ⟨by simp only [count, Ty.size]; omega, ?_⟩
        rintro ⟨_, h⟩
        have := h 1 (by simp only [count, Ty.size, List.mem_range]; omega) (by simp)
        exact fold_ne 1 _ .no (by simp) this
  refine ⟨hp, ?_⟩
  by_cases hs : sizeAligned ms = true
  · obtain ⟨pc, e, h⟩ := C37_partial n a flexible ms hl hb hs
    rw [hp] at h
    exact ⟨pc, e, h⟩
  · have hl' := hl
    simp only [laidOut, Bool.and_eq_true] at hl'
    refine ⟨noClass.set 0 .memory, ?_, rfl⟩
    simp only [classify]
    split_ifs
    · simp [hasUnaligned_false ms n a hl'.2, hs]
    · rfl

/-- `struct { int a; struct { int x[3]; } s; long l; }`. -/
example : passing (.agg 24 8 false (.cons 0 (.int 4 true) (.cons 4 (.agg 12 4 false
    (.cons 0 (.array 3 (.int 4 true)) .nil)) (.cons 16 (.int 8 true) .nil)))) = .memory :=
  (C37_large_partial 24 8 false _ (by decide) (by decide) (by decide)).1

/-- The extent of the disagreement: in an object of at most 16 bytes with a member not at
a multiple of its size, the answer is memory. -/
theorem C37_extent_partial (n a : Nat) (ms : Mems) (hl : laidOut (.agg n a false ms) = true)
    (hs : sizeAligned ms = false) :
    ∃ pc, classify (.agg n a false ms) = some pc ∧ pc.head? = some .memory := by
  have hl' := hl
  simp only [laidOut, Bool.and_eq_true] at hl'
  refine ⟨noClass.set 0 .memory, ?_, rfl⟩
  simp only [classify]
  split_ifs
  · simp [hasUnaligned_false ms n a hl'.2, hs]
  · rfl

/-- `struct { int a; char b[3]; }`: two aligned members, eight bytes.  The ABI passes it
in one general purpose register, the compiler on the stack. -/
theorem C37_aligned_violated :
    laidOut (.agg 8 4 false (.cons 0 (.int 4 true) (.cons 4 (.array 3 (.int 1 true)) .nil))) = true ∧
    passing (.agg 8 4 false (.cons 0 (.int 4 true) (.cons 4 (.array 3 (.int 1 true)) .nil))) =
      .eightbytes [.integer] ∧
    classify (.agg 8 4 false (.cons 0 (.int 4 true) (.cons 4 (.array 3 (.int 1 true)) .nil))) =
      some [.memory, .no, .no, .no] := by decide

/-- `struct { int a; struct { int x, y, z; } s; }`, likewise. -/
theorem C37_nested_violated :
    let s : Ty := .agg 12 4 false (.cons 0 (.int 4 true) (.cons 4 (.int 4 true) (.cons 8 (.int 4 true) .nil)))
    let t : Ty := .agg 16 4 false (.cons 0 (.int 4 true) (.cons 4 s .nil))
    laidOut t = true ∧ passing t = .eightbytes [.integer, .integer] ∧
      classify t = some [.memory, .no, .no, .no] := by decide

/-- `struct { _Bool b; }`: the compiler stops at a failing assertion. -/
theorem C37_bool_violated :
    laidOut (.agg 1 1 false (.cons 0 .bool .nil)) = true ∧
    passing (.agg 1 1 false (.cons 0 .bool .nil)) = .eightbytes [.integer] ∧
    classify (.agg 1 1 false (.cons 0 .bool .nil)) = none := by decide

end Verif.Abi
