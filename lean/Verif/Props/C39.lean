import Verif.Abi.FrameLemmas

/-!
# C39: the parts of a stack frame

`%rbp - 8k + size` is the stack pointer in the body of a function, where `k` registers are
saved and `size` is the (negative) size of what is reserved below them.
-/

namespace Verif.Abi

/-- Everything a function has in its frame: saved registers, the address for the result,
the register save area, parameters which came in registers, and locals. -/
def parts (params : List Ty) (locals : List Nat) (k : Nat) (resMem vararg : Bool) (f : Frame) : List (Int × Nat) :=
  savedParts k ++ (if vararg then [(-176, 176)] else if resMem then [(f.retOffset, 8)] else []) ++
    paramParts true params f ++ localParts locals f

/-- The parts have no byte in common and are inside of the reserved memory.

Missing from the full property: functions with a variable number of arguments in which a
register is saved (`C39_saved_violated`). -/
theorem C39_partial {params : List Ty} {locals : List Nat} {k : Nat} {resMem vararg : Bool} {f : Frame}
    (h : frame params locals k resMem vararg = some f) (hv : vararg = true → k = 0) :
    (parts params locals k resMem vararg f).Pairwise Apart ∧
    ∀ p ∈ parts params locals k resMem vararg f, -(8 * k : Int) + f.size ≤ p.1 ∧ p.1 + p.2 ≤ 0 := by
  obtain ⟨_, f1, _, f2, f3, _, f4⟩ := frame_spec h
  have hc : Chain (-(8 * k : Int) + f.size) 0 (parts params locals k resMem vararg f) := by
    unfold parts
    have hstart : Chain (start resMem vararg - (8 * k : Nat)) 0
        (savedParts k ++ (if vararg then [(-176, 176)] else if resMem then [(f.retOffset, 8)] else [])) := by
      refine (saved_chain k).append ?_
      cases vararg with
      | true =>
        have := hv rfl
        subst this
        simp [Chain, start]
      | false =>
        rw [f4]
        cases resMem <;> simp [Chain, start] <;> omega
    have hp := reg_chain (8 * k) params f.classes (start resMem vararg) 16
    have hl := local_chain (8 * k) locals (paramOffsets (8 * k) params f.classes (start resMem vararg) 16).2.1
    rw [← f1] at hp
    rw [← f2] at hl
    exact ((hstart.append hp).append hl).mono (by omega) (Int.le_refl _)
  exact ⟨hc.apart, hc.bounds⟩

example : (frame [.int 4 true, big, .double] [4, 24] 3 true false).map
    (parts [.int 4 true, big, .double] [4, 24] 3 true false) =
    some [(-8, 8), (-16, 8), (-24, 8), (-32, 8), (-40, 4), (-48, 8), (-56, 4), (-80, 24)] := by decide

/-- Parameters on the stack are above the frame and the return address, at `16(%rbp)` and
up, and have no byte in common. -/
theorem C39_stack_parameters {params : List Ty} {locals : List Nat} {k : Nat} {resMem vararg : Bool} {f : Frame}
    (h : frame params locals k resMem vararg = some f) :
    (paramParts false params f).Pairwise Apart ∧
    ∀ p ∈ paramParts false params f, 16 ≤ p.1 ∧ p.1 + p.2 ≤ f.overflow := by
  obtain ⟨_, f1, f2, _⟩ := frame_spec h
  have := stack_chain (8 * k) params f.classes (start resMem vararg) 16
  rw [← f1, ← f2] at this
  exact ⟨this.1, this.2.1⟩

example : (frame [big, .ldouble, big] [] 0 false false).map (paramParts false [big, .ldouble, big]) =
    some [(16, 24), (40, 16), (56, 24)] := by decide

/-- In the body of a function the stack pointer is a multiple of 16, and all parameters and
locals are at multiples of 8.

Missing from the full property: objects of more alignment (`C39_alignment_violated`). -/
theorem C39_aligned_partial {params : List Ty} {locals : List Nat} {k : Nat} {resMem vararg : Bool} {f : Frame}
    (h : frame params locals k resMem vararg = some f) :
    (-(8 * k : Int) + f.size) % 16 = 0 ∧ (∀ o ∈ f.params, o % 8 = 0) ∧ ∀ o ∈ f.locals, o % 8 = 0 := by
  obtain ⟨_, f1, _, f2, _, f3, _⟩ := frame_spec h
  have hs : start resMem vararg % 8 = 0 := by unfold start; split_ifs <;> rfl
  have hp := paramOffsets_mod (8 * k) (by omega) params f.classes (start resMem vararg) 16 hs rfl
  have hl := localOffsets_mod (8 * k) (by omega) locals _ hp.2
  rw [← f1] at hp
  rw [← f2] at hl
  exact ⟨by omega, hp.1, hl⟩

example : (frame [.int 4 true] [1] 1 false true).map (fun f => (f.size, f.params, f.locals)) =
    some (-200, [-192], [-200]) := by decide

/-- A local `long double` after a local `int` is not at a multiple of 16. -/
theorem C39_alignment_violated :
    (frame [] [4, 16] 0 false false).map (·.locals) = some [-8, -24] ∧ Ty.align .ldouble = 16 ∧
    (-24 : Int) % 16 ≠ 0 := by decide

/-- A state at the entry of a function: `%rbx` is 7, one vector register is used. -/
def vaState : M where
  reg r := if r = SP then 4088 else if r = BX then 7 else if r = AX then 1 else if r = XMM 7 then 2 ^ 120 else 0
  mem _ := 0

/-- `f(int n, ...)`, where one register is saved: the register save area is at the place of
the saved register; when the function returns, the value of `%rbx`, which belongs to the
caller, has changed. -/
theorem C39_saved_violated :
    (enter [.int 4 true] [] 1 false true vaState).map (fun s => (run s (epilogue 1)).reg BX) = some (2 ^ 56) ∧
    vaState.reg BX = 7 := by decide +kernel

end Verif.Abi
