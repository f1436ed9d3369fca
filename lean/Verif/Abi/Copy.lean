import Verif.Abi.MachineLemmas

/-!
# Copying objects

`emit_memcpy`, src/backend/x86_64/compile.c:804-841, where it does not call the library.
-/

namespace Verif.Abi

/-- The width of the next access when `n` bytes are left. -/
def chunk : Nat → Nat
  | 1 => 1
  | 2 => 2
  | 3 => 2
  | 4 => 4
  | 5 => 4
  | 6 => 4
  | 7 => 4
  | _ => 8

/-- The loop, for at most `fuel` rounds. -/
def copyLoop (n : Nat) : (fuel i : Nat) → List Ins
  | 0, _ => []
  | fuel + 1, i =>
    if i < n then
      .ld (chunk (n - i)) AX (.base SI i) :: .st (chunk (n - i)) AX (.base DI i) ::
        copyLoop n fuel (i + chunk (n - i))
    else []

/-- Code for copying `n` bytes from `%rsi` to `%rdi`. -/
def copyCode (n : Nat) : List Ins := copyLoop n n 0

theorem chunk_le (n : Nat) (h : 0 < n) : 1 ≤ chunk n ∧ chunk n ≤ n ∧ chunk n ≤ 8 := by
  by_cases h9 : n < 9
  · interval_cases n <;> decide
  · obtain ⟨k, rfl⟩ : ∃ k, n = k + 9 := ⟨n - 9, by omega⟩
    have : chunk (k + 9) = 8 := rfl
    omega

theorem copyLoop_spec (n : Nat) : ∀ (fuel i : Nat) (t : M), n ≤ i + fuel →
    (t.reg SI = t.reg DI ∨ t.reg SI + n ≤ t.reg DI ∨ t.reg DI + n ≤ t.reg SI) →
    (∀ r, r ≠ AX → (run t (copyLoop n fuel i)).reg r = t.reg r) ∧
    (∀ x, x < t.reg DI + i ∨ t.reg DI + n ≤ x → (run t (copyLoop n fuel i)).mem x = t.mem x) ∧
    ∀ j : Nat, i ≤ j → j < n → (run t (copyLoop n fuel i)).mem (t.reg DI + j) = t.mem (t.reg SI + j)
  | 0, i, t, hf, _ => by
    simp only [copyLoop, run_nil]
    exact ⟨fun _ _ => trivial, fun _ _ => trivial, fun j _ _ => by omega⟩
  | fuel + 1, i, t, hf, ho => by
    simp only [copyLoop]
    split_ifs with hi
    · obtain ⟨c1, c2, c3⟩ := chunk_le (n - i) (by omega)
      generalize chunk (n - i) = w at *
      rw [run_cons, run_cons]
      obtain ⟨u, hu⟩ : ∃ u, step (step t (.ld w AX (.base SI i))) (.st w AX (.base DI i)) = u := ⟨_, rfl⟩
      have ur : ∀ r, r ≠ AX → u.reg r = t.reg r := by
        intro r hr
        subst hu
        simp [step, hr]
      have um : u.mem = wr t.mem (t.reg DI + i) (rd t.mem (t.reg SI + i) w) := by
        subst hu
        simp only [step, write_mem, set_mem]
        have e1 : (t.set AX (merged (decide (w < 4)) w (t.reg AX) (val (rd t.mem (t.ea (.base SI i)) w)))).ea
            (.base DI i) = t.reg DI + i := rfl
        have e2 : t.ea (.base SI i) = t.reg SI + i := rfl
        rw [e1, e2]
        congr 1
        unfold le rd
        apply List.map_congr_left
        intro j hj
        have hj := List.mem_range.mp hj
        rw [set_reg, if_pos rfl, byteAt_merged _ _ _ _ hj]
        exact byteAt_val_rd hj
      rw [hu]
      have hsi : u.reg SI = t.reg SI := ur SI (by decide)
      have hdi : u.reg DI = t.reg DI := ur DI (by decide)
      obtain ⟨h1, h2, h3⟩ := copyLoop_spec n fuel (i + w) u (by omega) (by rw [hsi, hdi]; exact ho)
      rw [hdi] at h2 h3
      rw [hsi] at h3
      refine ⟨fun r hr => by rw [h1 r hr, ur r hr], fun x hx => ?_, fun j hj hn => ?_⟩
      · rw [h2 x (by omega), um, wr_out (by simp; omega)]
      · by_cases hjw : j < i + w
        · rw [h2 _ (by omega), um]
          have := wr_rd (m := t.mem) (m' := t.mem) (a := t.reg DI + i) (b := t.reg SI + i) (n := w) (j := j - i) (by omega)
          rw [show t.reg DI + i + ((j - i : Nat) : Int) = t.reg DI + j by omega,
            show t.reg SI + i + ((j - i : Nat) : Int) = t.reg SI + j by omega] at this
          exact this
        · rw [h3 j (by omega) hn, um, wr_out (by simp; omega)]
    · simp only [run_nil]
      exact ⟨fun _ _ => trivial, fun _ _ => trivial, fun j _ _ => by omega⟩

/-- The copy: exactly `n` bytes are written, with the bytes of the source, which is the same
object or one which does not overlap. -/
theorem copyCode_spec (n : Nat) (t : M)
    (ho : t.reg SI = t.reg DI ∨ t.reg SI + n ≤ t.reg DI ∨ t.reg DI + n ≤ t.reg SI) :
    (∀ r, r ≠ AX → (run t (copyCode n)).reg r = t.reg r) ∧
    (∀ x, x < t.reg DI ∨ t.reg DI + n ≤ x → (run t (copyCode n)).mem x = t.mem x) ∧
    ∀ j : Nat, j < n → (run t (copyCode n)).mem (t.reg DI + j) = t.mem (t.reg SI + j) := by
  obtain ⟨h1, h2, h3⟩ := copyLoop_spec n n 0 t (by omega) ho
  exact ⟨h1, fun x hx => h2 x (by simpa using hx), fun j hj => h3 j (by omega) hj⟩

end Verif.Abi
