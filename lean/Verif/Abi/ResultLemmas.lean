import Verif.Abi.Result
import Verif.Abi.AssignSpec
import Verif.Abi.Arrive

/-! # Lemmas about results of functions -/

namespace Verif.Abi

open SysV (assign passing)

theorem ret_not_kept {r : Nat} (h : r ∈ retInt ∨ r ∈ retSse) : ¬ Kept r ∧ r ≠ R11 ∧ r ≠ SP ∧ r ≠ IP := by
  simp only [retInt, retSse, List.mem_cons, List.not_mem_nil, or_false] at h
  unfold Kept
  rcases h with (h | h) | (h | h) <;> subst h <;> decide

/-- What is known about the slices of a result. -/
structure Sliced (t : Ty) (pc : PC) (sl : List Slice) : Prop where
  cls : classify t = some pc
  code : slices t pc (eightbytes t) 0 retInt retSse = some sl
  head : pc.head? = some .integer ∨ pc.head? = some .sse
  apart : sl.Pairwise (fun a b => a.1 < b.1 ∧ a.2.2.2 ≠ b.2.2.2)
  all : ∀ q, q < eightbytes t → ∃ e ∈ sl, e.1 = q
  each : ∀ e ∈ sl, e.1 < eightbytes t ∧ sliceType t pc e.1 = some (e.2.1, e.2.2.1)
  regs : ∀ e ∈ sl, e.2.2.2 ∈ retInt ∨ e.2.2.2 ∈ retSse

theorem resultSlices_spec {t : Ty} {sl : List Slice} (h : resultSlices t = some sl) : ∃ pc, Sliced t pc sl := by
  unfold resultSlices at h
  obtain ⟨pc, hpc, h⟩ := Option.bind_eq_some_iff.mp h
  refine ⟨pc, ?_⟩
  have key : ∀ h : slices t pc (eightbytes t) 0 retInt retSse = some sl,
      (pc.head? = some .integer ∨ pc.head? = some .sse) → Sliced t pc sl := by
    intro h hh
    obtain ⟨d1, d2⟩ := slices_distinct _ _ _ _ _ h (by decide)
    have hm := slices_mem _ _ _ _ _ h
    refine ⟨hpc, h, hh, d1, fun q hq => d2 q (by omega) (by omega), fun e he => ⟨?_, (hm e he).2.2.1⟩, fun e he => ?_⟩
    · have := (hm e he).2.1
      omega
    · rcases (hm e he).2.2.2 with h | h
      · exact .inl (List.mem_of_mem_take h)
      · exact .inr (List.mem_of_mem_take h)
  split at h
  · rename_i hh; exact key h (.inl hh)
  · rename_i hh; exact key h (.inr hh)
  · cases h

/-- Loading a result in registers. -/
theorem returnCode_spec {s : M} {lo hi : Int} {a : Arg} (hg : a.Good s lo hi) {code : List Ins}
    (h : returnCode a = some code) : ∃ pc sl, Sliced a.ty pc sl ∧ (run s code).mem = s.mem ∧
      (∀ x, x ∉ retInt → x ∉ retSse → x ≠ R11 → (run s code).reg x = s.reg x) ∧
      ∀ e ∈ sl, ∀ j, j < need a.ty.size e.1 → byteAt ((run s code).reg e.2.2.2) j = a.src.byte s (8 * e.1 + j) := by
  unfold returnCode at h
  obtain ⟨sl, hsl, h⟩ := Option.bind_eq_some_iff.mp h
  obtain ⟨pc, hs⟩ := resultSlices_spec hsl
  obtain ⟨g1, g2, g3⟩ := loadSlices_spec hg (pc := pc) sl code s h (Same.refl s lo hi) hs.apart hs.each
    (fun e he => ⟨(ret_not_kept (hs.regs e he)).1, (ret_not_kept (hs.regs e he)).2.1⟩)
  refine ⟨pc, sl, hs, g1, fun x h1 h2 h3 => g2 x h3 fun e he heq => ?_, g3⟩
  rcases hs.regs e he with h | h
  · exact h1 (heq ▸ h)
  · exact h2 (heq ▸ h)

/-- Stores of slices to an object in memory. -/
theorem putSlices_spec {W E} {O : Int} {n : Nat} {dst : Src} (hW : ∀ x, O ≤ x → x < O + 8 * n → W x) (hE : ¬ E BP) :
    ∀ (sl : List Slice) (t : M) (code : List Ins), putSlices dst sl = some code → dst.Fixed W E t O →
      (∀ e ∈ sl, e.1 < n ∧ e.2.1 ≤ 8 ∧ e.2.2.2 ≠ R11) →
      sl.Pairwise (fun a b => a.1 < b.1 ∧ a.2.2.2 ≠ b.2.2.2) →
      (∀ r, r ≠ R11 → (run t code).reg r = t.reg r) ∧
      (∀ x : Int, (∀ e ∈ sl, x < O + 8 * e.1 ∨ O + 8 * e.1 + e.2.1 ≤ x) → (run t code).mem x = t.mem x) ∧
      ∀ e ∈ sl, ∀ j : Nat, j < e.2.1 → (run t code).mem (O + 8 * e.1 + j) = byteAt (t.reg e.2.2.2) j
  | [], t, code, h, _, _, _ => by
    simp only [putSlices, Option.some.injEq] at h
    subst h; simp
  | (i, w, k, r) :: sl, t, code, h, hf, hb, hpw => by
    simp only [putSlices] at h
    obtain ⟨c1, h1, h⟩ := Option.bind_eq_some_iff.mp h
    obtain ⟨c2, h2, h⟩ := Option.bind_eq_some_iff.mp h
    simp only [Option.some.injEq] at h
    subst h
    obtain ⟨hpw1, hpw2⟩ := List.pairwise_cons.mp hpw
    obtain ⟨b1, b2, b3⟩ := hb _ (List.mem_cons_self ..)
    simp only at b1 b2 b3
    obtain ⟨m1, m2⟩ := store_mem (Fixed.shift (8 * i) hf) b3 h1
    rw [run_append]
    generalize run t c1 = u at *
    have hnear : Near W E t u := by
      refine ⟨fun x hx => ?_, fun x hx _ => m2 x (fun h => hx (h ▸ by decide))⟩
      rw [m1, wr_out]
      by_contra hc
      simp only [le_length] at hc
      refine hx (hW x ?_ ?_) <;> push_cast at hc <;> omega
    obtain ⟨i1, i2, i3⟩ := putSlices_spec hW hE sl u c2 h2 (Fixed.near hnear hE hf)
      (fun e he => hb e (List.mem_cons_of_mem _ he)) hpw2
    refine ⟨fun x hx => by rw [i1 x hx, m2 x hx], fun x hx => ?_, fun e he j hj => ?_⟩
    · rw [i2 x (fun e he => hx e (List.mem_cons_of_mem _ he)), m1, wr_out]
      have := hx _ (List.mem_cons_self ..)
      simp only at this
      simp only [le_length]
      push_cast
      omega
    · rcases List.mem_cons.mp he with rfl | he
      · simp only at hj ⊢
        rw [i2, m1, show O + 8 * (i : Int) + (j : Int) = O + ((8 * i : Nat) : Int) + (j : Int) by push_cast; omega, wr_le hj]
        intro e' he'
        have := (hpw1 e' he').1
        simp only at this
        have hij : (i : Int) < e'.1 := by omega
        omega
      · rw [i3 e he j hj]
        rw [m2 _ (hb e (List.mem_cons_of_mem _ he)).2.2]

/-- The eightbyte a byte is in. -/
theorem need_of {n q : Nat} (h : q < n) : q % 8 < need n (q / 8) ∧ q / 8 < (n + 7) / 8 := by
  unfold need; omega

/-- How wide a slice is. -/
theorem slice_exact {t : Ty} {pc : PC} {i w : Nat} {k : Kind} (h : sliceType t pc i = some (w, k)) (hi : i < eightbytes t)
    (hl : SysV.laidOut t = true)
    (hx : t.size % 8 = 0 ∨ t.size % 8 = 1 ∨ t.size % 8 = 2 ∨ t.size % 8 = 4) : 8 * i + w ≤ t.size := by
  unfold sliceType at h
  by_cases hc : pc[i]? = some .integer ∨ pc[i]? = some .sse
  case neg => rw [if_neg hc] at h; simp at h
  rw [if_pos hc] at h
  simp only [eightbytes] at hi
  cases hs : t.scalar with
  | some x =>
    rw [hs] at h
    simp only [Option.some.injEq] at h
    subst h
    have hz := scalar_size hs
    have hb := scalar_bounds hs hl
    omega
  | none =>
    rw [hs] at h
    simp only at h
    have key : ∀ x, x = (if (i + 1) * 8 < t.size then 8 else
        match t.size % 8 with
        | 1 => 1
        | 2 => 2
        | 3 => 4
        | 4 => 4
        | _ => 8) → 8 * i + x ≤ t.size := by
      rintro x rfl
      split_ifs with h1
      · omega
      · rcases hx with h | h | h | h <;> rw [h] <;> simp only <;> omega
    generalize hx : (if (i + 1) * 8 < t.size then 8 else
        match t.size % 8 with
        | 1 => 1
        | 2 => 2
        | 3 => 4
        | 4 => 4
        | _ => 8) = x at h
    have := key x hx.symm
    split_ifs at h with h1 h2 h3 <;>
      · simp only [Option.some.injEq, Prod.mk.injEq] at h
        omega

end Verif.Abi
