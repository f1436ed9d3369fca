import Verif.LongDouble.Model
import Mathlib.Algebra.Order.Field.Power
import Mathlib.Algebra.Order.Field.Rat
import Mathlib.Data.Rat.Cast.Defs
import Mathlib.Tactic.FieldSimp
import Mathlib.Tactic.Positivity
import Mathlib.Tactic.Linarith

/-! Lemmas for C57. -/

namespace Verif.LongDouble

theorem number_natAbs (x : LD) : x.number.natAbs = x.sig.toNat * 2 ^ (max x.exp.toNat 1) := by
  unfold LD.number
  split <;> simp [Int.natAbs_mul]

theorem sig_lt (x : LD) : x.sig.toNat < 2 ^ 64 := x.sig.isLt

/-- The magnitude of a proper value determines exponent and significand. -/
theorem magnitude_unique {a b : LD} (ha : a.Proper) (hb : b.Proper)
    (h : a.sig.toNat * 2 ^ (max a.exp.toNat 1) = b.sig.toNat * 2 ^ (max b.exp.toNat 1)) :
    a.exp = b.exp ∧ a.sig = b.sig := by
  have key : ∀ (s t m n : Nat), s < 2 ^ 64 → 2 ^ 63 ≤ t → m < n → s * 2 ^ m = t * 2 ^ n → False := by
    intro s t m n hs ht hmn he
    obtain ⟨d, rfl⟩ : ∃ d, n = m + 1 + d := ⟨n - m - 1, by omega⟩
    have h1 : t * 2 ^ (m + 1 + d) = (t * 2 * 2 ^ d) * 2 ^ m := by
      rw [pow_add, pow_add]; simp only [pow_one, mul_assoc, mul_left_comm, mul_comm]
    rw [h1] at he
    have h2 : s = t * 2 * 2 ^ d := Nat.eq_of_mul_eq_mul_right (by positivity) he
    have h3 : 1 ≤ 2 ^ d := Nat.one_le_two_pow
    have h4 : t * 2 * 1 ≤ t * 2 * 2 ^ d := Nat.mul_le_mul_left _ h3
    omega
  have la := sig_lt a
  have lb := sig_lt b
  unfold LD.Proper at ha hb
  have hexp : max a.exp.toNat 1 = max b.exp.toNat 1 := by
    rcases Nat.lt_trichotomy (max a.exp.toNat 1) (max b.exp.toNat 1) with hlt | heq | hgt
    · exact (key _ _ _ _ la (hb.mpr (by omega)) hlt h).elim
    · exact heq
    · exact (key _ _ _ _ lb (ha.mpr (by omega)) hgt h.symm).elim
  rw [hexp] at h
  have hsig : a.sig.toNat = b.sig.toNat := Nat.eq_of_mul_eq_mul_right (by positivity) h
  refine ⟨BitVec.eq_of_toNat_eq ?_, BitVec.eq_of_toNat_eq hsig⟩
  rw [hsig] at ha
  have : a.exp.toNat ≠ 0 ↔ b.exp.toNat ≠ 0 := ha.symm.trans hb
  omega

theorem number_zero {a : LD} (ha : a.Proper) : a.number = 0 ↔ a.isZero := by
  unfold LD.Proper at ha
  have h := number_natAbs a
  simp only [LD.isZero, decide_eq_true_eq]
  have hp : 0 < 2 ^ (max a.exp.toNat 1) := by positivity
  constructor
  · intro h0
    rw [h0] at h
    have : a.sig.toNat = 0 := by
      rcases Nat.mul_eq_zero.mp h.symm with h | h
      · exact h
      · omega
    omega
  · rintro ⟨_, hs⟩
    rw [hs] at h
    simpa using h

/-- The comparison says equal for identical values and for zeros, and for nothing else. -/
theorem ceq_iff {a b : LD} (ha : a.Proper) (hb : b.Proper) (na : a.isNaN = false) (nb : b.isNaN = false) :
    ceq a b = true ↔ a = b ∨ (a.isZero ∧ b.isZero) := by
  simp only [ceq, na, nb, Bool.not_false, Bool.true_and, decide_eq_true_eq]
  constructor
  · intro h
    by_cases hz : a.number = 0
    · exact Or.inr ⟨(number_zero ha).mp hz, (number_zero hb).mp (h ▸ hz)⟩
    · left
      have hm := magnitude_unique ha hb (by rw [← number_natAbs, ← number_natAbs, h])
      obtain ⟨as, ae, ag⟩ := a
      obtain ⟨bs, be, bg⟩ := b
      obtain ⟨rfl, rfl⟩ := hm
      congr 1
      unfold LD.number at h hz
      simp only at h hz
      cases as <;> cases bs <;> simp only [if_true, if_false, Bool.false_eq_true, reduceCtorEq] at h hz ⊢ <;>
        omega
  · rintro (rfl | ⟨h1, h2⟩)
    · rfl
    · rw [(number_zero ha).mpr h1, (number_zero hb).mpr h2]

theorem find_some {ld : LD} : ∀ {p : Pool} {n i : Nat}, find ld p n = some i →
    ∃ j x, i = n + j ∧ p[j]? = some x ∧ ceq x ld = true
  | [], _, _, h => by simp [find] at h
  | x :: rest, n, i, h => by
    unfold find at h
    split at h
    · rename_i hc
      exact ⟨0, x, by simpa using h.symm, rfl, hc⟩
    · obtain ⟨j, y, h1, h2, h3⟩ := find_some h
      exact ⟨j + 1, y, by omega, by simpa using h2, h3⟩

theorem find_none {ld : LD} : ∀ {p : Pool} {n : Nat}, find ld p n = none → ∀ x ∈ p, ceq x ld = false
  | [], _, _ => by simp
  | x :: rest, n, h => by
    unfold find at h
    split at h
    · cases h
    · rename_i hc
      intro y hy
      rcases List.mem_cons.mp hy with rfl | hy
      · simpa using hc
      · exact find_none h y hy

theorem ceq_self {a : LD} (na : a.isNaN = false) : ceq a a = true := by simp [ceq, na]

/-- One constant: the pool grows at its end, and the index leads to an equal value. -/
theorem put_spec (p : Pool) {ld : LD} (h : ld.isNaN = false) :
    ∃ i q x, put p ld = some (i, p ++ q) ∧ (p ++ q)[i]? = some x ∧ ceq x ld = true ∧ (x ∈ p ∨ x = ld)
      ∧ ∀ y ∈ q, y = ld := by
  unfold put
  cases hf : find ld p 0 with
  | some i =>
    obtain ⟨j, x, rfl, hj, hc⟩ := find_some hf
    exact ⟨j, [], x, by simp, by simpa using hj, hc, Or.inl (List.mem_of_getElem? hj), by simp⟩
  | none =>
    refine ⟨p.length, [ld], ld, ?_, by simp, ceq_self h, Or.inr rfl, by simp⟩
    simp [get, ceq_self h]

theorem puts_spec : ∀ (xs : List LD) (p : Pool), (∀ x ∈ xs, x.isNaN = false) →
    ∃ is q, puts p xs = some (is, p ++ q) ∧ is.length = xs.length ∧ (∀ y ∈ q, y ∈ xs)
      ∧ ∀ (k : Nat) (x : LD), xs[k]? = some x → ∃ (i : Nat) (y : LD), is[k]? = some i ∧ (p ++ q)[i]? = some y ∧ ceq y x = true
        ∧ (y ∈ p ∨ y ∈ xs)
  | [], p, _ => ⟨[], [], by simp [puts], rfl, by simp, by simp⟩
  | x :: xs, p, h => by
    obtain ⟨i, q, y, h1, h2, h3, h4, h5⟩ := put_spec p (h x (by simp))
    obtain ⟨is, r, g1, g2, g4, g3⟩ := puts_spec xs (p ++ q) fun z hz => h z (by simp [hz])
    refine ⟨i :: is, q ++ r, ?_, by simp [g2], ?_, ?_⟩
    · simp [puts, h1, g1]
    · intro y hy
      rcases List.mem_append.mp hy with hy | hy
      · simp [h5 y hy]
      · simp [g4 y hy]
    · intro k z hk
      cases k with
      | zero =>
        obtain rfl : x = z := by simpa using hk
        refine ⟨i, y, by simp, ?_, h3, ?_⟩
        · rw [← List.append_assoc, List.getElem?_append_left (List.getElem?_eq_some_iff.mp h2).1]
          exact h2
        · rcases h4 with h4 | rfl
          · exact Or.inl h4
          · exact Or.inr (by simp)
      | succ k =>
        obtain ⟨i', y', f1, f2, f3, f4⟩ := g3 k z (by simpa using hk)
        refine ⟨i', y', by simpa using f1, by simpa using f2, f3, ?_⟩
        rcases f4 with f4 | f4
        · rcases List.mem_append.mp f4 with f4 | f4
          · exact Or.inl f4
          · exact Or.inr (by simp [h5 _ f4])
        · exact Or.inr (by simp [f4])

/-! ### Literals -/

/-- The rational number `n / d`. -/
abbrev frac (n d : Nat) : ℚ := (n : ℚ) / d

theorem frac_bounds {n d : Nat} (hn : 0 < n) (hd : 0 < d) :
    (2 : ℚ) ^ ((Nat.log2 n : Int) - Nat.log2 d - 1) < frac n d
      ∧ frac n d < (2 : ℚ) ^ ((Nat.log2 n : Int) - Nat.log2 d + 1) := by
  have n1 : ((2 : ℚ) ^ Nat.log2 n) ≤ n := by exact_mod_cast Nat.log2_self_le (by omega)
  have n2 : (n : ℚ) < 2 ^ (Nat.log2 n + 1) := by exact_mod_cast Nat.lt_log2_self
  have d1 : ((2 : ℚ) ^ Nat.log2 d) ≤ d := by exact_mod_cast Nat.log2_self_le (by omega)
  have d2 : (d : ℚ) < 2 ^ (Nat.log2 d + 1) := by exact_mod_cast Nat.lt_log2_self
  have hd' : (0 : ℚ) < d := by exact_mod_cast hd
  generalize Nat.log2 n = a at *
  generalize Nat.log2 d = b at *
  constructor
  · rw [frac, lt_div_iff₀ hd']
    have e : (2 : ℚ) ^ ((a : Int) - b - 1) * 2 ^ (b + 1) = 2 ^ a := by
      rw [← zpow_natCast (2 : ℚ) (b + 1), ← zpow_natCast (2 : ℚ) a, ← zpow_add₀ (by norm_num)]
      congr 1; push_cast; omega
    have : (2 : ℚ) ^ ((a : Int) - b - 1) * d < (2 : ℚ) ^ ((a : Int) - b - 1) * 2 ^ (b + 1) :=
      mul_lt_mul_of_pos_left d2 (by positivity)
    linarith
  · rw [frac, div_lt_iff₀ hd']
    have e : (2 : ℚ) ^ ((a : Int) - b + 1) * 2 ^ b = 2 ^ (a + 1) := by
      rw [← zpow_natCast (2 : ℚ) b, ← zpow_natCast (2 : ℚ) (a + 1), ← zpow_add₀ (by norm_num)]
      congr 1; push_cast; omega
    have : (2 : ℚ) ^ ((a : Int) - b + 1) * 2 ^ b ≤ (2 : ℚ) ^ ((a : Int) - b + 1) * d :=
      mul_le_mul_of_nonneg_left d1 (by positivity)
    linarith

/-- `n / d < 2 ^ k`, in integers. -/
theorem below_iff {n d : Nat} (hd : 0 < d) (k : Int) :
    (if 0 ≤ k then decide (n < d * 2 ^ k.toNat) else decide (n * 2 ^ (-k).toNat < d)) = true
      ↔ frac n d < (2 : ℚ) ^ k := by
  have hd' : (0 : ℚ) < d := by exact_mod_cast hd
  rw [frac, div_lt_iff₀ hd']
  split
  · rename_i h
    obtain ⟨m, rfl⟩ := Int.eq_ofNat_of_zero_le h
    rw [decide_eq_true_eq]
    simp only [Int.toNat_natCast, zpow_natCast]
    rw [← Nat.cast_lt (α := ℚ)]
    push_cast
    rw [mul_comm]
  · rename_i h
    obtain ⟨m, rfl⟩ : ∃ m : Nat, k = -(m : Int) := ⟨(-k).toNat, by omega⟩
    rw [decide_eq_true_eq]
    simp only [neg_neg, Int.toNat_natCast, zpow_neg, zpow_natCast]
    rw [← Nat.cast_lt (α := ℚ)]
    push_cast
    have hp : (0 : ℚ) < 2 ^ m := by positivity
    rw [inv_mul_eq_div, lt_div_iff₀ hp]

theorem scaled_frac (s : Nat) (e : Int) : frac (scaled s e).1 (scaled s e).2 = s * (2 : ℚ) ^ e := by
  unfold scaled frac
  split
  · rename_i h
    obtain ⟨m, rfl⟩ := Int.eq_ofNat_of_zero_le h
    simp
  · rename_i h
    obtain ⟨m, rfl⟩ : ∃ m : Nat, e = -(m : Int) := ⟨(-e).toNat, by omega⟩
    simp [div_eq_mul_inv]

theorem scaled_pos (s : Nat) (e : Int) : 0 < (scaled s e).2 := by
  unfold scaled; split <;> simp

/-- A value with at most `p` significant bits is not changed by rounding. -/
theorem round_exact {p n d s : Nat} {e : Int} (hp : 0 < p) (hd : 0 < d) (h1 : 2 ^ (p - 1) ≤ s) (h2 : s < 2 ^ p)
    (hv : n * (scaled s e).2 = (scaled s e).1 * d) : round p n d = (s, e) := by
  have hd' : (0 : ℚ) < d := by exact_mod_cast hd
  have hs' := scaled_pos s e
  have hs'' : (0 : ℚ) < (scaled s e).2 := by exact_mod_cast hs'
  have hq : frac n d = s * (2 : ℚ) ^ e := by
    rw [← scaled_frac, frac, frac, div_eq_div_iff hd'.ne' hs''.ne']
    exact_mod_cast hv
  have hpos : 0 < s := lt_of_lt_of_le (by positivity) h1
  have hn : 0 < n := by
    have : 0 < frac n d := by rw [hq]; positivity
    rcases Nat.eq_zero_or_pos n with h | h
    · simp [frac, h] at this
    · exact h
  obtain ⟨b1, b2⟩ := frac_bounds hn hd
  have hb := below_iff (n := n) hd ((Nat.log2 n : Int) - Nat.log2 d)
  unfold round
  simp only
  generalize (Nat.log2 n : Int) - Nat.log2 d = k at *
  generalize (if 0 ≤ k then decide (n < d * 2 ^ k.toNat) else decide (n * 2 ^ (-k).toNat < d)) = below at *
  have lower : (2 : ℚ) ^ (e + ((p : Int) - 1)) ≤ frac n d := by
    rw [hq, zpow_add₀ (by norm_num), mul_comm]
    refine mul_le_mul_of_nonneg_right ?_ (by positivity)
    have : (2 : ℚ) ^ ((p : Int) - 1) = ((2 ^ (p - 1) : Nat) : ℚ) := by
      push_cast
      rw [← zpow_natCast]; congr 1; omega
    rw [this]; exact_mod_cast h1
  have upper : frac n d < (2 : ℚ) ^ (e + (p : Int)) := by
    rw [hq, zpow_add₀ (by norm_num), mul_comm]
    refine mul_lt_mul_of_pos_left ?_ (by positivity)
    rw [zpow_natCast]; exact_mod_cast h2
  have two : (1 : ℚ) < 2 := by norm_num
  have he : (if below = true then k - 1 else k) - ((p : Int) - 1) = e := by
    cases below with
    | true =>
      have h3 : frac n d < 2 ^ k := hb.mp rfl
      have := (zpow_lt_zpow_iff_right₀ two).mp (lt_of_le_of_lt lower h3)
      have := (zpow_lt_zpow_iff_right₀ two).mp (lt_trans b1 upper)
      simp only [if_true]; omega
    | false =>
      have h3 : (2 : ℚ) ^ k ≤ frac n d := by
        rw [← not_lt]; intro h; exact absurd (hb.mpr h) (by simp)
      have := (zpow_lt_zpow_iff_right₀ two).mp (lt_of_le_of_lt lower b2)
      have := (zpow_lt_zpow_iff_right₀ two).mp (lt_of_le_of_lt h3 upper)
      simp only [Bool.false_eq_true, if_false]; omega
  rw [he]
  have hab : ∀ a b : Nat, 0 < b → a = s * b →
      (((if 2 * (a % b) < b then a / b
          else if b < 2 * (a % b) then a / b + 1 else if a / b % 2 = 0 then a / b else a / b + 1), e) : Nat × Int)
        = (s, e) := by
    rintro a b hb rfl
    rw [Nat.mul_mod_left, Nat.mul_div_cancel _ hb]
    simp [hb]
  have hscaled : n * (scaled s e).2 = (scaled s e).1 * d := hv
  by_cases h0 : 0 ≤ e
  · rw [if_pos h0]
    simp only [scaled, if_pos h0] at hscaled
    exact hab _ _ (by positivity) (by rw [← Nat.mul_one n, hscaled]; simp only [mul_assoc, mul_left_comm, mul_comm])
  · rw [if_neg h0]
    simp only [scaled, if_neg h0] at hscaled
    exact hab _ _ hd hscaled

end Verif.LongDouble
