import Verif.Conv.Num
import Verif.Tac

/-!
# Rounding
-/

namespace Verif.Conv

theorem halfEven_int (n : Int) : halfEven (n : ℚ) = n := by
  unfold halfEven
  rw [if_pos (by rw [Int.floor_intCast, sub_self]; norm_num), Int.floor_intCast]

/-- A quotient of integers. -/
theorem halfEven_div (n : Int) {d : Nat} (hd : 0 < d) :
    halfEven ((n : ℚ) / d) = if 2 * (n % d) < d then n / d else if (d : Int) < 2 * (n % d) then n / d + 1
      else if n / d % 2 = 0 then n / d else n / d + 1 := by
  have hd' : (0 : ℚ) < d := by exact_mod_cast hd
  have hfl : ⌊(n : ℚ) / d⌋ = n / d := Rat.floor_intCast_div_natCast n d
  have hfr : (n : ℚ) / d - ((n / d : Int) : ℚ) = ((n % d : Int) : ℚ) / d := by
    have : (n : ℚ) = ((d * (n / d) + n % d : Int) : ℚ) := by rw [Int.mul_ediv_add_emod]
    rw [eq_div_iff hd'.ne', sub_mul, div_mul_cancel₀ _ hd'.ne']
    push_cast at this
    linarith
  unfold halfEven
  rw [hfl, hfr]
  have h1 : ((n % d : Int) : ℚ) / d < 1 / 2 ↔ 2 * (n % d) < d := by
    rw [div_lt_div_iff₀ hd' (by norm_num)]
    constructor
    · intro h
      have : ((2 * (n % d) : Int) : ℚ) < ((d : Int) : ℚ) := by push_cast; linarith
      exact_mod_cast this
    · intro h
      have : ((2 * (n % d) : Int) : ℚ) < ((d : Int) : ℚ) := by exact_mod_cast h
      push_cast at this; linarith
  have h2 : 1 / 2 < ((n % d : Int) : ℚ) / d ↔ (d : Int) < 2 * (n % d) := by
    rw [div_lt_div_iff₀ (by norm_num) hd']
    constructor
    · intro h
      have : ((d : Int) : ℚ) < ((2 * (n % d) : Int) : ℚ) := by push_cast; linarith
      exact_mod_cast this
    · intro h
      have : ((d : Int) : ℚ) < ((2 * (n % d) : Int) : ℚ) := by exact_mod_cast h
      push_cast at this; linarith
  simp only [h1, h2]

theorem log_eq {x : ℚ} {e : Int} (h1 : (2 : ℚ) ^ e ≤ x) (h2 : x < (2 : ℚ) ^ (e + 1)) : Int.log 2 x = e := by
  have hx : 0 < x := lt_of_lt_of_le (by positivity) h1
  apply le_antisymm
  · have := (Int.lt_zpow_iff_log_lt (b := 2) (by omega) hx (x := e + 1)).mp (by exact_mod_cast h2)
    omega
  · exact (Int.zpow_le_iff_le_log (b := 2) (by omega) hx).mp (by exact_mod_cast h1)

theorem zpow_lt_of {a b : Int} (h : (2 : ℚ) ^ a < (2 : ℚ) ^ b) : a < b :=
  (zpow_lt_zpow_iff_right₀ (by norm_num : (1 : ℚ) < 2)).mp h

theorem rnd_zero (p : Nat) : rnd p 0 = 0 := by
  unfold rnd
  rw [zero_div, show halfEven 0 = 0 by exact_mod_cast halfEven_int 0]
  simp

/-- What can be written with `p` bits is not changed. -/
theorem rnd_rep {p : Nat} {x : ℚ} (h : Rep p x) : rnd p x = x := by
  by_cases hx : x = 0
  · rw [hx, rnd_zero]
  obtain ⟨s, e, hs, he⟩ := h
  have hpos : 0 < |x| := abs_pos.mpr hx
  have hlog : (2 : ℚ) ^ (Int.log 2 |x|) ≤ |x| := Int.zpow_log_le_self (b := 2) (by omega) hpos
  have hlt : |x| < (2 : ℚ) ^ ((p : Int) + e) := by
    rw [he, abs_mul, abs_of_pos (show (0 : ℚ) < 2 ^ e by positivity), zpow_add₀ (by norm_num)]
    apply mul_lt_mul_of_pos_right _ (by positivity)
    rw [zpow_natCast]
    have : ((s.natAbs : Nat) : ℚ) < ((2 ^ p : Nat) : ℚ) := by exact_mod_cast hs
    rw [Nat.cast_natAbs] at this
    push_cast at this
    exact this
  have hL := zpow_lt_of (lt_of_le_of_lt hlog hlt)
  obtain ⟨k, hk⟩ : ∃ k : Nat, e = Int.log 2 |x| - ((p : Int) - 1) + k :=
    ⟨(e - (Int.log 2 |x| - ((p : Int) - 1))).toNat, by omega⟩
  have hq : x / ulp p x = ((s * 2 ^ k : Int) : ℚ) := by
    unfold ulp
    rw [div_eq_iff (by positivity)]
    conv_lhs => rw [he, hk, zpow_add₀ (by norm_num), zpow_natCast]
    push_cast
    ring
  unfold rnd
  rw [hq, halfEven_int, ← hq, div_mul_cancel₀]
  unfold ulp
  positivity

theorem Rep.mono {p q : Nat} (h : p ≤ q) {x : ℚ} (hx : Rep p x) : Rep q x := by
  obtain ⟨s, e, hs, he⟩ := hx
  exact ⟨s, e, lt_of_lt_of_le hs (Nat.pow_le_pow_right (by omega) h), he⟩

theorem Rep.ofInt {p : Nat} {i : Int} (h : i.natAbs < 2 ^ p) : Rep p (i : ℚ) := ⟨i, 0, h, by simp⟩

theorem Rep.two_mul {p : Nat} {x : ℚ} (h : Rep p x) : Rep p (x + x) := by
  obtain ⟨s, e, hs, he⟩ := h
  refine ⟨s, e + 1, hs, ?_⟩
  rw [zpow_add₀ (by norm_num), he]
  ring

/-- A rounded number can be written with `p` bits. -/
theorem rep_rnd {p : Nat} (hp : 0 < p) (x : ℚ) : Rep p (rnd p x) := by
  by_cases hx : x = 0
  · rw [hx, rnd_zero]; exact ⟨0, 0, by simp, by simp⟩
  have hpos : 0 < |x| := abs_pos.mpr hx
  have hu : 0 < ulp p x := by unfold ulp; positivity
  -- the quotient is below 2 ^ p
  have hq : |x / ulp p x| < 2 ^ p := by
    rw [abs_div, abs_of_pos hu, div_lt_iff₀ hu]
    have h := Int.lt_zpow_succ_log_self (b := 2) (by omega) |x|
    unfold ulp
    rw [← zpow_natCast, ← zpow_add₀ (by norm_num)]
    rw [show (p : Int) + (Int.log 2 |x| - ((p : Int) - 1)) = Int.log 2 |x| + 1 by omega]
    exact_mod_cast h
  -- so the rounded quotient is at most 2 ^ p
  have hh : |halfEven (x / ulp p x)| ≤ 2 ^ p := by
    generalize x / ulp p x = q at hq
    rw [abs_lt] at hq
    have e1 : -(2 : Int) ^ p ≤ ⌊q⌋ := by rw [Int.le_floor]; push_cast; linarith
    have e2 : ⌊q⌋ < (2 : Int) ^ p := by rw [Int.floor_lt]; push_cast; linarith
    rw [abs_le]
    unfold halfEven
    split_ifs <;> omega
  rcases lt_or_eq_of_le hh with h | h
  · refine ⟨halfEven (x / ulp p x), _, ?_, rfl⟩
    rw [Int.abs_eq_natAbs] at h
    exact_mod_cast h
  · have h2 : 1 < 2 ^ p := Nat.one_lt_two_pow (by omega)
    have hpow : ((2 : Int) ^ p : Int) = ((2 ^ p : Nat) : Int) := by push_cast; rfl
    rcases abs_eq (by positivity) |>.mp h with h | h
    · refine ⟨1, (p : Int) + (Int.log 2 |x| - ((p : Int) - 1)), by simpa using h2, ?_⟩
      unfold rnd
      rw [h, zpow_add₀ (by norm_num), zpow_natCast]
      unfold ulp
      push_cast; ring
    · refine ⟨-1, (p : Int) + (Int.log 2 |x| - ((p : Int) - 1)), by simpa using h2, ?_⟩
      unfold rnd
      rw [h, zpow_add₀ (by norm_num), zpow_natCast]
      unfold ulp
      push_cast; ring

/-- Rounding an integer between `2 ^ e` and `2 ^ (e + 1)`. -/
theorem rnd_nat {p e : Nat} {n : Int} (hp : p ≤ e + 1) (h1 : 2 ^ e ≤ n) (h2 : n < 2 ^ (e + 1)) :
    rnd p (n : ℚ) = halfEven ((n : ℚ) / ((2 ^ (e + 1 - p) : Nat) : ℚ)) * ((2 ^ (e + 1 - p) : Nat) : ℚ) := by
  have hu : ulp p (n : ℚ) = ((2 ^ (e + 1 - p) : Nat) : ℚ) := by
    have hn : (0 : Int) ≤ n := le_trans (by positivity) h1
    have hl : Int.log 2 |(n : ℚ)| = (e : Int) := by
      rw [abs_of_nonneg (by exact_mod_cast hn)]
      apply log_eq
      · rw [zpow_natCast]; exact_mod_cast h1
      · rw [show (e : Int) + 1 = ((e + 1 : Nat) : Int) by push_cast; rfl, zpow_natCast]; exact_mod_cast h2
    unfold ulp
    rw [hl, show (e : Int) - ((p : Int) - 1) = ((e + 1 - p : Nat) : Int) by omega, zpow_natCast]
    push_cast; rfl
  unfold rnd
  rw [hu]

/-- Half of a number with its last bit kept, rounded and doubled, is the number rounded. -/
theorem sticky {p : Nat} (hp : p ≤ 61) {x y : Int} (h1 : 2 ^ 63 ≤ x) (h2 : x < 2 ^ 64)
    (hy : ∃ a b : Int, x = 4 * a + b ∧ 0 ≤ b ∧ b < 4 ∧ y = 2 * a + (if b = 0 then 0 else 1)) :
    rnd p (y : ℚ) + rnd p (y : ℚ) = rnd p (x : ℚ) := by
  obtain ⟨a, b, e1, b0, b4, e2⟩ := hy
  have c0 : (0 : Int) ≤ (if b = 0 then 0 else 1) ∧ (if b = 0 then (0 : Int) else 1) ≤ 1 := by split_ifs <;> omega
  rw [rnd_nat (e := 63) (by omega) h1 h2, rnd_nat (e := 62) (n := y) (by omega) (by omega) (by omega)]
  obtain ⟨g, hg0, hg⟩ : ∃ g : Nat, 0 < g ∧ 2 ^ (62 + 1 - p) = 4 * g := by
    refine ⟨2 ^ (61 - p), by positivity, ?_⟩
    rw [show 62 + 1 - p = (61 - p) + 2 by omega, Nat.pow_add]; omega
  have hg' : 2 ^ (63 + 1 - p) = 8 * g := by
    rw [show 63 + 1 - p = (62 + 1 - p) + 1 by omega, Nat.pow_succ, hg]; omega
  rw [hg, hg']
  have key : halfEven ((y : ℚ) / ((4 * g : Nat) : ℚ)) = halfEven ((x : ℚ) / ((8 * g : Nat) : ℚ)) := by
    rw [halfEven_div _ (by omega), halfEven_div _ (by omega)]
    have hgz : (0 : Int) < 2 * g := by omega
    obtain ⟨q, r, ha, hr0, hr1⟩ : ∃ q r : Int, a = 2 * g * q + r ∧ 0 ≤ r ∧ r < 2 * g :=
      ⟨a / (2 * g), a % (2 * g), (Int.mul_ediv_add_emod a (2 * g)).symm, Int.emod_nonneg _ (by omega),
        Int.emod_lt_of_pos _ hgz⟩
    generalize hc : (if b = 0 then (0 : Int) else 1) = c at *
    have ey : y = (4 * g : Nat) * q + (2 * r + c) := by
      rw [e2, ha]; push_cast; ring
    have ex : x = (8 * g : Nat) * q + (4 * r + b) := by
      rw [e1, ha]; push_cast; ring
    have m1 : y % ((4 * g : Nat) : Int) = 2 * r + c := by
      rw [ey, Int.mul_add_emod_self_left]; exact Int.emod_eq_of_lt (by omega) (by omega)
    have m2 : x % ((8 * g : Nat) : Int) = 4 * r + b := by
      rw [ex, Int.mul_add_emod_self_left]; exact Int.emod_eq_of_lt (by omega) (by omega)
    have d1 : y / ((4 * g : Nat) : Int) = q := by
      rw [ey, Int.mul_add_ediv_left _ _ (by omega), Int.ediv_eq_zero_of_lt (by omega) (by omega)]; omega
    have d2 : x / ((8 * g : Nat) : Int) = q := by
      rw [ex, Int.mul_add_ediv_left _ _ (by omega), Int.ediv_eq_zero_of_lt (by omega) (by omega)]; omega
    rw [m1, m2, d1, d2]
    push_cast
    have : b = 0 ∧ c = 0 ∨ b ≠ 0 ∧ c = 1 := by
      by_cases hb : b = 0
      · left; rw [if_pos hb] at hc; exact ⟨hb, hc.symm⟩
      · right; rw [if_neg hb] at hc; exact ⟨hb, hc.symm⟩
    clear ey ex m1 m2 d1 d2 ha
    split_ifs <;> omega
  rw [key]
  push_cast
  ring

theorem rep_neg {p : Nat} (k : Nat) (e : Int) (hk : k < 2 ^ p) : Rep p (-1 * (k : ℚ) * 2 ^ e) :=
  ⟨-k, e, by simpa using hk, by push_cast; ring⟩

theorem rep_pos {p : Nat} (k : Nat) (e : Int) (hk : k < 2 ^ p) : Rep p (1 * (k : ℚ) * 2 ^ e) :=
  ⟨k, e, by simpa using hk, by push_cast; ring⟩

theorem rep_ieee {eb fb n : Nat} {x : ℚ} (h : ieee eb fb n = some x) : Rep (fb + 1) x := by
  unfold ieee at h
  dsimp only at h
  have hf : n % 2 ^ fb < 2 ^ fb := Nat.mod_lt _ (by positivity)
  generalize n % 2 ^ fb = f at *
  have hpow : 2 ^ (fb + 1) = 2 * 2 ^ fb := by rw [Nat.pow_succ]; omega
  split_ifs at h
  all_goals
    simp only [Option.some.injEq] at h
    rw [← h]
    first
      | exact rep_neg _ _ (by omega)
      | exact rep_pos _ _ (by omega)

theorem rep_x87 {n : Nat} {x : ℚ} (h : x87 n = some x) : Rep 64 x := by
  unfold x87 at h
  dsimp only at h
  have hf : n % 2 ^ 64 < 2 ^ 64 := Nat.mod_lt _ (by positivity)
  generalize n % 2 ^ 64 = f at *
  split_ifs at h with h0
  all_goals
    simp only [Option.some.injEq] at h
    rw [← h]
    first
      | exact rep_neg _ _ hf
      | exact rep_pos _ _ hf

/-- What bytes represent has as many bits as the type has. -/
theorem rep_num {bs : List UInt8} {x : ℚ} (h : num bs = some x) : Rep (prec bs.length) x := by
  unfold num at h
  dsimp only at h
  unfold prec
  split_ifs at h with h1 h2 h3
  · rw [if_pos h1]; exact rep_ieee h
  · rw [if_neg h1, if_pos h2]; exact rep_ieee h
  · rw [if_neg h1, if_neg h2]; exact rep_x87 h

/-- Numbers from `2 ^ 63` below `2 ^ 64`: taking `2 ^ 63` away is exact. -/
theorem rep_sub {p : Nat} (hp : 0 < p) (hp' : p ≤ 64) {x : ℚ} (hx : Rep p x) (h1 : 2 ^ 63 ≤ x) (h2 : x < 2 ^ 64) : Rep p (x - 2 ^ 63) := by
  obtain ⟨s, e, hs, he⟩ := hx
  have hlt : x < (2 : ℚ) ^ ((p : Int) + e) := by
    rw [he, zpow_add₀ (by norm_num)]
    apply mul_lt_mul_of_pos_right _ (by positivity)
    rw [zpow_natCast]
    have : s < ((2 ^ p : Nat) : Int) := by omega
    exact_mod_cast this
  have hL : (63 : Int) < p + e := by
    apply zpow_lt_of
    refine lt_of_le_of_lt ?_ hlt
    exact_mod_cast h1
  obtain ⟨k, hk⟩ : ∃ k : Nat, e = (64 - p : Int) + k := ⟨(e - (64 - p)).toNat, by omega⟩
  have hpow : (2 : ℚ) ^ 63 = ((2 ^ (p - 1) : Int) : ℚ) * 2 ^ (64 - p : Int) := by
    push_cast
    rw [← zpow_natCast, ← zpow_natCast, ← zpow_add₀ (by norm_num)]
    congr 1; omega
  have hxe : x - 2 ^ 63 = ((s * 2 ^ k - 2 ^ (p - 1) : Int) : ℚ) * 2 ^ (64 - p : Int) := by
    conv_lhs => rw [hpow, he, hk, zpow_add₀ (by norm_num), zpow_natCast]
    push_cast; ring
  refine ⟨_, _, ?_, hxe⟩
  have hu : (0 : ℚ) < 2 ^ (64 - p : Int) := by positivity
  have hpos : (0 : ℚ) ≤ ((s * 2 ^ k - 2 ^ (p - 1) : Int) : ℚ) := by
    have : (0 : ℚ) ≤ x - 2 ^ 63 := by linarith
    rw [hxe] at this
    exact nonneg_of_mul_nonneg_left this hu
  have hup : ((s * 2 ^ k - 2 ^ (p - 1) : Int) : ℚ) < ((2 ^ p : Nat) : ℚ) := by
    have h : x - 2 ^ 63 < 2 ^ 64 := by linarith [show (0 : ℚ) ≤ 2 ^ 63 by positivity]
    rw [hxe, show (2 : ℚ) ^ 64 = ((2 ^ p : Nat) : ℚ) * 2 ^ (64 - p : Int) by
      push_cast
      rw [← zpow_natCast, ← zpow_natCast, ← zpow_add₀ (by norm_num)]
      congr 1; omega] at h
    exact lt_of_mul_lt_mul_right h hu.le
  have a1 : (0 : Int) ≤ s * 2 ^ k - 2 ^ (p - 1) := by exact_mod_cast hpos
  have a2 : s * 2 ^ k - 2 ^ (p - 1) < ((2 ^ p : Nat) : Int) := by exact_mod_cast hup
  omega

/-! ### Rounding is to the nearest number -/

theorem halfEven_near (q : ℚ) (k : Int) : |(halfEven q : ℚ) - q| ≤ |(k : ℚ) - q| := by
  have h1 := Int.floor_le q
  have h2 := Int.lt_floor_add_one q
  -- any integer is at or below the floor, or above it
  have hk : (k : ℚ) ≤ ⌊q⌋ ∨ (⌊q⌋ : ℚ) + 1 ≤ k := by
    rcases le_or_gt k ⌊q⌋ with h | h
    · left; exact_mod_cast h
    · right; exact_mod_cast h
  have hd : |(k : ℚ) - q| ≥ min (q - ⌊q⌋) (⌊q⌋ + 1 - q) := by
    rcases hk with h | h
    · rw [abs_of_nonpos (by linarith)]
      exact le_trans (min_le_left _ _) (by linarith)
    · rw [abs_of_nonneg (by linarith)]
      exact le_trans (min_le_right _ _) (by linarith)
  refine le_trans ?_ hd
  unfold halfEven
  split_ifs with c1 c2 c3
  · rw [abs_of_nonpos (by linarith), le_min_iff]; constructor <;> linarith
  · push_cast; rw [abs_of_nonneg (by linarith), le_min_iff]; constructor <;> linarith
  · rw [abs_of_nonpos (by linarith), le_min_iff]; constructor <;> linarith
  · push_cast; rw [abs_of_nonneg (by linarith), le_min_iff]; constructor <;> linarith

theorem rnd_near {p : Nat} (hp : 0 < p) (x : ℚ) {y : ℚ} (hy : Rep p y) : |rnd p x - x| ≤ |y - x| := by
  by_cases hx : x = 0
  · rw [hx, rnd_zero]; simp
  have hpos : 0 < |x| := abs_pos.mpr hx
  have hu : 0 < ulp p x := by unfold ulp; positivity
  -- nearest among the multiples of the unit
  have key : ∀ k : Int, |rnd p x - x| ≤ |k * ulp p x - x| := by
    intro k
    have h := mul_le_mul_of_nonneg_right (halfEven_near (x / ulp p x) k) hu.le
    have e : ∀ a : ℚ, |a - x / ulp p x| * ulp p x = |a * ulp p x - x| := by
      intro a
      rw [← abs_of_pos hu, ← abs_mul, abs_of_pos hu, sub_mul, div_mul_cancel₀ _ hu.ne']
    rw [e, e] at h
    exact h
  obtain ⟨s, e, hs, he⟩ := hy
  rcases le_or_gt (Int.log 2 |x| - ((p : Int) - 1)) e with hle | hlt
  · -- a multiple of the unit
    obtain ⟨k, hk⟩ : ∃ k : Nat, e = Int.log 2 |x| - ((p : Int) - 1) + k := ⟨(e - (Int.log 2 |x| - ((p : Int) - 1))).toNat, by omega⟩
    have : y = ((s * 2 ^ k : Int) : ℚ) * ulp p x := by
      rw [he, hk, zpow_add₀ (by norm_num), zpow_natCast]
      unfold ulp
      push_cast; ring
    rw [this]
    exact key _
  · -- below the power of two which is not above |x|
    have hlog : (2 : ℚ) ^ (Int.log 2 |x|) ≤ |x| := Int.zpow_log_le_self (b := 2) (by omega) hpos
    have hy' : |y| < (2 : ℚ) ^ (Int.log 2 |x|) := by
      have h1 : |y| < (2 : ℚ) ^ ((p : Int) + e) := by
        rw [he, abs_mul, abs_of_pos (show (0 : ℚ) < 2 ^ e by positivity), zpow_add₀ (by norm_num)]
        apply mul_lt_mul_of_pos_right _ (by positivity)
        rw [zpow_natCast]
        have : ((s.natAbs : Nat) : ℚ) < ((2 ^ p : Nat) : ℚ) := by exact_mod_cast hs
        rw [Nat.cast_natAbs] at this
        push_cast at this
        exact this
      refine lt_of_lt_of_le h1 ?_
      exact zpow_le_zpow_right₀ (by norm_num) (by omega)
    have hm : (2 : ℚ) ^ (Int.log 2 |x|) = ((2 ^ (p - 1) : Int) : ℚ) * ulp p x := by
      unfold ulp
      push_cast
      rw [← zpow_natCast, ← zpow_add₀ (by norm_num)]
      congr 1; omega
    have hyx : |x| - |y| ≤ |y - x| := by
      rw [abs_sub_comm]; exact abs_sub_abs_le_abs_sub x y
    rcases le_or_gt 0 x with h0 | h0
    · have := key (2 ^ (p - 1))
      rw [← hm] at this
      rw [abs_of_nonneg h0] at hlog hy' hyx hm this
      rw [abs_of_nonpos (show (2 : ℚ) ^ (Int.log 2 x) - x ≤ 0 by linarith)] at this
      linarith
    · have := key (-2 ^ (p - 1))
      have e2 : (((-2 ^ (p - 1) : Int)) : ℚ) * ulp p x = -(2 : ℚ) ^ (Int.log 2 |x|) := by
        rw [hm]; push_cast; ring
      rw [e2] at this
      rw [abs_of_neg h0] at hlog hy' hyx this
      rw [abs_of_nonneg (show 0 ≤ -(2 : ℚ) ^ (Int.log 2 (-x)) - x by linarith)] at this
      linarith

end Verif.Conv
