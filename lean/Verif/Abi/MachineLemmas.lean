import Verif.Abi.Machine

namespace Verif.Abi

@[simp] theorem le_length (n v) : (le n v).length = n := by simp [le]
@[simp] theorem rd_length (m a n) : (rd m a n).length = n := by simp [rd]

theorem le_get {n v j} (h : j < n) : (le n v)[j]? = some (byteAt v j) := by
  simp [le, h]

theorem rd_get {m a n} {j : Nat} (h : j < n) : (rd m a n)[j]? = some (m (a + j)) := by
  simp [rd, h]

theorem rd_ext {m m' : Mem} {a a' : Int} {n : Nat} (h : ∀ j : Nat, j < n → m (a + j) = m' (a' + j)) :
    rd m a n = rd m' a' n := by
  apply List.map_congr_left
  intro j hj
  exact h j (List.mem_range.mp hj)

theorem wr_out {m : Mem} {a x : Int} {bs : List UInt8} (h : x < a ∨ a + bs.length ≤ x) : wr m a bs x = m x := by
  unfold wr
  split_ifs with h1
  · rw [List.getElem?_eq_none (by omega)]; rfl
  · rfl

theorem wr_in {m : Mem} {a : Int} {bs : List UInt8} {j : Nat} {b : UInt8} (h : bs[j]? = some b) :
    wr m a bs (a + j) = b := by
  unfold wr
  rw [if_pos (by omega), show (a + j - a).toNat = j by omega, h]; rfl

theorem wr_le {m : Mem} {a v : Int} {n j : Nat} (h : j < n) : wr m a (le n v) (a + j) = byteAt v j :=
  wr_in (le_get h)

theorem wr_rd {m m' : Mem} {a b : Int} {n j : Nat} (h : j < n) : wr m a (rd m' b n) (a + j) = m' (b + j) :=
  wr_in (rd_get h)

theorem byteAt_succ (v : Int) (j : Nat) : byteAt v (j + 1) = byteAt (v / 256) j := by
  unfold byteAt
  rw [Int.pow_succ, Int.mul_comm, Int.ediv_ediv_of_nonneg (by omega)]

theorem val_nonneg : ∀ bs, 0 ≤ val bs
  | [] => by simp [val]
  | b :: bs => by have := val_nonneg bs; simp only [val]; omega

theorem val_lt : ∀ bs, val bs < 256 ^ bs.length
  | [] => by simp [val]
  | b :: bs => by
    have := val_lt bs
    have hb : b.toNat < 256 := b.toNat_lt
    simp only [val, List.length_cons, Int.pow_succ]; omega

theorem byteAt_val : ∀ (bs : List UInt8) (j : Nat) (b : UInt8), bs[j]? = some b → byteAt (val bs) j = b
  | b :: bs, 0, c, h => by
    simp only [List.getElem?_cons_zero, Option.some.injEq] at h
    subst h
    have hb : b.toNat < 256 := b.toNat_lt
    simp only [byteAt, val, Int.pow_zero, Int.ediv_one]
    rw [show ((b.toNat : Int) + 256 * val bs) % 256 = b.toNat by omega]
    simp
  | b :: bs, j + 1, c, h => by
    have hb : b.toNat < 256 := b.toNat_lt
    rw [byteAt_succ]
    simp only [val]
    rw [show ((b.toNat : Int) + 256 * val bs) / 256 = val bs by omega]
    exact byteAt_val bs j c (by simpa using h)

/-- Low bytes do not depend on multiples of higher powers. -/
theorem byteAt_add_mul (v k : Int) {j w : Nat} (h : j < w) : byteAt (v + k * 256 ^ w) j = byteAt v j := by
  unfold byteAt
  obtain ⟨d, rfl⟩ : ∃ d, w = j + 1 + d := ⟨w - (j + 1), by omega⟩
  have e : v + k * 256 ^ (j + 1 + d) = v + (k * 256 ^ d * 256) * 256 ^ j := by
    rw [Int.pow_add, Int.pow_succ]
    simp only [Int.mul_assoc, Int.mul_comm, Int.mul_left_comm]
  rw [e, Int.add_mul_ediv_right _ _ (by have := Int.pow_pos (n := (256 : Int)) (m := j) (by omega); omega)]
  congr 2
  omega

theorem byteAt_emod (v : Int) {j w : Nat} (h : j < w) : byteAt (v % 256 ^ w) j = byteAt v j := by
  have := byteAt_add_mul (v % 256 ^ w) (v / 256 ^ w) h
  rw [Int.emod_add_ediv_mul] at this
  exact this.symm

theorem byteAt_merged (keep w old v) {j : Nat} (h : j < w) : byteAt (merged keep w old v) j = byteAt v j := by
  unfold merged
  split_ifs
  · have : old - old % 256 ^ w + v % 256 ^ w = v + (old / 256 ^ w - v / 256 ^ w) * 256 ^ w := by
      have h1 := Int.emod_add_ediv_mul old (256 ^ w)
      have h2 := Int.emod_add_ediv_mul v (256 ^ w)
      rw [Int.sub_mul]
      omega
    rw [this, byteAt_add_mul _ _ h]
  · exact byteAt_emod v h

theorem byteAt_sval {bs : List UInt8} {j : Nat} (h : j < bs.length) : byteAt (sval bs) j = byteAt (val bs) j := by
  unfold sval
  split_ifs
  · rfl
  · have := byteAt_add_mul (val bs) (-1) h
    rw [← this]
    congr 1
    omega

theorem byteAt_val_rd {m : Mem} {a : Int} {n j : Nat} (h : j < n) : byteAt (val (rd m a n)) j = m (a + j) :=
  byteAt_val _ _ _ (rd_get h)

theorem byteAt_val_le {v : Int} {n j : Nat} (h : j < n) : byteAt (val (le n v)) j = byteAt v j :=
  byteAt_val _ _ _ (le_get h)

theorem val_le_emod (n : Nat) (v : Int) : val (le n v) = v % 256 ^ n := by
  induction n generalizing v with
  | zero => simp [le, val, Int.emod_one]
  | succ n ih =>
    have : le (n + 1) v = byteAt v 0 :: le n (v / 256) := by
      simp only [le, List.range_succ_eq_map, List.map_cons, List.map_map]
      congr 1
      apply List.map_congr_left
      intro j _
      exact byteAt_succ v j
    rw [this, val, ih]
    have h0 : ((byteAt v 0).toNat : Int) = v % 256 := by
      have : (v % 256).toNat < 256 := by omega
      simp only [byteAt, Int.pow_zero, Int.ediv_one]
      rw [UInt8.toNat_ofNat_of_lt' this]
      omega
    rw [h0, Int.pow_succ, Int.mul_comm (256 ^ n) 256]
    have h1 := Int.emod_add_ediv_mul (v / 256) (256 ^ n)
    have hp : 0 < (256 : Int) ^ n := Int.pow_pos (by omega)
    have h2 := Int.emod_nonneg (v / 256) (by omega : (256 : Int) ^ n ≠ 0)
    have h3 := Int.emod_lt_of_pos (v / 256) hp
    have h4 : v = (v % 256 + 256 * (v / 256 % 256 ^ n)) + (v / 256 / 256 ^ n) * (256 * 256 ^ n) := by
      have : v / 256 / 256 ^ n * (256 * 256 ^ n) = 256 * (v / 256 / 256 ^ n * 256 ^ n) := by
        simp only [Int.mul_assoc, Int.mul_comm, Int.mul_left_comm]
      rw [this]
      omega
    have h5 := congrArg (· % (256 * (256 : Int) ^ n)) h4
    refine (h5.trans ?_).symm
    rw [Int.add_mul_emod_self_right]
    exact Int.emod_eq_of_lt (by omega) (by omega)

theorem encoded_of {w : Nat} {v : Int} (h : w = 8 → -2147483648 ≤ v ∧ v ≤ 2147483647) : encoded w v = v := by
  unfold encoded
  split_ifs with h8
  · obtain ⟨h1, h2⟩ := h h8
    unfold sval
    rw [le_length, val_le_emod, show (256 : Int) ^ 4 = 4294967296 by rfl]
    split_ifs <;> omega
  · rfl

/-- What is read back after a register was stored. -/
theorem val_rd_le {m : Mem} {a v : Int} {n : Nat} (h : ∀ j : Nat, j < n → m (a + j) = byteAt v j) :
    val (rd m a n) = v % 256 ^ n := by
  rw [← val_le_emod]
  congr 1
  apply List.map_congr_left
  intro j hj
  exact h j (List.mem_range.mp hj)

@[simp] theorem set_reg (s : M) (r v x) : (s.set r v).reg x = if x = r then v else s.reg x := rfl
@[simp] theorem set_mem (s : M) (r v) : (s.set r v).mem = s.mem := rfl
@[simp] theorem write_reg (s : M) (a bs) : (s.write a bs).reg = s.reg := rfl
@[simp] theorem write_mem (s : M) (a bs) : (s.write a bs).mem = wr s.mem a bs := rfl
@[simp] theorem pushBytes_mem (s : M) (bs) : (s.pushBytes bs).mem = wr s.mem (s.reg SP - 8) bs := rfl
@[simp] theorem pushBytes_reg (s : M) (bs x) :
    (s.pushBytes bs).reg x = if x = SP then s.reg SP - 8 else s.reg x := rfl

@[simp] theorem run_nil (s : M) : run s [] = s := rfl
@[simp] theorem run_cons (s : M) (i is) : run s (i :: is) = run (step s i) is := rfl
theorem run_append (s : M) (l m) : run s (l ++ m) = run (run s l) m := by simp [run, List.foldl_append]

theorem movsqs_spec : ∀ (n : Nat) (s : M),
    (∀ r, r ≠ SI → r ≠ DI → (M.movsqs n s).reg r = s.reg r) ∧
    (∀ x, x < s.reg DI ∨ s.reg DI + 8 * n ≤ x → (M.movsqs n s).mem x = s.mem x) ∧
    ∀ j : Nat, j < 8 * n → (s.reg SI + j < s.reg DI ∨ s.reg DI + 8 * n ≤ s.reg SI + j) →
      (M.movsqs n s).mem (s.reg DI + j) = s.mem (s.reg SI + j)
  | 0, s => ⟨fun _ _ _ => rfl, fun _ _ => rfl, fun j hj => by omega⟩
  | n + 1, s => by
    obtain ⟨h1, h2, h3⟩ := movsqs_spec n s.movsq
    have hsi : s.movsq.reg SI = s.reg SI + 8 := by simp [M.movsq, SI, DI]
    have hdi : s.movsq.reg DI = s.reg DI + 8 := by simp [M.movsq, SI, DI]
    have hm : s.movsq.mem = wr s.mem (s.reg DI) (rd s.mem (s.reg SI) 8) := rfl
    rw [hdi] at h2 h3
    rw [hsi] at h3
    refine ⟨?_, ?_, ?_⟩
    · intro r hr hr'
      simp only [M.movsqs]
      rw [h1 r hr hr']
      simp [M.movsq, hr, hr']
    · intro x hx
      simp only [M.movsqs]
      rw [h2 x (by omega), hm, wr_out (by simp; omega)]
    · intro j hj ho
      simp only [M.movsqs]
      by_cases h8 : j < 8
      · rw [h2 _ (by omega), hm, wr_rd h8]
      · have := h3 (j - 8) (by omega) (by omega)
        rw [show s.reg DI + 8 + ((j - 8 : Nat) : Int) = s.reg DI + j by omega,
          show s.reg SI + 8 + ((j - 8 : Nat) : Int) = s.reg SI + j by omega] at this
        rw [this, hm, wr_out (by simp; omega)]

end Verif.Abi
