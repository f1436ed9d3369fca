import Verif.Encode.Spec

namespace Verif.Encode

open Intel

/-! ## Numbers as bytes -/

theorem le_length (n : Nat) (x : Int) : (le n x).length = n := by
  induction n generalizing x with
  | zero => rfl
  | succ n ih => simp [le, ih]

theorem le_lt (n : Nat) (x : Int) : ∀ b ∈ le n x, b < 256 := by
  induction n generalizing x with
  | zero => simp [le]
  | succ n ih =>
    intro b hb
    simp only [le, List.mem_cons] at hb
    rcases hb with rfl | hb
    · omega
    · exact ih _ b hb

theorem emod_split (x m : Int) (hm : 0 < m) :
    x % (256 * m) = x % 256 + 256 * (x / 256 % m) := by
  have h1 := Int.emod_add_mul_ediv x 256
  have h2 := Int.emod_add_mul_ediv (x / 256) m
  have h3 := Int.emod_nonneg (x / 256) (show m ≠ 0 by omega)
  have h4 := Int.emod_lt_of_pos (x / 256) hm
  have e : x = (x % 256 + 256 * (x / 256 % m)) + 256 * m * (x / 256 / m) := by
    rw [Int.mul_assoc]
    generalize m * (x / 256 / m) = k at *
    omega
  conv_lhs => rw [e]
  rw [Int.add_mul_emod_self_left]
  apply Int.emod_eq_of_lt <;> omega

theorem value_le (n : Nat) (x : Int) : (value (le n x) : Int) = x % (256 ^ n : Nat) := by
  induction n generalizing x with
  | zero => simp [le, value]
  | succ n ih =>
    simp only [le, value, Nat.cast_add, Nat.cast_mul, ih]
    have e : ((256 ^ (n + 1) : Nat) : Int) = 256 * ((256 ^ n : Nat) : Int) := by
      push_cast; rw [pow_succ, Int.mul_comm]
    rw [e, emod_split _ _ (by have : 0 < 256 ^ n := Nat.pow_pos (by decide); omega)]
    have h1 : 0 ≤ x % 256 := by omega
    rw [Int.toNat_of_nonneg h1]
    rfl

theorem signed_le (n : Nat) (x : Int) (t : List Nat) :
    signed n (le n x ++ t) = some (x.bmod (256 ^ n), t) := by
  have hl := le_length n x
  have hv := value_le n x
  unfold signed
  rw [if_neg (by simp [hl])]
  simp only [List.take_left' hl, List.drop_left' hl]
  congr 2
  have hp : (0 : Int) < (256 ^ n : Nat) := by
    have : 0 < 256 ^ n := Nat.pow_pos (by decide)
    omega
  unfold Int.bmod
  rw [← hv]
  have hc : ((256 ^ n : Nat) : Int) = 256 ^ n := by push_cast; rfl
  rw [← hc]
  by_cases h : 2 * value (le n x) < 256 ^ n
  · rw [if_pos h, if_pos]
    omega
  · rw [if_neg h, if_neg]
    omega

theorem bmod_self {n : Nat} {x : Int} (h1 : -(256 ^ n : Nat) ≤ 2 * x) (h2 : 2 * x < (256 ^ n : Nat)) :
    x.bmod (256 ^ n) = x := by
  apply Int.bmod_eq_of_le_mul_two <;> omega

/-! ## Addresses -/

theorem modrm_fields : ∀ reg < 8, ∀ rm < 8, ∀ k < 3,
    let m := (reg * 8 ||| rm) ||| k * 64
    m / 64 = k ∧ m / 8 % 8 = reg ∧ m % 8 = rm ∧ m < 256 := by decide +kernel

theorem sib_fields : ∀ i < 8, ∀ b < 8, ∀ k < 4,
    let m := (i * 8 ||| k * 64) ||| b
    m / 64 = k ∧ m / 8 % 8 = i ∧ m % 8 = b ∧ m < 256 := by decide +kernel

theorem reg3_lt (r : Nat) : reg3 r < 8 := Nat.mod_lt _ (by decide)

/-- A general register is its three low bits and the bit from REX. -/
theorem gpr_split : ∀ r ∈ gprs, r - 1 = reg3 r + (if is64 r then 8 else 0) := by decide +kernel

theorem xmm_split : ∀ r ∈ xmms, r - 17 = reg3 r + (if is64 r then 8 else 0) := by decide +kernel

theorem gpr_ne_zero : ∀ r ∈ gprs, r ≠ 0 := by decide +kernel

/-- An index that is not `%rsp` never looks like none. -/
theorem index_ok : ∀ r ∈ gprs, r ≠ SP → ¬ reg3 r + (if is64 r then 8 else 0) = 4 := by decide +kernel

/-- Bits of REX agree with the registers of an address. -/
structure RexOk (h : Head) (a : Addr) : Prop where
  x : h.x = if is64 a.index then 8 else 0
  b : h.b = if is64 a.base then 8 else 0

def scaleBits (s : Nat) : Nat := if s = 2 then 1 else if s = 4 then 2 else if s = 8 then 3 else 0

theorem scaleBits_lt (s : Nat) : scaleBits s < 4 := by unfold scaleBits; split_ifs <;> decide

theorem scale_pow : ∀ s ∈ [0, 1, 2, 4, 8], 2 ^ scaleBits s = if s = 0 then 1 else s := by
  decide +kernel

/-- A displacement that fits is read back. -/
theorem signed_disp {n : Nat} {x : Int} (t : List Nat) (h1 : -(256 ^ n : Nat) ≤ 2 * x)
    (h2 : 2 * x < (256 ^ n : Nat)) : signed n (le n x ++ t) = some (x, t) := by
  rw [signed_le, bmod_self h1 h2]

theorem signed_zero (t : List Nat) : signed 0 t = some (0, t) := by
  simp [signed, value]

theorem head_nosib (h : Head) (l : List Nat) {reg rm k : Nat} (hreg : reg < 8) (hrm : rm < 8)
    (hk : k < 3) (h4 : rm ≠ 4) (h5 : ¬ (rm = 5 ∧ k = 0)) :
    modrmHead h (((reg * 8 ||| rm) ||| k * 64) :: l)
      = some (⟨reg + h.r, .sib (some (rm + h.b)) none
          (if k = 1 then 1 else if k = 2 then 4 else 0)⟩, l) := by
  obtain ⟨f1, f2, f3, _⟩ := modrm_fields reg hreg rm hrm k hk
  simp only [modrmHead, f1, f2, f3]
  rw [if_neg (by omega), if_neg h4, if_neg h5]

theorem head_sib (h : Head) (l : List Nat) {reg i b k s : Nat} (hreg : reg < 8) (hi : i < 8)
    (hb : b < 8) (hk : k < 3) (hs : s < 4) :
    modrmHead h (((reg * 8 ||| 4) ||| k * 64) :: ((i * 8 ||| s * 64) ||| b) :: l)
      = some (⟨reg + h.r, .sib (if b = 5 ∧ k = 0 then none else some (b + h.b))
          (if i + h.x = 4 then none else some (i + h.x, 2 ^ s))
          (if b = 5 ∧ k = 0 then 4 else if k = 1 then 1 else if k = 2 then 4 else 0)⟩, l) := by
  obtain ⟨f1, f2, f3, _⟩ := modrm_fields reg hreg 4 (by decide) k hk
  obtain ⟨g1, g2, g3, _⟩ := sib_fields i hi b hb s hs
  simp only [modrmHead, f1, f2, f3, g1, g2, g3]
  rw [if_neg (by omega), if_pos trivial]
  split_ifs <;> rfl

/-- The three sizes of a displacement. -/
inductive DispCase (a : Addr) : Nat → List Nat → Prop
  | zero : a.disp = 0 → DispCase a 0 []
  | byte : DispCase a 1 (le 1 a.disp)
  | dword : DispCase a 2 (le 4 a.disp)

/-- The shape of an encoded address with a base. -/
theorem modrm_shape (reg : Nat) (a : Addr) (hs : a.sym = none) (hb : a.base ≠ 0)
    (hsc : a.scale ∈ [0, 1, 2, 4, 8]) :
    ∃ k bs, k < 3 ∧ DispCase a k bs ∧ (k = 1 → inByteRange a.disp = true)
      ∧ (k = 0 → reg3 a.base ≠ 5)
      ∧ (a.index = 0 ∧ ¬ a.scale > 1 ∧ reg3 a.base ≠ 4
          ∧ modrmSibDisp reg a = some (((reg % 8 * 8 ||| reg3 a.base) ||| k * 64) :: bs)
        ∨ modrmSibDisp reg a = some (((reg % 8 * 8 ||| 4) ||| k * 64)
            :: (((if a.index ≠ 0 then reg3 a.index else 4) * 8 ||| scaleBits a.scale * 64)
                ||| reg3 a.base) :: bs)) := by
  have e4 : reg3 SP = 4 := rfl
  have e5 : reg3 BP = 5 := rfl
  unfold modrmSibDisp
  rw [if_neg (by simp [hs]), if_neg (by simp [hb]),
    if_neg (by simp only [List.mem_cons, List.not_mem_nil, or_false] at hsc; omega)]
  have sb : ∀ s : Nat, (if s = 2 then 1 else if s = 4 then 2 else if s = 8 then 3 else 0) = scaleBits s :=
    fun _ => rfl
  have hsibT : ¬ (a.index = 0 ∧ ¬ a.scale > 1 ∧ reg3 a.base ≠ 4) →
      (!decide (a.index = 0) || decide (reg3 a.base = 4) || decide (a.scale > 1)) = true := by
    intro g
    simp
    by_cases g1 : a.index = 0
    · by_cases g2 : reg3 a.base = 4
      · exact .inl (.inr g2)
      · by_cases g3 : 1 < a.scale
        · exact .inr g3
        · exact absurd ⟨g1, g3, g2⟩ g
    · exact .inl (.inl g1)
  simp only [sb, e4, e5, hb, ne_eq, not_false_eq_true, decide_false, Bool.false_or, Bool.or_false,
    decide_true, Bool.and_true, if_true, decide_not]
  by_cases hr : inByteRange a.disp = true
  · simp only [hr, Bool.not_true, Bool.false_or, Bool.false_eq_true, if_false]
    by_cases hd : (!decide (a.disp = 0) || decide (reg3 a.base = 5)) = true
    · simp only [hd, if_true]
      refine ⟨1, _, by decide, .byte, (fun _ => trivial), (fun g => absurd g (by decide)), ?_⟩
      by_cases hsib : a.index = 0 ∧ ¬ a.scale > 1 ∧ reg3 a.base ≠ 4
      · left
        exact ⟨hsib.1, hsib.2.1, hsib.2.2, by simp [hsib.1, hsib.2.1, hsib.2.2]⟩
      · right
        rw [hsibT hsib]
        simp
    · simp only [hd, Bool.false_eq_true, if_false]
      simp at hd
      refine ⟨0, _, by decide, .zero hd.1, (fun g => absurd g (by decide)), fun _ => hd.2, ?_⟩
      by_cases hsib : a.index = 0 ∧ ¬ a.scale > 1 ∧ reg3 a.base ≠ 4
      · left
        exact ⟨hsib.1, hsib.2.1, hsib.2.2, by simp [hsib.1, hsib.2.1, hsib.2.2]⟩
      · right
        rw [hsibT hsib]
        simp
  · simp only [hr, Bool.not_false, Bool.true_or, if_true]
    refine ⟨2, _, by decide, .dword, (fun g => absurd g (by decide)), (fun g => absurd g (by decide)), ?_⟩
    by_cases hsib : a.index = 0 ∧ ¬ a.scale > 1 ∧ reg3 a.base ≠ 4
    · left
      exact ⟨hsib.1, hsib.2.1, hsib.2.2, by simp [hsib.1, hsib.2.1, hsib.2.2]⟩
    · right
      rw [hsibT hsib]
      simp

theorem disp_read {a : Addr} {k : Nat} {bs : List Nat} (hd : DispCase a k bs)
    (h1 : k = 1 → inByteRange a.disp = true) (hl : -2147483648 ≤ a.disp) (hu : a.disp ≤ 2147483647)
    (t : List Nat) :
    signed (if k = 1 then 1 else if k = 2 then 4 else 0) (bs ++ t) = some (a.disp, t)
      ∧ (∀ b ∈ bs, b < 256) ∧ bs.length ≤ 4 := by
  cases hd with
  | zero h0 =>
    refine ⟨?_, by simp, by simp⟩
    rw [h0]; exact signed_zero t
  | byte =>
    have := h1 rfl
    simp [inByteRange] at this
    refine ⟨signed_disp t ?_ ?_, le_lt 1 _, by rw [le_length]; decide⟩
    · show -((256 : Nat) : Int) ≤ _
      omega
    · show _ < ((256 : Nat) : Int)
      omega
  | dword =>
    refine ⟨signed_disp t ?_ ?_, le_lt 4 _, by rw [le_length]⟩
    · show -((4294967296 : Nat) : Int) ≤ _
      omega
    · show _ < ((4294967296 : Nat) : Int)
      omega

theorem modrm_decode (reg : Nat) (a : Addr) (h : Head) (hs : a.sym = none) (ok : a.Ok)
    (hr : RexOk h a) (t : List Nat) :
    ∃ bs, modrmSibDisp reg a = some bs ∧ (∀ b ∈ bs, b < 256) ∧ bs.length ≤ 6 ∧
      ∃ m l, modrmHead h (bs ++ t) = some (m, l) ∧ m.reg = reg % 8 + h.r
        ∧ (∀ n, m.rm ≠ .reg n)
        ∧ address m.rm l = some (some (memOf a), t) := by
  simp only [Addr.Ok, hs] at ok
  obtain ⟨hbase, hidx, hsc, hl, hu⟩ := ok
  have hmem : memOf a = .sib (if a.base = 0 then none else some (a.base - 1))
      (if a.index = 0 then none else some (a.index - 1, if a.scale = 0 then 1 else a.scale)) a.disp := by
    simp only [memOf, hs]
  have hreg : reg % 8 < 8 := Nat.mod_lt _ (by decide)
  have hi : (if a.index ≠ 0 then reg3 a.index else 4) < 8 := by
    split_ifs
    · exact reg3_lt _
    · decide
  have hix : (if (if a.index ≠ 0 then reg3 a.index else 4) + h.x = 4 then none
        else some ((if a.index ≠ 0 then reg3 a.index else 4) + h.x, 2 ^ scaleBits a.scale))
      = (if a.index = 0 then none else some (a.index - 1, if a.scale = 0 then 1 else a.scale)) := by
    rw [hr.x, scale_pow _ hsc]
    rcases hidx with h0 | ⟨hg, hsp⟩
    · rw [h0]; rfl
    · rw [if_pos (gpr_ne_zero _ hg), if_neg (index_ok _ hg hsp), if_neg (gpr_ne_zero _ hg), gpr_split _ hg]
  have hb8 : a.base ≠ 0 → reg3 a.base + h.b = a.base - 1 := by
    intro hb
    rcases hbase with h0 | hg
    · exact absurd h0.1 hb
    · rw [gpr_split _ hg, hr.b]
  by_cases hb : a.base = 0
  · have hd : a.disp = 0 := by
      rcases hbase with h0 | hg
      · exact h0.2
      · exact absurd hb (gpr_ne_zero _ hg)
    have e : modrmSibDisp reg a = some (((reg % 8 * 8 ||| 4) ||| 0 * 64)
        :: (((if a.index ≠ 0 then reg3 a.index else 4) * 8 ||| scaleBits a.scale * 64) ||| 5)
        :: [0, 0, 0, 0]) := by
      unfold modrmSibDisp
      rw [if_neg (by simp [hs]), if_neg (by simp [hd]),
        if_neg (by simp only [List.mem_cons, List.not_mem_nil, or_false] at hsc; omega)]
      have e4 : reg3 SP = 4 := rfl
      simp [hb, hd, inByteRange, e4, scaleBits, le]
    refine ⟨_, e, ?_, by simp, ?_⟩
    · intro b hb
      simp only [List.mem_cons, List.not_mem_nil, or_false] at hb
      rcases hb with rfl | rfl | rfl | rfl | rfl | rfl
      · exact (modrm_fields _ hreg 4 (by decide) 0 (by decide)).2.2.2
      · exact (sib_fields _ hi 5 (by decide) _ (scaleBits_lt _)).2.2.2
      all_goals decide
    · simp only [List.cons_append]
      rw [head_sib h _ hreg hi (by decide) (by decide) (scaleBits_lt _)]
      refine ⟨_, _, rfl, rfl, (fun n g => nomatch g), ?_⟩
      simp only [address]
      rw [hix, hmem, hb, hd]
      have : signed 4 (0 :: 0 :: 0 :: 0 :: t) = some (0, t) := signed_le 4 0 t
      simp [this]
  · obtain ⟨k, bs, hk, hd, h1, h0, hcase⟩ := modrm_shape reg a hs hb hsc
    obtain ⟨hread, hby, hlen⟩ := disp_read hd h1 hl hu t
    rcases hcase with ⟨hx0, hsc1, hb4, e⟩ | e
    · refine ⟨_, e, ?_, by simp; omega, ?_⟩
      · intro b hb
        rcases List.mem_cons.mp hb with rfl | hb
        · exact (modrm_fields _ hreg _ (reg3_lt _) k hk).2.2.2
        · exact hby b hb
      · rw [List.cons_append, head_nosib h _ hreg (reg3_lt _) hk hb4 (fun g => h0 g.2 g.1)]
        refine ⟨_, _, rfl, rfl, (fun n g => nomatch g), ?_⟩
        simp only [address]
        rw [hread, hmem, if_neg hb, if_pos hx0, hb8 hb]
        rfl
    · refine ⟨_, e, ?_, by simp; omega, ?_⟩
      · intro b hb
        rcases List.mem_cons.mp hb with rfl | hb
        · exact (modrm_fields _ hreg 4 (by decide) k hk).2.2.2
        · rcases List.mem_cons.mp hb with rfl | hb
          · exact (sib_fields _ hi _ (reg3_lt _) _ (scaleBits_lt _)).2.2.2
          · exact hby b hb
      · rw [List.cons_append, List.cons_append,
          head_sib h _ hreg hi (reg3_lt _) hk (scaleBits_lt _)]
        refine ⟨_, _, rfl, rfl, (fun n g => nomatch g), ?_⟩
        have n5 : ¬ (reg3 a.base = 5 ∧ k = 0) := fun g => h0 g.2 g.1
        simp only [address]
        rw [if_neg n5, if_neg n5, hread, hmem, hix, if_neg hb, hb8 hb]
        rfl

end Verif.Encode
