import Verif.Arith.Main

/-!
# Values after an assignment
-/

namespace Verif.Arith

open Verif.Abi (M Ea Ins Src Place AX CX DX R11 BP le val sval rd wr isTempInt merged)
open Verif.Conv (CM Val IsSize CIns Opd bytes)

theorem number_has {w k : Nat} {sg : Bool} (hw : 0 < w) (h : k < 2 ^ (8 * w)) : Has w sg (number w sg k) := by
  have e : (2 : Int) ^ (8 * w) = 2 * 2 ^ (8 * w - 1) := by rw [← Int.pow_succ', show 8 * w - 1 + 1 = 8 * w by omega]
  have e' : (2 : Nat) ^ (8 * w) = 2 * 2 ^ (8 * w - 1) := by rw [← Nat.pow_succ']; congr 1; omega
  have hc : ((2 ^ (8 * w - 1) : Nat) : Int) = 2 ^ (8 * w - 1) := by push_cast; rfl
  unfold Has number
  rw [e]
  rw [e'] at h
  rw [← hc]
  generalize (2 : Nat) ^ (8 * w - 1) = P at *
  cases sg <;> simp only [Bool.false_eq_true, false_and, true_and, if_false, if_true]
  · omega
  · split_ifs <;> omega

theorem result_has' {w : Nat} {sg : Bool} {c x : Int} (h : result w sg c = some x) : Has w sg x := by
  unfold result at h
  split_ifs at h with h1 h2
  · simp only [Option.some.injEq] at h; rw [← h]; exact h2
  · simp only [Option.some.injEq] at h
    rw [← h]
    unfold Has
    rw [if_neg h1]
    exact ⟨Int.emod_nonneg _ (by positivity), Int.emod_lt_of_pos _ (by positivity)⟩

theorem has_iff {w : Nat} {sg : Bool} {c : Int} : Has w sg c ↔
    (sg = true ∧ -(2 ^ (8 * w - 1)) ≤ c ∧ c < 2 ^ (8 * w - 1)) ∨ (sg = false ∧ 0 ≤ c ∧ c < 2 ^ (8 * w)) := by
  unfold Has; cases sg <;> simp

theorem meaning_has {w : Nat} {sg : Bool} {a b c : Int} {op : Op} (hw : 0 < w) (ha : Has w sg a)
    (hb : op = .shl ∨ op = .shr ∨ Has w sg b) (h : meaning w sg a b op = some c) : Has w sg c := by
  have hbit : ∀ x : Int, bits w x < 2 ^ (8 * w) := fun x => by rw [bits_eq]; exact emod_toNat_lt x w
  cases op with
  | add => exact result_has' h
  | sub => exact result_has' h
  | mul => exact result_has' h
  | div => simp only [meaning] at h; split_ifs at h; exact result_has' h
  | mod =>
    simp only [reduceCtorEq, false_or] at hb
    simp only [meaning] at h
    split_ifs at h with h0
    simp only [not_or] at h0
    simp only [Option.some.injEq] at h
    subst h
    rw [has_iff] at ha hb ⊢
    rcases ha with ⟨rfl, h1, h2⟩ | ⟨rfl, h1, h2⟩
    · left
      have h3 : (a.tmod b).natAbs ≤ a.natAbs := by rw [Int.natAbs_tmod]; exact Nat.mod_le _ _
      refine ⟨rfl, ?_, ?_⟩
      · omega
      · by_cases hn : 0 ≤ a
        · omega
        · have : a.tmod b ≤ 0 := by
            have := Int.tmod_nonneg (a := -a) b (by omega)
            rw [Int.neg_tmod] at this
            omega
          have hp : (0 : Int) < 2 ^ (8 * w - 1) := by positivity
          omega
    · right
      refine ⟨rfl, Int.tmod_nonneg b h1, ?_⟩
      have h3 : (a.tmod b).natAbs ≤ a.natAbs := by rw [Int.natAbs_tmod]; exact Nat.mod_le _ _
      omega
  | and => simp only [meaning, Option.some.injEq] at h; rw [← h]; exact number_has hw (Nat.and_lt_two_pow _ (hbit b))
  | or => simp only [meaning, Option.some.injEq] at h; rw [← h]; exact number_has hw (Nat.or_lt_two_pow (hbit a) (hbit b))
  | xor => simp only [meaning, Option.some.injEq] at h; rw [← h]; exact number_has hw (Nat.xor_lt_two_pow (hbit a) (hbit b))
  | shl => simp only [meaning] at h; split_ifs at h; exact result_has' h
  | shr =>
    simp only [meaning] at h
    split_ifs at h
    simp only [Option.some.injEq] at h
    subst h
    have hp : (0 : Int) < 2 ^ b.toNat := by positivity
    rw [has_iff] at ha ⊢
    rcases ha with ⟨rfl, h1, h2⟩ | ⟨rfl, h1, h2⟩
    · left
      refine ⟨rfl, ?_, ?_⟩
      · rw [Int.le_ediv_iff_mul_le hp]
        have hP : (0 : Int) < 2 ^ (8 * w - 1) := by positivity
        nlinarith
      · by_cases hn : 0 ≤ a
        · exact lt_of_le_of_lt (Int.ediv_le_self _ hn) h2
        · have : a / 2 ^ b.toNat < 0 := Int.ediv_neg_of_neg_of_pos (by omega) hp
          have hP : (0 : Int) < 2 ^ (8 * w - 1) := by positivity
          omega
    · right
      exact ⟨rfl, Int.ediv_nonneg h1 (by omega), lt_of_le_of_lt (Int.ediv_le_self _ h1) h2⟩

theorem value_of_emod {v : Val} {s : M} (hf : v.field = none) (hz : IsSize v.sz) {c : Int} (hc : Has v.sz v.signed c)
    (h : val (bytes s v.src v.sz) = c % 256 ^ v.sz) : v.value s = c := by
  have hp : 0 < v.sz := by unfold IsSize at hz; omega
  unfold Val.value
  simp only [hf]
  cases hs : v.signed with
  | true =>
    rw [hs] at hc
    simp only [if_true]
    have := signed_of hp hc (x := val (bytes s v.src v.sz)) (by rw [h]; exact Int.emod_emod_of_dvd _ (Int.dvd_refl _))
    rw [Conv.val_bytes_emod] at this
    unfold sval
    unfold signed at this
    rw [Conv.bytes_length]
    exact this
  | false =>
    rw [hs] at hc
    simp only [Bool.false_eq_true, if_false]
    rw [h]
    exact unsigned_of hc rfl

theorem signedBits_of {k : Nat} (hk : 0 < k) {n c : Int} (h : -(2 ^ (k - 1)) ≤ c ∧ c < 2 ^ (k - 1)) (e : n % 2 ^ k = c % 2 ^ k) :
    Conv.signedBits k n = c := by
  have hp : (2 : Int) ^ k = 2 * 2 ^ (k - 1) := by rw [← Int.pow_succ', show k - 1 + 1 = k by omega]
  unfold Conv.signedBits
  rw [e]
  rw [hp]
  generalize (2 : Int) ^ (k - 1) = P at *
  by_cases h0 : c < 0
  · rw [emod_neg' h0 (by omega), if_pos (by omega)]; omega
  · rw [Int.emod_eq_of_lt (by omega) (by omega), if_neg (by omega)]

/-- A variable that has been assigned a number it can hold has that value. -/
theorem Assigned.value {s t : CM} {v : Val} {c : Int} (hv : Target s.m v) (hd : ∀ p o, v.src ≠ .deref p o) (h : Assigned s t v c)
    (hc : Room v c) : v.value t.m = c := by
  cases hs : v.src with
  | imm n => exact (hv.noImm n hs).elim
  | addr p => exact (hv.noAddr p hs).elim
  | deref p o => exact (hd p o hs).elim
  | place p =>
    by_cases hx : ∃ x, p = .temp x
    · obtain ⟨x, rfl⟩ := hx
      have hf := (hv.temp x hs).2
      unfold Room at hc
      simp only [hf] at hc
      refine value_of_emod hf hv.size hc ?_
      rw [hs, Conv.bytes_temp, Abi.val_le_emod]
      exact (h.temp x hs).1
    · have hxs : ∀ r, v.src ≠ .place (.temp r) := by
        intro r hr; rw [hs] at hr; simp only [Src.place.injEq] at hr; exact hx ⟨r, hr⟩
      have : ∃ a, p.ea = some a := by cases p <;> simp_all [Place.ea]
      obtain ⟨a, ha⟩ := this
      have haddr : p.address t.m = p.address s.m := by
        cases p with
        | temp r => rfl
        | global _ => rfl
        | frame o =>
          simp only [Place.address]
          rw [h.reg BP bp_scratch (by rw [hs]; simp)]
      have hb : ∀ n, bytes t.m v.src n = rd t.m.mem (v.src.object s.m) n := by
        intro n
        rw [hs, Conv.bytes_place ha, Abi.ea_place ha, haddr]; rfl
      cases hf : v.field with
      | none =>
        unfold Room at hc
        simp only [hf] at hc
        refine value_of_emod hf hv.size hc ?_
        rw [hb, h.plain hxs hf, Abi.val_le_emod]
      | some f =>
        obtain ⟨off, width⟩ := f
        obtain ⟨w0, _, _, w1⟩ := hv.field off width hf
        have hin := hv.inside off width hf
        have hz := isSize_le hv.size
        have h1 := (h.field off width hf).1
        unfold Room at hc
        simp only [hf] at hc
        have e : val (bytes t.m v.src 8) / 2 ^ off % 2 ^ width = c % 2 ^ width := by
          rw [← h1, ← hb, Conv.val_bytes_take hz, Conv.pow256, Conv.bits_take _ hin]
        unfold Val.value
        simp only [hf]
        split_ifs at hc ⊢ with hsg
        · exact signedBits_of w0 hc e
        · rw [e, Int.emod_eq_of_lt hc.1 hc.2]

theorem has_room {v : Val} {c : Int} (hf : v.field = none) (h : Has v.sz v.signed c) : Room v c := by
  unfold Room
  simp only [hf]
  exact h

end Verif.Arith
