import Verif.Arith.StoreLemmas

/-!
# Stores to bit-fields and of constants
-/

namespace Verif.Arith

open Verif.Abi (M Ea Ins Src Place AX CX DX R11 BP le val sval rd wr isTempInt merged)
open Verif.Conv (CM Val IsSize CIns Opd bytes)

theorem run_two {enc} {s t u : CM} {a b : List AIns} (h : run enc s a = some t) (g : run enc t b = some u) :
    run enc s (a ++ b) = some u := by
  rw [run_append, h]; exact g

theorem isSize_le {n : Nat} (h : IsSize n) : n ≤ 8 := by unfold IsSize at h; omega

/-- `shl` of a register by a constant. -/
theorem run_shl {enc} {s : CM} {w d n : Nat} (hk : s.skip = none) :
    ∃ t, run enc s [.conv (.shl w d n)] = some t ∧ Sets s t d w (s.m.reg d * 2 ^ n) := by
  have e : run enc s [.conv (.shl w d n)] = some { s with m := set s.m w d (val (le w (s.m.reg d)) * 2 ^ n) } := by
    simp [run, step, Conv.step, hk, Conv.exec, CM.setInt, set]
  refine ⟨_, e, rfl, rfl, fun r h1 _ => set_other _ _ _ _ h1, ?_⟩
  simp only [set_low, Abi.val_le_emod]
  rw [Int.mul_emod, Int.emod_emod_of_dvd _ (Int.dvd_refl _), ← Int.mul_emod]

/-- The storage unit of a field as an operand. -/
theorem Target.unit {s : M} {t : Val} (ht : Target s t) : Operand s { t with field := none } where
  size := ht.size
  imm n h := (ht.noImm n h).elim
  addr p h := (ht.noAddr p h).elim
  temp r h := ⟨(ht.temp r h).1, rfl⟩
  pointer := ht.pointer
  field _ _ h := by cases h

theorem emod_toNat {a : Int} {w : Nat} : (((a % 256 ^ w).toNat : Nat) : Int) = a % 256 ^ w :=
  Int.toNat_of_nonneg (Int.emod_nonneg _ (by positivity))

theorem cast_lt {n w : Nat} (h : n < 2 ^ (8 * w)) : (n : Int) < 256 ^ w := by
  rw [Conv.pow256]; exact_mod_cast h

theorem lt_cast {n w : Nat} (h : (n : Int) < 256 ^ w) : n < 2 ^ (8 * w) := by
  rw [Conv.pow256] at h; exact_mod_cast h

theorem emod_toNat_lt (a : Int) (w : Nat) : (a % 256 ^ w).toNat < 2 ^ (8 * w) := by
  have := Int.emod_lt_of_pos a (show (0 : Int) < 256 ^ w by positivity)
  rw [← emod_toNat] at this
  exact lt_cast this

theorem shifted_mod {x : Int} {off w k : Nat} (h : k ≤ w) :
    (x * 2 ^ off % 256 ^ w).toNat % 2 ^ (8 * k) = (x % 256 ^ k).toNat * 2 ^ off % 2 ^ (8 * k) := by
  have : (((x * 2 ^ off % 256 ^ w).toNat % 2 ^ (8 * k) : Nat) : Int) = (((x % 256 ^ k).toNat * 2 ^ off % 2 ^ (8 * k) : Nat) : Int) := by
    push_cast
    rw [emod_toNat, emod_toNat, ← Conv.pow256, Int.emod_emod_of_dvd _ (pow_dvd_pow _ h), Int.mul_emod (x % _),
      Int.emod_emod_of_dvd _ (Int.dvd_refl _), ← Int.mul_emod]
  exact_mod_cast this

theorem eval_lt (o : Alu) (ho : o ≠ .add ∧ o ≠ .sub) (w : Nat) (a b : Int) : 0 ≤ o.eval w a b ∧ o.eval w a b < 256 ^ w := by
  have h1 := emod_toNat_lt a w
  have h2 := emod_toNat_lt b w
  cases o with
  | add => exact (ho.1 rfl).elim
  | sub => exact (ho.2 rfl).elim
  | and => exact ⟨Int.natCast_nonneg _, cast_lt (Nat.and_lt_two_pow _ h2)⟩
  | or => exact ⟨Int.natCast_nonneg _, cast_lt (Nat.or_lt_two_pow h1 h2)⟩
  | xor => exact ⟨Int.natCast_nonneg _, cast_lt (Nat.xor_lt_two_pow h1 h2)⟩

theorem eval_emod (o : Alu) (ho : o ≠ .add ∧ o ≠ .sub) (w : Nat) (a b : Int) : o.eval w a b % 256 ^ w = o.eval w a b :=
  Int.emod_eq_of_lt (eval_lt o ho w a b).1 (eval_lt o ho w a b).2

theorem val_toNat {s : M} {t : Val} (ht : Target s t) (hp : ∀ r, t.src ≠ .place (.temp r)) :
    (({ t with field := none } : Val).value s % 256 ^ t.sz).toNat = (val (rd s.mem (t.src.object s) t.sz)).toNat := by
  have := value_low (s := s) (v := { t with field := none }) rfl ht.size
  simp only at this
  rw [this, bytes_object ht hp]

theorem insertField_sets {s : CM} {t : Val} {off width d : Nat} (enc) (ht : Target s.m t) (hf : t.field = some (off, width))
    (hk : s.skip = none) (hd : d = AX ∨ d = DX) :
    ∃ code, insertField t off width d = some code ∧ ∃ u, run enc s code = some u ∧ u = { s with m := u.m } ∧ Calm s.m u.m ∧
      u.m.reg d % 256 ^ t.sz = (((val (rd s.m.mem (t.src.object s.m) t.sz)).toNat &&& (2 ^ (8 * t.sz) - ((2 ^ width - 1) * 2 ^ off + 1)))
      ||| (((s.m.reg d % 256 ^ t.sz).toNat * 2 ^ off % 2 ^ (8 * t.sz)) &&& ((2 ^ width - 1) * 2 ^ off)) : Nat) := by
  have hz := isSize_le ht.size
  have hin := ht.inside off width hf
  have hd1 : d ≠ CX := by rcases hd with rfl | rfl <;> decide
  have hd2 : d ≠ R11 := by rcases hd with rfl | rfl <;> decide
  have hd3 : d ∈ scratch := by rcases hd with rfl | rfl <;> decide
  obtain ⟨c1, g1, t1, e1, s1⟩ := load_sets (d := CX) enc ht.unit (by decide) hk
  have k1 : t1.skip = none := s1.skip.trans hk
  obtain ⟨t2, e2, s2⟩ := bitwiseImm_sets enc .and (w := t.sz) (d := CX) (-1 - mask off width) k1 (by decide)
  have k2 : t2.skip = none := s2.skip.trans k1
  have h3 : ∃ t3, run enc t2 (if off = 0 then [] else [.conv (.shl t.sz d off)]) = some t3 ∧
      Sets t2 t3 d t.sz (t2.m.reg d * 2 ^ off) := by
    split_ifs with h0
    · refine ⟨t2, rfl, rfl, rfl, fun _ _ _ => rfl, by rw [h0]; simp⟩
    · exact run_shl k2
  obtain ⟨t3, e3, s3⟩ := h3
  have k3 : t3.skip = none := s3.skip.trans k2
  obtain ⟨t4, e4, s4⟩ := bitwiseImm_sets enc .and (w := t.sz) (d := d) (mask off width) k3 hd2
  have k4 : t4.skip = none := s4.skip.trans k3
  obtain ⟨t5, e5, s5⟩ := run_set (enc := enc) (s := t4) (i := .alu .or t.sz d CX) k4 (by simp) rfl
  refine ⟨_, by simp only [insertField, g1]; rfl, t5, run_two (run_two (run_two (run_two e1 e2) e3) e4) e5, ?_, ?_, ?_⟩
  · rw [s5.same, s4.same, s3.same, s2.same, s1.same]
  · exact (s1.calm (by decide)).trans <| (s2.calm (by decide)).trans <| (s3.calm hd3).trans <| (s4.calm hd3).trans (s5.calm hd3)
  · rw [s5.low]
    have hcx : t4.m.reg CX = t2.m.reg CX := by rw [s4.reg CX hd1.symm (by decide), s3.reg CX hd1.symm (by decide)]
    have a1 : t4.m.reg CX % 256 ^ t.sz = Alu.and.eval t.sz (({ t with field := none } : Val).value s.m) (-1 - mask off width) := by
      rw [hcx, s2.low, eval_congr s1.low rfl, eval_emod _ (by decide)]
    have hdd : t2.m.reg d = s.m.reg d := by rw [s2.reg d hd1 hd2, s1.reg d hd1 hd2]
    have a2 : t4.m.reg d % 256 ^ t.sz = Alu.and.eval t.sz (s.m.reg d * 2 ^ off) (mask off width) := by
      rw [s4.low, eval_congr s3.low rfl, hdd, eval_emod _ (by decide)]
    rw [eval_emod _ (by decide)]
    unfold Alu.eval
    rw [a1, a2]
    unfold Alu.eval
    simp only [Int.toNat_natCast]
    rw [val_toNat ht (field_place ht hf), not_mask_emod hin hz, mask_emod hin hz, Int.toNat_natCast, Nat.or_comm]
    congr 3
    have : (s.m.reg d * 2 ^ off) % 256 ^ t.sz = (((s.m.reg d % 256 ^ t.sz).toNat * 2 ^ off % 2 ^ (8 * t.sz) : Nat) : Int) := by
      push_cast
      rw [emod_toNat, ← Conv.pow256, Int.mul_emod (s.m.reg d % _), Int.emod_emod_of_dvd _ (Int.dvd_refl _), ← Int.mul_emod]
    rw [this, Int.toNat_natCast]

/-- A number that is in a register is stored. -/
theorem store_assigned {s t : CM} {v : Val} {r w : Nat} {c : Int} (enc) (hv : Target s.m v) (hw : v.sz ≤ w) (hk : s.skip = none)
    (h : Result s t r w c) (hr : r = AX ∨ r = DX) :
    ∃ code, store r v = some code ∧ ∃ u, run enc t code = some u ∧ Assigned s u v c := by
  have hc : Calm s.m t.m := ⟨h.mem, h.reg⟩
  have kt : t.skip = none := by rw [h.same]; exact hk
  have r1 : r < 17 := by rcases hr with rfl | rfl <;> decide
  have r2 : r ≠ R11 := by rcases hr with rfl | rfl <;> decide
  have hl := Conv.emod_pow_le hw h.low
  cases hf : v.field with
  | none =>
    obtain ⟨code, hcode, u, hu, hwr⟩ := storePlain_wrote enc (hv.calm hc) kt r1 r2
    exact ⟨code, by simp only [store, hf, hcode], u, hu, Wrote.assigned h.same hc hv hwr hf hl⟩
  | some f =>
    obtain ⟨off, width⟩ := f
    obtain ⟨c1, g1, t1, e1, s1, q1, low1⟩ := insertField_sets enc (hv.calm hc) hf kt hr
    have k1 : t1.skip = none := by rw [s1]; exact kt
    obtain ⟨c2, g2, u, e2, hwr⟩ := storePlain_wrote enc (hv.calm (hc.trans q1)) k1 r1 r2
    refine ⟨c1 ++ c2, by simp only [store, hf, g1, g2]; rfl, u, run_two e1 e2, ?_⟩
    refine Wrote.field (k := (t.m.reg r % 256 ^ v.sz).toNat) (by rw [s1, h.same]) (hc.trans q1) hv hwr hf ?_ ?_
    · rw [emod_toNat, hl]
      exact Int.emod_emod_of_dvd _ (by rw [Conv.pow256]; exact pow_dvd_pow _ (by have := (hv.field off width hf).2.2.2; omega))
    · rw [low1, object_calm hc hv.toOperand, hc.mem]

/-- With or without a target. -/
theorem storeTo_assigned {s t : CM} {v : Option Val} {r w : Nat} {c : Int} (enc) (hv : ∀ x ∈ v, Target s.m x ∧ x.sz ≤ w) (hk : s.skip = none)
    (h : Result s t r w c) (hr : r = AX ∨ r = DX) :
    ∃ code, storeTo r v = some code ∧ ∃ u, run enc t code = some u ∧ Outcome s u v r w c := by
  cases v with
  | none => exact ⟨[], rfl, t, rfl, h⟩
  | some x =>
    obtain ⟨h1, h2⟩ := hv x rfl
    exact store_assigned enc h1 h2 hk h hr

/-- A constant is stored. -/
theorem storeConst_assigned {s : CM} {t : Val} {n : Int} (enc) (ht : Target s.m t) (hk : s.skip = none)
    (hn : t.sz = 8 → -2147483648 ≤ n ∧ n ≤ 2147483647) :
    ∃ code, storeConst n t = some code ∧ ∃ u, run enc s code = some u ∧ Assigned s u t n := by
  cases hf : t.field with
  | some f =>
    obtain ⟨off, width⟩ := f
    have hz := isSize_le ht.size
    have hin := ht.inside off width hf
    have hp := field_place ht hf
    obtain ⟨c1, g1, t1, e1, s1⟩ := load_sets (d := CX) enc ht.unit (by decide) hk
    have k1 : t1.skip = none := s1.skip.trans hk
    obtain ⟨t2, e2, s2⟩ := bitwiseImm_sets enc .and (w := t.sz) (d := CX) (-1 - mask off width) k1 (by decide)
    have k2 : t2.skip = none := s2.skip.trans k1
    have hm : signed 8 (Alu.and.eval 8 (n * 2 ^ off) (mask off width)) % 256 ^ t.sz =
        (((n % 256 ^ t.sz).toNat * 2 ^ off % 2 ^ (8 * t.sz)) &&& ((2 ^ width - 1) * 2 ^ off) : Nat) := by
      rw [signed_emod hz]
      have b8 : off + width ≤ 8 * 8 := by omega
      have e8 : (mask off width % 256 ^ 8).toNat = (2 ^ width - 1) * 2 ^ off := by
        rw [mask_emod b8 (by omega), Int.toNat_natCast]
      unfold Alu.eval
      rw [e8]
      have hmlt := mask_lt hin
      have q1 : ((n * 2 ^ off % 256 ^ 8).toNat &&& (2 ^ width - 1) * 2 ^ off) < 2 ^ (8 * t.sz) := Nat.and_lt_two_pow _ hmlt
      rw [Int.emod_eq_of_lt (Int.natCast_nonneg _) (cast_lt q1)]
      congr 1
      apply Nat.eq_of_testBit_eq
      intro i
      simp only [Nat.testBit_and]
      by_cases hi : ((2 ^ width - 1) * 2 ^ off).testBit i
      · rw [hi, Bool.and_true, Bool.and_true]
        rw [mask_bits] at hi
        simp only [Bool.and_eq_true, decide_eq_true_eq] at hi
        have hx : ((n * 2 ^ off % 256 ^ 8).toNat % 2 ^ (8 * t.sz)) = (n % 256 ^ t.sz).toNat * 2 ^ off % 2 ^ (8 * t.sz) := by
          exact shifted_mod hz
        rw [← hx, Nat.testBit_mod_two_pow]
        simp [show i < 8 * t.sz by omega]
      · simp [hi]
    have h3 : ∃ t3, run enc t2 (if signed 8 (Alu.and.eval 8 (n * 2 ^ off) (mask off width)) = 0 then []
        else bitwiseImm .or t.sz CX (signed 8 (Alu.and.eval 8 (n * 2 ^ off) (mask off width)))) = some t3 ∧
        Sets t2 t3 CX t.sz (Alu.or.eval t.sz (t2.m.reg CX) (signed 8 (Alu.and.eval 8 (n * 2 ^ off) (mask off width)))) := by
      split_ifs with h0
      · refine ⟨t2, rfl, rfl, rfl, fun _ _ _ => rfl, ?_⟩
        rw [h0]
        unfold Alu.eval
        simp only [Int.zero_emod, Int.toNat_zero, Nat.or_zero, emod_toNat]
        exact (Int.emod_emod_of_dvd _ (Int.dvd_refl _)).symm
      · exact bitwiseImm_sets enc .or _ k2 (by decide)
    obtain ⟨t3, e3, s3⟩ := h3
    have k3 : t3.skip = none := s3.skip.trans k2
    have q : Calm s.m t3.m := (s1.calm (by decide)).trans <| (s2.calm (by decide)).trans (s3.calm (by decide))
    obtain ⟨c4, g4, u, e4, hwr⟩ := storePlain_wrote (r := CX) enc (ht.calm q) k3 (by decide) (by decide)
    refine ⟨_, by simp only [storeConst, hf, g1, g4]; rfl, u, run_two (run_two (run_two e1 e2) e3) e4, ?_⟩
    refine Wrote.field (k := (n % 256 ^ t.sz).toNat) (by rw [s3.same, s2.same, s1.same]) q ht hwr hf ?_ ?_
    · rw [emod_toNat]
      exact Int.emod_emod_of_dvd _ (by rw [Conv.pow256]; exact pow_dvd_pow _ (by have := (ht.field off width hf).2.2.2; omega))
    · rw [s3.low, eval_emod _ (by decide)]
      have a1 : t2.m.reg CX % 256 ^ t.sz = Alu.and.eval t.sz (({ t with field := none } : Val).value s.m) (-1 - mask off width) := by
        rw [s2.low, eval_congr s1.low rfl, eval_emod _ (by decide)]
      unfold Alu.eval
      rw [a1, ← val_toNat ht hp, ← not_mask_emod hin hz]
      simp only [Alu.eval, Int.toNat_natCast] at hm ⊢
      rw [hm, Int.toNat_natCast]
  | none =>
    cases hs : t.src with
    | imm n => exact (ht.noImm n hs).elim
    | addr p => exact (ht.noAddr p hs).elim
    | place p =>
      by_cases hx : ∃ x, p = .temp x
      · obtain ⟨x, rfl⟩ := hx
        have e : run enc s [.conv (.int (.movi t.sz x n))] = some { s with m := set s.m t.sz x n } := by
          simp [run, step, Conv.step, hk, Conv.exec, Abi.step, set]
        refine ⟨_, by simp only [storeConst, hf, hs], _, e, ?_⟩
        refine Wrote.assigned (u := s) rfl (Calm.refl _) ht (y := n) ⟨rfl, ?_, ?_, ?_, ?_⟩ hf rfl
        · intro y hy
          rw [hs] at hy
          simp only [Src.place.injEq, Place.temp.injEq] at hy
          subst hy
          exact ⟨set_low .., rfl⟩
        · intro y hy h8
          rw [hs] at hy
          simp only [Src.place.injEq, Place.temp.injEq] at hy
          subst hy
          rw [h8]
          exact set_full ..
        · intro y _ hy
          rw [hs] at hy
          exact set_other _ _ _ _ fun e => hy (by rw [e])
        · intro h; exact (h x hs).elim
      · have : ∃ a, p.ea = some a := by cases p <;> simp_all [Place.ea]
        obtain ⟨a, ha⟩ := this
        have hcode : storeConst n t = some [.conv (.int (.sti t.sz n a))] := by
          cases p <;> simp_all [storeConst, Place.ea]
        refine ⟨_, hcode, { s with m := s.m.write (s.m.ea a) (le t.sz n) },
          by simp [run, step, Conv.step, hk, Conv.exec, Abi.step, Abi.encoded_of hn], ?_⟩
        refine Wrote.assigned (u := s) rfl (Calm.refl _) ht (y := n) ⟨rfl, ?_, ?_, fun _ _ _ => rfl, ?_⟩ hf rfl
        · intro y hy; rw [hs] at hy; simp only [Src.place.injEq] at hy; exact (hx ⟨y, hy⟩).elim
        · intro y hy; rw [hs] at hy; simp only [Src.place.injEq] at hy; exact (hx ⟨y, hy⟩).elim
        · intro _
          rw [hs]
          simp only [Abi.write_mem, Src.object, Abi.ea_place ha]
    | deref p o =>
      obtain ⟨l, h1, h2, h3, h4⟩ := word_load (p := p) (s := s.m) (fun x hx => ht.pointer x o (by rw [hs, hx]))
      have e1 : run enc s (l.map fun i => .conv (.int i)) = some { s with m := Abi.run s.m l } := by
        have := run_conv enc (l.map .int) s
        rw [List.map_map] at this
        exact this.trans (by rw [Conv.run_ints enc l s hk])
      have e2 : run enc { s with m := Abi.run s.m l } [.conv (.int (.sti t.sz n (.base R11 o)))]
          = some { s with m := (Abi.run s.m l).write (p.word s.m + o) (le t.sz n) } := by
        simp [run, step, Conv.step, hk, Conv.exec, Abi.step, M.ea, h2, Abi.encoded_of hn]
      refine ⟨_, by simp only [storeConst, hf, hs, h1]; rfl, _, run_two e1 e2, ?_⟩
      refine Wrote.assigned (u := s) rfl (Calm.refl _) ht (y := n) ⟨rfl, ?_, ?_, ?_, ?_⟩ hf rfl
      · intro y hy; rw [hs] at hy; cases hy
      · intro y hy; rw [hs] at hy; cases hy
      · intro y hy _; exact h4 y hy
      · intro _; simp only [Abi.write_mem, h3, hs, Src.object]

end Verif.Arith
