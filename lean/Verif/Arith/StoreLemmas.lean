import Verif.Arith.LoadLemmas

/-!
# Stores
-/

namespace Verif.Arith

open Verif.Abi (M Ea Ins Src Place AX CX DX R11 BP le val sval rd wr isTempInt merged)
open Verif.Conv (CM Val IsSize CIns Opd bytes)

theorem set_low (s : M) (w d : Nat) (v : Int) : (set s w d v).reg d % 256 ^ w = v % 256 ^ w := by
  simp only [set, Abi.set_reg, if_true, merged]
  split_ifs
  · have h := Int.emod_add_mul_ediv (s.reg d) (256 ^ w)
    rw [show s.reg d - s.reg d % 256 ^ w + v % 256 ^ w = v % 256 ^ w + 256 ^ w * (s.reg d / 256 ^ w) by omega,
      Int.add_mul_emod_self_left]
    exact Int.emod_emod_of_dvd _ (Int.dvd_refl _)
  · exact Int.emod_emod_of_dvd _ (Int.dvd_refl _)

theorem set_other (s : M) (w d : Nat) (v : Int) {r : Nat} (h : r ≠ d) : (set s w d v).reg r = s.reg r := by
  simp [set, h]

theorem set_mem (s : M) (w d : Nat) (v : Int) : (set s w d v).mem = s.mem := rfl

theorem Sets.trans {s t u : CM} {d w x y} (h : Sets s t d w x) (g : Sets t u d w y) : Sets s u d w y where
  same := by rw [g.same, h.same]
  mem := g.mem.trans h.mem
  reg r h1 h2 := (g.reg r h1 h2).trans (h.reg r h1 h2)
  low := g.low

/-- One instruction that sets a register. -/
theorem set_full (s : M) (d : Nat) (v : Int) : 0 ≤ (set s 8 d v).reg d ∧ (set s 8 d v).reg d < 256 ^ 8 := by
  simp only [set, Abi.set_reg, if_true, merged, show decide (8 < 4) = false from rfl, Bool.false_eq_true, if_false]
  exact ⟨Int.emod_nonneg _ (by decide), Int.emod_lt_of_pos _ (by decide)⟩

theorem run_set {enc} {s : CM} {i : AIns} {w d : Nat} {v : Int} (hk : s.skip = none) (hi : ∀ c, i ≠ .conv c)
    (h : exec s.m i = some (set s.m w d v)) : ∃ t, run enc s [i] = some t ∧ Sets s t d w v :=
  ⟨_, run_one hk hi h, rfl, set_mem .., fun _ h1 _ => set_other _ _ _ _ h1, set_low ..⟩

theorem eval_congr {o : Alu} {w : Nat} {a b a' b' : Int} (h : a % 256 ^ w = a' % 256 ^ w) (g : b % 256 ^ w = b' % 256 ^ w) :
    o.eval w a b % 256 ^ w = o.eval w a' b' % 256 ^ w := by
  cases o with
  | add => simp only [Alu.eval]; rw [Int.add_emod, h, g, ← Int.add_emod]
  | sub => simp only [Alu.eval]; rw [Int.sub_emod, h, g, ← Int.sub_emod]
  | and => simp only [Alu.eval, h, g]
  | or => simp only [Alu.eval, h, g]
  | xor => simp only [Alu.eval, h, g]

theorem bitwiseImm_sets {s : CM} (enc) (o : Alu) {w d : Nat} (v : Int) (hk : s.skip = none) (hd : d ≠ R11) :
    ∃ t, run enc s (bitwiseImm o w d v) = some t ∧ Sets s t d w (o.eval w (s.m.reg d) v) := by
  unfold bitwiseImm
  split_ifs with h
  · obtain ⟨rfl, _⟩ := h
    have e : run enc s [.conv (.int (.movi 8 R11 v)), .alu o 8 d R11]
        = some { s with m := set (Abi.step s.m (.movi 8 R11 v)) 8 d (o.eval 8 (s.m.reg d) (v % 256 ^ 8)) } := by
      simp [run, step, Conv.step, Conv.exec, hk, exec, Abi.step, hd, merged]
    refine ⟨_, e, rfl, rfl, fun r h1 h2 => ?_, ?_⟩
    · simp only [set_other _ _ _ _ h1, Abi.step, Abi.set_reg, if_neg h2]
    · simp only [set_low]
      exact eval_congr rfl (Int.emod_emod_of_dvd _ (Int.dvd_refl _))
  · exact run_set hk (by simp) (by simp only [exec, Abi.encoded_of (show w = 8 → -2147483648 ≤ v ∧ v ≤ 2147483647 from fun e => by omega)])

/-! ### Bits -/

theorem mask_bits {off width i : Nat} : ((2 ^ width - 1) * 2 ^ off).testBit i = (decide (off ≤ i) && decide (i < off + width)) := by
  rw [← Nat.shiftLeft_eq, Nat.testBit_shiftLeft, Nat.testBit_two_pow_sub_one]
  by_cases h : off ≤ i
  · have : (i - off < width) ↔ (i < off + width) := by omega
    simp [h, this]
  · simp [h]

theorem mask_lt {off width W : Nat} (h : off + width ≤ W) : (2 ^ width - 1) * 2 ^ off < 2 ^ W := by
  have h1 : (2 ^ width - 1) * 2 ^ off < 2 ^ width * 2 ^ off :=
    Nat.mul_lt_mul_of_pos_right (by have := Nat.two_pow_pos width; omega) (Nat.two_pow_pos off)
  rw [← Nat.pow_add, Nat.add_comm] at h1
  exact lt_of_lt_of_le h1 (Nat.pow_le_pow_right (by omega) h)

/-- The bits of a field are those of `k`, the others those of `u`. -/
theorem insert_bits {u k off width W : Nat} (h : off + width ≤ W) (hu : u < 2 ^ W) :
    let m := (2 ^ width - 1) * 2 ^ off
    let y := (u &&& (2 ^ W - (m + 1))) ||| ((k * 2 ^ off % 2 ^ W) &&& m)
    y / 2 ^ off % 2 ^ width = k % 2 ^ width ∧ y % 2 ^ off = u % 2 ^ off ∧ y / 2 ^ (off + width) = u / 2 ^ (off + width) := by
  intro m y
  have hy : ∀ i, y.testBit i = if off ≤ i ∧ i < off + width then k.testBit (i - off) else u.testBit i := by
    intro i
    have h1 : (k * 2 ^ off % 2 ^ W).testBit i = (decide (i < W) && (decide (off ≤ i) && k.testBit (i - off))) := by
      rw [Nat.testBit_mod_two_pow, ← Nat.shiftLeft_eq, Nat.testBit_shiftLeft]
    have h2 : (2 ^ W - (m + 1)).testBit i = (decide (i < W) && !(decide (off ≤ i) && decide (i < off + width))) := by
      rw [Nat.testBit_two_pow_sub_succ (mask_lt h), mask_bits]
    have h3 : i ≥ W → u.testBit i = false := fun hi => Nat.testBit_lt_two_pow (lt_of_lt_of_le hu (Nat.pow_le_pow_right (by omega) hi))
    simp only [y, Nat.testBit_or, Nat.testBit_and, h1, h2, m, mask_bits]
    rw [show ∀ (p : Prop) [Decidable p] (a b : Bool), (if p then a else b) = bif decide p then a else b from
      fun p _ a b => by by_cases h : p <;> simp [h]]
    by_cases a : off ≤ i <;> by_cases b : i < off + width <;> by_cases c : i < W <;>
      first
        | (exfalso; omega)
        | (have h4 := h3 (by omega); simp [decide_eq_true_iff, a, b, c, h4])
        | simp [a, b, c]
  refine ⟨?_, ?_, ?_⟩ <;> apply Nat.eq_of_testBit_eq <;> intro i
  · simp only [Nat.testBit_mod_two_pow, Nat.testBit_div_two_pow, hy]
    by_cases a : i < width
    · rw [if_pos (by omega)]; simp
    · simp [a]
  · simp only [Nat.testBit_mod_two_pow, hy]
    by_cases a : i < off
    · rw [if_neg (by omega)]
    · simp [a]
  · simp only [Nat.testBit_div_two_pow, hy]
    rw [if_neg (by omega)]

theorem signed_emod {x : Int} {k : Nat} (hk : k ≤ 8) : signed 8 x % 256 ^ k = x % 256 ^ k := by
  unfold signed
  split_ifs
  · rfl
  · obtain ⟨d, hd⟩ : ∃ d, 8 = k + d := ⟨8 - k, by omega⟩
    rw [hd, pow_add, Int.mul_comm, show x - 256 ^ d * 256 ^ k = x + (-(256 ^ d)) * 256 ^ k by
      rw [Int.neg_mul]; rfl]
    exact Int.add_mul_emod_self_right ..

theorem mask_emod {off width w : Nat} (h : off + width ≤ 8 * w) (hw : w ≤ 8) :
    mask off width % 256 ^ w = ((2 ^ width - 1) * 2 ^ off : Nat) := by
  unfold mask
  rw [signed_emod hw, Int.emod_emod_of_dvd _ (pow_dvd_pow _ hw)]
  have e : ((2 : Int) ^ width - 1) * 2 ^ off = ((2 ^ width - 1) * 2 ^ off : Nat) := by
    rw [Nat.cast_mul, Nat.cast_sub (Nat.one_le_two_pow)]; push_cast; rfl
  rw [e]
  refine Int.emod_eq_of_lt (Int.natCast_nonneg _) ?_
  rw [Conv.pow256]
  exact_mod_cast mask_lt h

theorem not_mask_emod {off width w : Nat} (h : off + width ≤ 8 * w) (hw : w ≤ 8) :
    ((-1 - mask off width) % 256 ^ w).toNat = 2 ^ (8 * w) - ((2 ^ width - 1) * 2 ^ off + 1) := by
  have h1 := mask_emod h hw
  have h2 := mask_lt h
  have e : (-1 - mask off width) % 256 ^ w = ((2 ^ (8 * w) - ((2 ^ width - 1) * 2 ^ off + 1) : Nat) : Int) := by
    rw [Int.sub_emod, h1, ← Int.emod_emod_of_dvd (_ - _) (Int.dvd_refl _)]
    rw [Nat.cast_sub (by omega)]
    have hp : (256 : Int) ^ w = ((2 ^ (8 * w) : Nat) : Int) := by rw [Conv.pow256]; push_cast; rfl
    rw [hp]
    generalize (2 ^ width - 1) * 2 ^ off = m at *
    generalize (2 ^ (8 * w) : Nat) = P at *
    have : ((-1 : Int) % (P : Int)) = P - 1 := by
      rw [← Int.add_emod_right, Int.emod_eq_of_lt (by omega) (by omega)]; omega
    rw [this, Int.emod_emod_of_dvd _ (Int.dvd_refl _)]
    push_cast
    rw [Int.emod_eq_of_lt (by omega) (by omega)]
    omega
  rw [e]; rfl

/-! ### Plain stores -/

/-- The number `y` has been stored, nothing else but `%r11` has changed. -/
structure Wrote (s u : CM) (t : Val) (y : Int) : Prop where
  same : u = { s with m := u.m }
  temp : ∀ x, t.src = .place (.temp x) → u.m.reg x % 256 ^ t.sz = y % 256 ^ t.sz ∧ u.m.mem = s.m.mem
  full : ∀ x, t.src = .place (.temp x) → t.sz = 8 → 0 ≤ u.m.reg x ∧ u.m.reg x < 256 ^ 8
  reg : ∀ x, x ≠ R11 → t.src ≠ .place (.temp x) → u.m.reg x = s.m.reg x
  mem : (∀ x, t.src ≠ .place (.temp x)) → u.m.mem = wr s.m.mem (t.src.object s.m) (le t.sz y)

theorem wr_other {m : Abi.Mem} {a : Int} {bs : List UInt8} {x : Int} (h : x < a ∨ a + bs.length ≤ x) : wr m a bs x = m x := by
  exact Abi.wr_out h

theorem rd_wr (m : Abi.Mem) (a : Int) (bs : List UInt8) : rd (wr m a bs) a bs.length = bs := by
  apply List.ext_getElem?
  intro j
  by_cases hj : j < bs.length
  · rw [Abi.rd_get hj]
    rw [List.getElem?_eq_getElem hj]
    congr 1
    exact Abi.wr_in (List.getElem?_eq_getElem hj)
  · rw [List.getElem?_eq_none (by simp; omega), List.getElem?_eq_none (by omega)]

theorem word_load {p : Place} {s : M} (hp : ∀ r, p = .temp r → isTempInt r ∧ 0 ≤ s.reg r ∧ s.reg r < 256 ^ 8) :
    ∃ l, Abi.loadInt 8 false (.place p) R11 8 = some l ∧ (Abi.run s l).reg R11 = p.word s ∧ (Abi.run s l).mem = s.mem ∧
      ∀ x, x ≠ R11 → (Abi.run s l).reg x = s.reg x := by
  by_cases ht : ∃ r, p = .temp r
  · obtain ⟨r, rfl⟩ := ht
    obtain ⟨h1, h2, h3⟩ := hp r rfl
    have hr := temp_lt h1
    refine ⟨[.mov 8 R11 r], by simp [Abi.loadInt, Abi.emitLoad, Abi.Op.fromReg, show ¬ 17 ≤ r by omega], ?_, rfl, fun x hx => ?_⟩
    · rw [Abi.word_temp h2 h3]
      simp [Abi.run, Abi.step, merged, R11]
      exact Int.emod_eq_of_lt h2 h3
    · simp [Abi.run, Abi.step, hx]
  · have : ∃ a, p.ea = some a := by cases p <;> simp_all [Place.ea]
    obtain ⟨a, ha⟩ := this
    refine ⟨[.ld 8 R11 a], ?_, ?_, rfl, fun x hx => ?_⟩
    · cases p <;> simp_all [Abi.loadInt, Abi.emitLoad, Place.ea, Abi.Op.fromMem]
    · simp only [Abi.run, List.foldl, Abi.step, Abi.set_reg, if_true, merged, show decide (8 < 4) = false from rfl, Bool.false_eq_true, if_false]
      rw [Abi.word_place ha, Abi.ea_place ha, Abi.val_rd_emod]
    · simp [Abi.run, Abi.step, hx]

theorem storePlain_wrote {s : CM} {t : Val} {r : Nat} (enc) (ht : Target s.m t) (hk : s.skip = none) (hr : r < 17) (hr' : r ≠ R11) :
    ∃ code, storePlain t r = some code ∧ ∃ u, run enc s code = some u ∧ Wrote s u t (s.m.reg r) := by
  have key : ∀ l : List Ins, Abi.store t.sz false r t.src = some l → Wrote s { s with m := Abi.run s.m l } t (s.m.reg r) →
      ∃ code, storePlain t r = some code ∧ ∃ u, run enc s code = some u ∧ Wrote s u t (s.m.reg r) := by
    intro l hl hw
    refine ⟨l.map fun i => .conv (.int i), by simp [storePlain, hl], _, ?_, hw⟩
    have := run_conv enc (l.map .int) s
    rw [List.map_map] at this
    exact this.trans (by rw [Conv.run_ints enc l s hk])
  cases hs : t.src with
  | imm n => exact (ht.noImm n hs).elim
  | addr p => exact (ht.noAddr p hs).elim
  | place p =>
    by_cases hx : ∃ x, p = .temp x
    · obtain ⟨x, rfl⟩ := hx
      refine key [.mov t.sz x r] (by rw [hs]; simp [Abi.store, Abi.Op.fromReg, show ¬ 17 ≤ r by omega]) ⟨rfl, ?_, ?_, ?_, ?_⟩
      · intro y hy
        rw [hs] at hy
        simp only [Src.place.injEq, Place.temp.injEq] at hy
        subst hy
        refine ⟨?_, rfl⟩
        have h1 := temp_lt (ht.temp x hs).1
        have e : (Abi.run s.m [.mov t.sz x r]) = set s.m t.sz x (s.m.reg r) := by
          simp only [Abi.run, List.foldl, Abi.step, set, show decide (17 ≤ x) = false by simp; omega, Bool.or_false]
        rw [e, set_low]
      · intro y hy h8
        rw [hs] at hy
        simp only [Src.place.injEq, Place.temp.injEq] at hy
        subst hy
        have h1 := temp_lt (ht.temp x hs).1
        have e : (Abi.run s.m [.mov t.sz x r]) = set s.m t.sz x (s.m.reg r) := by
          simp only [Abi.run, List.foldl, Abi.step, set, show decide (17 ≤ x) = false by simp; omega, Bool.or_false]
        rw [e, h8]
        exact set_full ..
      · intro y _ hy
        rw [hs] at hy
        have : y ≠ x := fun e => hy (by rw [e])
        simp [Abi.run, Abi.step, this]
      · intro h; exact (h x hs).elim
    · have : ∃ a, p.ea = some a := by cases p <;> simp_all [Place.ea]
      obtain ⟨a, ha⟩ := this
      refine key [.st t.sz r a] ?_ ⟨rfl, ?_, ?_, ?_, ?_⟩
      · rw [hs]; cases p <;> simp_all [Abi.store, Place.ea]
      · intro y hy; rw [hs] at hy; simp only [Src.place.injEq] at hy; exact (hx ⟨y, hy⟩).elim
      · intro y hy; rw [hs] at hy; simp only [Src.place.injEq] at hy; exact (hx ⟨y, hy⟩).elim
      · intro y _ _; rfl
      · intro _
        rw [hs]
        simp only [Abi.run, List.foldl, Abi.step, Abi.write_mem, Src.object, Abi.ea_place ha]
  | deref p o =>
    obtain ⟨l, h1, h2, h3, h4⟩ := word_load (p := p) (s := s.m) (fun x hx => ht.pointer x o (by rw [hs, hx]))
    refine key (l ++ [.st t.sz r (.base R11 o)]) (by rw [hs]; simp [Abi.store, h1]) ⟨rfl, ?_, ?_, ?_, ?_⟩
    · intro y hy; rw [hs] at hy; cases hy
    · intro y hy; rw [hs] at hy; cases hy
    · intro y hy _
      simp only [Abi.run_append, Abi.run_cons, Abi.run_nil, Abi.step, Abi.write_reg]
      exact h4 y hy
    · intro _
      simp only [Abi.run_append, Abi.run_cons, Abi.run_nil, Abi.step, Abi.write_mem, h3, h4 r hr', M.ea, h2, hs, Src.object]

/-- A register after `s`, then stored. -/
theorem Wrote.assigned {s u v : CM} {t : Val} {y c : Int} (hs : u = { s with m := u.m }) (hc : Calm s.m u.m) (ht : Target s.m t)
    (h : Wrote u v t y) (hf : t.field = none) (hy : y % 256 ^ t.sz = c % 256 ^ t.sz) : Assigned s v t c where
  same := by rw [h.same, hs]
  temp x hx := by
    obtain ⟨h1, h2⟩ := h.temp x hx
    exact ⟨h1.trans hy, h2.trans hc.mem⟩
  full := h.full
  reg x hx hx' := by
    rw [h.reg x (fun e => hx (by rw [e]; decide)) hx', hc.reg x hx]
  plain h1 _ := by
    rw [h.mem h1, object_calm hc ht.toOperand]
    have := rd_wr u.m.mem (t.src.object s.m) (le t.sz y)
    rw [Abi.le_length] at this
    rw [this]
    exact (Conv.le_eq_iff _ _ _).mpr hy
  field off width h1 := by rw [hf] at h1; cases h1
  mem x hx := by
    by_cases h1 : ∃ r, t.src = .place (.temp r)
    · obtain ⟨r, hr⟩ := h1
      rw [(h.temp r hr).2, hc.mem]
    · rw [h.mem (fun r hr => h1 ⟨r, hr⟩), object_calm hc ht.toOperand, wr_other (by rw [Abi.le_length]; exact hx), hc.mem]

theorem field_place {s : M} {t : Val} (ht : Target s t) {f} (hf : t.field = some f) : ∀ r, t.src ≠ .place (.temp r) := by
  intro r hr
  have := (ht.temp r hr).2
  rw [hf] at this
  cases this

theorem bytes_object {s : M} {t : Val} (ht : Target s t) (h : ∀ r, t.src ≠ .place (.temp r)) (n : Nat) :
    bytes s t.src n = rd s.mem (t.src.object s) n := by
  cases hs : t.src with
  | imm n => exact (ht.noImm n hs).elim
  | addr p => exact (ht.noAddr p hs).elim
  | place p =>
    have : ∃ a, p.ea = some a := by
      cases p with
      | temp r => exact (h r hs).elim
      | _ => simp [Place.ea]
    obtain ⟨a, ha⟩ := this
    rw [Conv.bytes_place ha, Abi.ea_place ha]; rfl
  | deref p o => exact Conv.bytes_deref ..

/-- The storage unit with the bits of the field replaced. -/
theorem Wrote.field {s u v : CM} {t : Val} {off width : Nat} {k : Nat} {c : Int} (hs : u = { s with m := u.m })
    (hc : Calm s.m u.m) (ht : Target s.m t) {y : Int} (h : Wrote u v t y) (hf : t.field = some (off, width))
    (hk : (k : Int) % 2 ^ width = c % 2 ^ width)
    (hy : y % 256 ^ t.sz = (((val (rd s.m.mem (t.src.object s.m) t.sz)).toNat &&& (2 ^ (8 * t.sz) - ((2 ^ width - 1) * 2 ^ off + 1)))
      ||| ((k * 2 ^ off % 2 ^ (8 * t.sz)) &&& ((2 ^ width - 1) * 2 ^ off)) : Nat)) : Assigned s v t c := by
  have hp := field_place ht hf
  have e : val (rd v.m.mem (t.src.object s.m) t.sz) = (((val (rd s.m.mem (t.src.object s.m) t.sz)).toNat &&& (2 ^ (8 * t.sz) - ((2 ^ width - 1) * 2 ^ off + 1)))
      ||| ((k * 2 ^ off % 2 ^ (8 * t.sz)) &&& ((2 ^ width - 1) * 2 ^ off)) : Nat) := by
    rw [h.mem hp, object_calm hc ht.toOperand]
    have := rd_wr u.m.mem (t.src.object s.m) (le t.sz y)
    rw [Abi.le_length] at this
    rw [this, Abi.val_le_emod, hy]
  refine ⟨by rw [h.same, hs], fun x hx => (hp x hx).elim, fun x hx => (hp x hx).elim, ?_, ?_, ?_, ?_⟩
  · intro x hx hx'
    rw [h.reg x (fun e => hx (by rw [e]; decide)) hx', hc.reg x hx]
  · intro _ h1; rw [hf] at h1; cases h1
  · intro o' w' h1
    rw [hf] at h1
    simp only [Option.some.injEq, Prod.mk.injEq] at h1
    obtain ⟨rfl, rfl⟩ := h1
    have h0 := Abi.val_nonneg (rd s.m.mem (t.src.object s.m) t.sz)
    have h2 := Abi.val_lt (rd s.m.mem (t.src.object s.m) t.sz)
    rw [Abi.rd_length, Conv.pow256] at h2
    rw [e]
    generalize val (rd s.m.mem (t.src.object s.m) t.sz) = U at *
    obtain ⟨n, rfl⟩ := Int.eq_ofNat_of_zero_le h0
    have h3 : n < 2 ^ (8 * t.sz) := by exact_mod_cast h2
    obtain ⟨a1, a2, a3⟩ := insert_bits (k := k) (ht.inside off width hf) h3
    simp only [Int.toNat_natCast]
    rw [← hk]
    exact ⟨by exact_mod_cast a1, by exact_mod_cast a2, by exact_mod_cast a3⟩
  · intro x hx
    rw [h.mem hp, object_calm hc ht.toOperand, wr_other (by rw [Abi.le_length]; exact hx), hc.mem]

end Verif.Arith
