import Verif.Arith.OpLemmas

/-!
# Lemmas for C87
-/

namespace Verif.Arith

open Verif.Abi (M Ea Ins Src Place AX CX DX R11 BP le val sval rd wr isTempInt merged)
open Verif.Conv (CM Val IsSize CIns Opd bytes)

theorem same_src {a b : Val} (h : sameOperand a b = true) : a.src = b.src ∧ a.field = b.field := by
  unfold sameOperand at h
  split at h
  · cases h
  · simpa using h

/-- The sum in place. -/
theorem addTo_assigned {s : CM} {tv x o : Val} {w : Nat} (enc) (ht : Target s.m tv) (hx : Operand s.m x) (ho : Operand s.m o)
    (hw : w = 4 ∨ w = 8) (wt : tv.sz = w) (wx : x.sz = w) (wo : o.sz = w) (hk : s.skip = none) (hd : direct tv = true)
    (hsame : sameOperand tv x = true) (hno : ∀ r, tv.src = .place (.temp r) → ∀ n, o.src ≠ .imm n) :
    ∃ code, addTo w tv o = some code ∧ ∃ u, run enc s code = some u ∧ Assigned s u tv (x.value s.m + o.value s.m) := by
  obtain ⟨hs, hf⟩ := same_src hsame
  unfold direct at hd
  split at hd
  case h_2 => cases hd
  rename_i p hp
  have htf : tv.field = none := by simpa using hd
  rw [htf] at hf
  rw [hp] at hs
  have ld : ∃ c, loadInt o AX w = some c ∧ ∃ t, run enc s c = some t ∧ Sets s t AX w (o.value s.m) := by
    rw [loadInt_load wo hw]
    have := load_sets (d := AX) enc ho (by decide) hk
    rw [wo] at this
    exact this
  by_cases ht' : ∃ r, p = .temp r
  · obtain ⟨r, rfl⟩ := ht'
    have hc : constant o = none := by
      cases h : constant o with
      | none => rfl
      | some n => exact (hno r hp n (constant_src h)).elim
    obtain ⟨c, g, t, e, h1⟩ := ld
    have hrt := (ht.temp r hp).1
    have hra : r ≠ AX := fun e => temp_scratch hrt (by rw [e]; decide)
    obtain ⟨u, e2, h2⟩ := run_set (enc := enc) (i := .alu .add w r AX) (h1.skip.trans hk) (by simp) rfl
    have hfull : w = 8 → 0 ≤ u.m.reg r ∧ u.m.reg r < 256 ^ 8 := by
      rintro rfl
      have e3 := run_one (enc := enc) (i := .alu .add 8 r AX) (h1.skip.trans hk) (by simp) rfl
      rw [e2] at e3
      cases e3
      exact set_full ..
    refine ⟨_, by simp only [addTo, hc, hp, g]; rfl, u, run_two e e2, ?_⟩
    have hq := h1.calm (by decide)
    refine ⟨by rw [h2.same, h1.same], ?_, ?_, ?_, ?_, ?_, ?_⟩
    · intro y hy
      rw [hp] at hy
      simp only [Src.place.injEq, Place.temp.injEq] at hy
      subst hy
      refine ⟨?_, h2.mem.trans h1.mem⟩
      rw [wt, h2.low]
      unfold Alu.eval
      have hxl := temp_low hx hs.symm
      rw [wx] at hxl
      rw [Int.add_emod, h1.low, hq.reg r (temp_scratch hrt), hxl, ← Int.add_emod]
    · intro y hy h8
      rw [hp] at hy
      simp only [Src.place.injEq, Place.temp.injEq] at hy
      subst hy
      exact hfull (wt.symm.trans h8)
    · intro y hy hy'
      have hyr : y ≠ r := fun e => hy' (by rw [hp, e])
      rw [h2.reg y hyr (fun e => hy (by rw [e]; decide)), hq.reg y hy]
    · intro h; exact (h r hp).elim
    · intro off width h; rw [htf] at h; cases h
    · intro y _; rw [h2.mem, h1.mem]
  · have : ∃ a, p.ea = some a := by cases p <;> simp_all [Place.ea]
    obtain ⟨a, ha⟩ := this
    have hobj : tv.src.object s.m = s.m.ea a := by rw [hp, Abi.ea_place ha]; rfl
    have hxa := place_low (Calm.refl s.m) hx hf.symm hs.symm ha
    rw [wx] at hxa
    -- once the other operand is known
    have fin : ∀ {t : CM} {b : Int}, t = { s with m := t.m } → Calm s.m t.m → b % 256 ^ w = o.value s.m % 256 ^ w →
        Assigned s { t with m := t.m.write (t.m.ea a) (le w (val (rd t.m.mem (t.m.ea a) w) + b)) } tv (x.value s.m + o.value s.m) := by
      intro t b hs' hq hb
      have hea : t.m.ea a = s.m.ea a := by
        have h1 := Abi.ea_place (s := t.m) ha
        have h2 := Abi.ea_place (s := s.m) ha
        rw [h1, h2, address_calm hq]
      have hval : (val (rd t.m.mem (t.m.ea a) w) + b) % 256 ^ w = (x.value s.m + o.value s.m) % 256 ^ w := by
        rw [hea, hq.mem, hxa, Int.add_emod, hb, Int.emod_emod_of_dvd _ (Int.dvd_refl _), ← Int.add_emod]
      refine Wrote.assigned (u := t) hs' hq ht (y := val (rd t.m.mem (t.m.ea a) w) + b) ⟨rfl, ?_, ?_, fun _ _ _ => rfl, ?_⟩ htf ?_
      · intro y hy; rw [hp] at hy; simp only [Src.place.injEq] at hy; exact (ht' ⟨y, hy⟩).elim
      · intro y hy; rw [hp] at hy; simp only [Src.place.injEq] at hy; exact (ht' ⟨y, hy⟩).elim
      · intro _
        rw [object_calm hq ht.toOperand, hobj, wt]
        simp only [Abi.write_mem, hea]
      · rw [wt]; exact hval
    cases hc : constant o with
    | some n =>
      have hcode : addTo w tv o = some [.alusi .add w a n] := by
        cases p with
        | temp r => exact (ht' ⟨r, rfl⟩).elim
        | _ => simp only [addTo, hc, hp, ha]; rfl
      refine ⟨_, hcode, _, run_one hk (by simp) (by simp only [exec, Abi.encoded_of (fun e => constant_range hc (wo.trans e))]; rfl), ?_⟩
      have := constant_low ho (constant_src hc)
      rw [wo] at this
      exact fin rfl (Calm.refl _) this.symm
    | none =>
      obtain ⟨c, g, t, e, h1⟩ := ld
      have hcode : addTo w tv o = some (c ++ [.alus .add w a AX]) := by
        cases p with
        | temp r => exact (ht' ⟨r, rfl⟩).elim
        | _ => simp only [addTo, hc, hp, ha, g]; rfl
      have kt : t.skip = none := h1.skip.trans hk
      exact ⟨_, hcode, _, run_two e (run_one kt (by simp) rfl), fin h1.same (h1.calm (by decide)) h1.low⟩

theorem eval_and {w : Nat} {sg : Bool} {a b : Int} {o : Alu} {k : Nat} (ho : o.eval w a b = (k : Int)) :
    o.eval w a b % 256 ^ w = number w sg k % 256 ^ w := by
  rw [ho]
  unfold number
  split_ifs
  · rw [← Conv.pow256, Int.sub_emod, Int.emod_self, Int.sub_zero, Int.emod_emod_of_dvd _ (Int.dvd_refl _)]
  · rfl

theorem bits_eq (w : Nat) (a : Int) : bits w a = (a % 256 ^ w).toNat := by
  unfold bits; rw [Conv.pow256]

theorem Assigned.congr {s u : CM} {x : Val} {a c : Int} (ht : Target s.m x) (h : Assigned s u x a) (e : a % 256 ^ x.sz = c % 256 ^ x.sz) :
    Assigned s u x c where
  same := h.same
  temp y hy := by
    obtain ⟨a1, a2⟩ := h.temp y hy
    exact ⟨a1.trans e, a2⟩
  full := h.full
  reg := h.reg
  plain h1 h2 := by
    rw [h.plain h1 h2]
    exact (Conv.le_eq_iff _ _ _).mpr e
  field off width h1 := by
    obtain ⟨a1, a2⟩ := h.field off width h1
    refine ⟨a1.trans ?_, a2⟩
    have hd : (2 : Int) ^ width ∣ 256 ^ x.sz := by
      rw [Conv.pow256]; exact pow_dvd_pow _ (ht.field off width h1).2.2.2
    rw [← Int.emod_emod_of_dvd a hd, e, Int.emod_emod_of_dvd _ hd]
  mem := h.mem

/-- Two operands. -/
theorem binary_outcome {s : CM} {op : Op} {t : Option Val} {w : Nat} {sg : Bool} {l r : Val} {c : Int} (enc)
    (hk : s.skip = none) (hl : Operand s.m l) (hr : Operand s.m r) (hw : w = 4 ∨ w = 8) (wl : l.sz = w) (sl : l.signed = sg)
    (hrs : op = .shl ∨ op = .shr ∨ (r.sz = w ∧ r.signed = sg)) (ht : ∀ x ∈ t, Target s.m x ∧ x.sz = w)
    (hmul : op = .mul → l.field ≠ none → ∀ p, l.src ≠ .place p)
    (hadd : op = .add → ∀ x ∈ t, ∀ q, x.src = .place (.temp q) →
      (l.src = .place (.temp q) → ∀ n, r.src ≠ .imm n) ∧ (r.src = .place (.temp q) → ∀ n, l.src ≠ .imm n))
    (hm : meaning w sg (l.value s.m) (r.value s.m) op = some c) :
    ∃ code, binary op t w sg l r = some code ∧ ∃ u, run enc s code = some u ∧ Outcome s u t op.result w c := by
  have hw0 : 0 < w := by omega
  have ht' : ∀ x ∈ t, Target s.m x ∧ x.sz ≤ w := fun x hx => ⟨(ht x hx).1, le_of_eq (ht x hx).2⟩
  have swap : ∀ {u : CM} {q : Nat} {a b : Int}, a % 256 ^ w = b % 256 ^ w → Result s u q w a → Result s u q w b :=
    fun e h => ⟨h.same, h.low.trans e, h.reg, h.mem⟩
  have bit : ∀ {o : Alu} {k : Nat}, (o = .and ∨ o = .or ∨ o = .xor) → r.sz = w → o.eval w (l.value s.m) (r.value s.m) = (k : Int) →
      number w sg k = c → ∃ code, bitwise t o l r = some code ∧ ∃ u, run enc s code = some u ∧ Outcome s u t AX w c := by
    intro o k ho wr hk' hc
    obtain ⟨body, g, v, e, h⟩ := bitwise_result ho enc hl hr wl wr hk
    have := eval_and (sg := sg) hk'
    rw [hc] at this
    obtain ⟨st, g2, u, e2, h2⟩ := finish e (swap this h) (.inl rfl) ht' hk
    exact ⟨_, by simp only [bitwise, wl, wr, ne_eq, not_true_eq_false, if_false, g, g2]; rfl, u, e2, h2⟩
  cases op with
  | add =>
    simp only [reduceCtorEq, false_or] at hrs
    obtain ⟨wr, sr⟩ := hrs
    have he := result_emod hm
    obtain ⟨body, g, v, e, h⟩ := sum_result enc hl hr hw wl wr hk
    unfold binary add
    cases t with
    | none => exact ⟨body, g, v, e, swap he h⟩
    | some tv =>
      obtain ⟨h1, h2⟩ := ht tv rfl
      simp only
      split_ifs with c1 c2
      · obtain ⟨d, hs⟩ := c1
        obtain ⟨code, g, u, e, h⟩ := addTo_assigned enc h1 hr hl hw h2 wr wl hk d hs fun q hq n =>
          (hadd rfl tv rfl q hq).2 (by rw [← (same_src hs).1, hq]) n
        refine ⟨code, g, u, e, Assigned.congr h1 h ?_⟩
        rw [h2, Int.add_comm]; exact he
      · obtain ⟨d, hs⟩ := c2
        obtain ⟨code, g, u, e, h⟩ := addTo_assigned enc h1 hl hr hw h2 wl wr hk d hs fun q hq n =>
          (hadd rfl tv rfl q hq).1 (by rw [← (same_src hs).1, hq]) n
        refine ⟨code, g, u, e, Assigned.congr h1 h ?_⟩
        rw [h2]; exact he
      · obtain ⟨st, g2, u, e2, h2⟩ := store_assigned enc h1 (le_of_eq h2) hk (swap he h) (.inl rfl)
        exact ⟨_, by simp only [g, g2]; rfl, u, run_two e e2, h2⟩
  | sub =>
    simp only [reduceCtorEq, false_or] at hrs
    obtain ⟨wr, sr⟩ := hrs
    obtain ⟨c1, c2, g1, g2, v, e, hs, hq, ha, hb⟩ := load_two enc hl hr hk
    have kt : v.skip = none := by rw [hs]; exact hk
    obtain ⟨v', e2, s2⟩ := run_set (enc := enc) (i := .alu .sub w AX CX) kt (by simp) rfl
    rw [wl] at ha
    rw [wr] at hb
    obtain ⟨st, g3, u, e3, h3⟩ := finish (run_two e e2) (swap (result_emod hm) (alu_result hs hq s2 ha hb)) (.inl rfl) ht' hk
    exact ⟨_, by simp only [binary, sub, loadInt_load wl hw, loadInt_load wr hw, g1, g2, g3]; rfl, u, e3, h3⟩
  | mul =>
    simp only [reduceCtorEq, false_or] at hrs
    obtain ⟨wr, sr⟩ := hrs
    have hf : l.field = none ∨ inMemory l = none := by
      by_cases h : l.field = none
      · exact .inl h
      · right
        have := hmul rfl h
        unfold inMemory
        split
        · rename_i p hp; exact (this p hp).elim
        · rfl
    obtain ⟨c1, c2, g1, g2, v, e, h⟩ := mul_result enc hl hr hw wl wr hk hf
    obtain ⟨st, g3, u, e3, h3⟩ := finish e (swap (result_emod hm) h) (.inl rfl) ht' hk
    exact ⟨_, by simp only [binary, mul, g1, g2, g3]; rfl, u, e3, h3⟩
  | div =>
    simp only [reduceCtorEq, false_or] at hrs
    obtain ⟨wr, sr⟩ := hrs
    simp only [meaning] at hm
    split_ifs at hm with h0
    have Ha := value_has hl
    have Hb := value_has hr
    rw [wl, sl] at Ha
    rw [wr, sr] at Hb
    have hq : Has w sg ((l.value s.m).tdiv (r.value s.m)) := by
      cases hsg : sg with
      | true => exact hsg ▸ (result_has hm hsg).1
      | false =>
        rw [hsg] at Ha Hb
        simp only [Has, Bool.false_eq_true, if_false] at Ha Hb ⊢
        rw [Int.tdiv_eq_ediv_of_nonneg Ha.1]
        exact ⟨Int.ediv_nonneg Ha.1 Hb.1, lt_of_le_of_lt (Int.ediv_le_self _ Ha.1) Ha.2⟩
    obtain ⟨body, g, v, e, h, _⟩ := divide_result enc hl hr hw wl wr sl sr hk h0 hq
    obtain ⟨st, g3, u, e3, h3⟩ := finish e (swap (result_emod hm) h) (.inl rfl) ht' hk
    exact ⟨_, by simp only [binary, div, g, g3]; rfl, u, e3, h3⟩
  | mod =>
    simp only [reduceCtorEq, false_or] at hrs
    obtain ⟨wr, sr⟩ := hrs
    simp only [meaning] at hm
    split_ifs at hm with h0
    simp only [not_or, not_not] at h0
    simp only [Option.some.injEq] at hm
    obtain ⟨body, g, v, e, _, h⟩ := divide_result enc hl hr hw wl wr sl sr hk h0.1 h0.2
    rw [hm] at h
    obtain ⟨st, g3, u, e3, h3⟩ := finish e h (.inr rfl) ht' hk
    exact ⟨_, by simp only [binary, mod, g, g3]; rfl, u, e3, h3⟩
  | and =>
    simp only [reduceCtorEq, false_or] at hrs
    simp only [meaning, bits_eq, Option.some.injEq] at hm
    exact bit (.inl rfl) hrs.1 rfl hm
  | or =>
    simp only [reduceCtorEq, false_or] at hrs
    simp only [meaning, bits_eq, Option.some.injEq] at hm
    exact bit (.inr (.inl rfl)) hrs.1 rfl hm
  | xor =>
    simp only [reduceCtorEq, false_or] at hrs
    simp only [meaning, bits_eq, Option.some.injEq] at hm
    exact bit (.inr (.inr rfl)) hrs.1 rfl hm
  | shl =>
    simp only [meaning] at hm
    split_ifs at hm with h0
    obtain ⟨k, hk'⟩ := Int.eq_ofNat_of_zero_le h0.1
    have hb := h0.2.1
    rw [hk'] at hb hm
    obtain ⟨c1, c2, g1, g2, v, e, h⟩ := shift_result (left := true) enc hl hr hw wl hk hk' (by omega)
    simp only [if_true] at h
    obtain ⟨st, g3, u, e3, h3⟩ := finish e (swap (result_emod hm) h) (.inl rfl) ht' hk
    exact ⟨_, by simp only [binary, shift, g1, g2, g3]; rfl, u, e3, h3⟩
  | shr =>
    simp only [meaning] at hm
    split_ifs at hm with h0
    obtain ⟨k, hk'⟩ := Int.eq_ofNat_of_zero_le h0.1
    have hb := h0.2
    rw [hk'] at hb hm
    simp only [Option.some.injEq] at hm
    obtain ⟨c1, c2, g1, g2, v, e, h⟩ := shift_result (left := false) enc hl hr hw wl hk hk' (by omega)
    simp only [Bool.false_eq_true, if_false] at h
    rw [show l.value s.m / 2 ^ k = c from hm] at h
    obtain ⟨st, g3, u, e3, h3⟩ := finish e h (.inl rfl) ht' hk
    exact ⟨_, by simp only [binary, shift, g1, g2, g3]; rfl, u, e3, h3⟩

/-! ### Complement and assignment -/

theorem not_outcome {s : CM} {t : Option Val} {l : Val} (enc) (hk : s.skip = none) (hl : Operand s.m l)
    (ht : ∀ x ∈ t, Target s.m x ∧ x.sz = l.sz) :
    ∃ code, not t l = some code ∧ ∃ u, run enc s code = some u ∧ Outcome s u t AX l.sz (-1 - l.value s.m) := by
  obtain ⟨c1, g1, t1, e1, s1⟩ := load_sets (d := AX) enc hl (by decide) hk
  obtain ⟨t2, e2, s2⟩ := run_set (enc := enc) (i := .not l.sz AX) (s1.skip.trans hk) (by simp) rfl
  have h : Result s t2 AX l.sz (-1 - l.value s.m) := Sets.after s1.same (s1.calm (by decide)) s2 (by decide) (by
    rw [Int.sub_emod, s1.low, ← Int.sub_emod])
  obtain ⟨st, g3, u, e3, h3⟩ := finish (run_two e1 e2) h (.inl rfl) (fun x hx => ⟨(ht x hx).1, le_of_eq (ht x hx).2⟩) hk
  exact ⟨_, by simp only [not, g1, g3]; rfl, u, e3, h3⟩

/-- A load that converts to a type that may be wider. -/
theorem loadInt_sets {v : Val} {s : CM} {w : Nat} (enc) (hv : Operand s.m v) (hk : s.skip = none) (hw : w = 4 ∨ w = 8)
    (hi : ∀ n, v.src = .imm n → n = v.value s.m) (ha : ∀ p, v.src = .addr p → w = 8) :
    ∃ code, loadInt v AX w = some code ∧ ∃ t, run enc s code = some t ∧ Sets s t AX w (v.value s.m) := by
  by_cases h1 : ∃ n, v.src = .imm n
  · obtain ⟨n, hn⟩ := h1
    have hf := hv.imm n hn
    rw [← hi n hn]
    unfold loadInt Conv.loadInt
    simp only [hf, hn, Abi.loadInt, Abi.emitLoad, Option.bind_eq_bind, Option.bind_some, Option.some.injEq, exists_eq_left']
    rw [run_conv]
    refine ⟨_, rfl, ?_⟩
    rw [Conv.run_ints enc _ s hk]
    split_ifs with h0
    · refine ⟨rfl, rfl, fun r h1 _ => ?_, ?_⟩
      · simp [Abi.run, Abi.step, h1]
      · rw [h0]; simp [Abi.run, Abi.step]
    · refine ⟨rfl, rfl, fun r h1 _ => ?_, ?_⟩
      · simp [Abi.run, Abi.step, h1]
      · simp only [Abi.run, Abi.step, List.foldl, Abi.set_reg, if_true, merged, show decide (w < 4) = false by simp; omega,
          Bool.false_eq_true, if_false]
        exact Int.emod_emod_of_dvd _ (Int.dvd_refl _)
  by_cases h2 : ∃ p, v.src = .addr p
  · obtain ⟨p, hp⟩ := h2
    obtain ⟨_, h8, _⟩ := hv.addr p hp
    have w8 := ha p hp
    subst w8
    rw [loadInt_load h8 (.inr rfl)]
    have := load_sets (d := AX) enc hv (by decide) hk
    rw [h8] at this
    exact this
  · have hg := hv.good (fun n h => h1 ⟨n, h⟩) (fun p h => h2 ⟨p, h⟩)
    obtain ⟨code, hc⟩ := Conv.loadInt_some (d := AX) hg hw
    have h := Conv.loadInt_in (enc := enc) (by decide) hg hk hw hc
    exact ⟨code.map .conv, by simp only [loadInt, hc]; rfl, _, run_conv enc code s, h.same, h.mem, h.reg, h.low⟩

theorem cast_outcome {s : CM} {t : Option Val} {w : Nat} {sg : Bool} {l : Val} (enc) (hk : s.skip = none) (hl : Operand s.m l)
    (hi : ∀ n, l.src = .imm n → n = l.value s.m) (ha : ∀ p, l.src = .addr p → w = 8) (hw : IsSize w)
    (ht : ∀ x ∈ t, Target s.m x ∧ x.sz = w ∧ x.signed = sg)
    (hfr : ∀ x ∈ t, x.field ≠ none → ∀ q, l.src ≠ .place (.temp q)) :
    ∃ code, cast t w sg l = some code ∧ ∃ u, run enc s code = some u ∧ Outcome s u t AX w (l.value s.m) := by
  have hw' : (if w < 4 then 4 else w) = 4 ∨ (if w < 4 then 4 else w) = 8 := by
    unfold IsSize at hw; split_ifs <;> omega
  have hle : w ≤ (if w < 4 then 4 else w) := by split_ifs <;> omega
  obtain ⟨c1, g1, t1, e1, s1⟩ := loadInt_sets enc hl hk hw' hi (fun p hp => by rw [ha p hp]; rfl)
  have r1 : Result s t1 AX w (l.value s.m) := ⟨s1.same, Conv.emod_pow_le hle s1.low, (s1.calm (by decide)).reg, s1.mem⟩
  unfold cast
  cases t with
  | none => exact ⟨c1, g1, t1, e1, r1⟩
  | some tv =>
    obtain ⟨h1, h2, h3⟩ := ht tv rfl
    have htv : ({ tv with sz := w, signed := sg } : Val) = tv := by rw [← h2, ← h3]
    simp only [htv]
    have ordinary : ∃ code, (do some ((← loadInt l AX (if w < 4 then 4 else w)) ++ (← store AX tv))) = some code ∧
        ∃ u, run enc s code = some u ∧ Outcome s u (some tv) AX w (l.value s.m) := by
      obtain ⟨st, g2, u, e2, h⟩ := store_assigned enc h1 (le_of_eq h2) hk r1 (.inl rfl)
      exact ⟨_, by simp only [g1, g2]; rfl, u, run_two e1 e2, h⟩
    by_cases hc : l.sz = w ∧ l.signed = sg
    · rw [if_pos hc]
      split
      · rename_i n hn
        obtain ⟨code, g, u, e, h⟩ := storeConst_assigned (n := n) enc h1 hk (fun e => constant_range hn (by omega))
        refine ⟨code, g, u, e, ?_⟩
        rw [← hi n (constant_src hn)]
        exact h
      · rename_i q _ hq
        have hf : tv.field = none := by
          by_contra hne
          exact hfr tv rfl hne q hq
        have hqt := (hl.temp q hq).1
        obtain ⟨code, g, u, e, h⟩ := storePlain_wrote (r := q) enc h1 hk (temp_lt hqt) (fun e => temp_scratch hqt (by rw [e]; decide))
        refine ⟨code, by simp only [store, hf, g], u, e, Wrote.assigned rfl (Calm.refl _) h1 h hf ?_⟩
        have := temp_low hl hq
        rw [hc.1] at this
        rw [h2]
        exact this
      · exact ordinary
    · rw [if_neg hc]; exact ordinary

end Verif.Arith
