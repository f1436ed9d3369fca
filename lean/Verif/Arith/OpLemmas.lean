import Verif.Arith.FieldLemmas

/-!
# Operators
-/

namespace Verif.Arith

open Verif.Abi (M Ea Ins Src Place AX CX DX R11 BP le val sval rd wr isTempInt merged)
open Verif.Conv (CM Val IsSize CIns Opd bytes)

/-! ### Numbers -/

theorem value_has {s : M} {v : Val} (h : Operand s v) : Has v.sz v.signed (v.value s) := by
  have hz := h.size
  have hp : 0 < v.sz := by unfold IsSize at hz; omega
  unfold Has
  cases hf : v.field with
  | none =>
    unfold Val.value
    simp only [hf]
    split_ifs with hs
    · have := Conv.sval_range (bytes s v.src v.sz) (by rw [Conv.bytes_length]; exact hp)
      rw [Conv.bytes_length] at this
      exact this
    · have h1 := Abi.val_nonneg (bytes s v.src v.sz)
      have h2 := Abi.val_lt (bytes s v.src v.sz)
      rw [Conv.bytes_length, Conv.pow256] at h2
      exact ⟨h1, h2⟩
  | some f =>
    obtain ⟨off, width⟩ := f
    obtain ⟨h1, _, _, h4⟩ := h.field off width hf
    have := Conv.field_range (s := s) hf h1
    split_ifs at this ⊢ with hs
    · have e := Conv.two_pow_le (show width - 1 ≤ 8 * v.sz - 1 by omega)
      omega
    · have e := Conv.two_pow_le h4
      omega

theorem pow_half {w : Nat} (h : 0 < w) : (256 : Int) ^ w = 2 * 2 ^ (8 * w - 1) := by
  rw [Conv.pow256, ← Int.pow_succ', show 8 * w - 1 + 1 = 8 * w by omega]

theorem emod_neg' {a P : Int} (h : a < 0) (h' : -P ≤ a) : a % P = a + P := by
  rw [← Int.add_emod_right, Int.emod_eq_of_lt (by omega) (by omega)]

theorem signed_of {w : Nat} {x a : Int} (hw : 0 < w) (h : Has w true a) (e : x % 256 ^ w = a % 256 ^ w) :
    signed w (x % 256 ^ w) = a := by
  simp only [Has, if_true] at h
  have hp := pow_half hw
  unfold signed
  rw [e]
  generalize (256 : Int) ^ w = P at *
  generalize (2 : Int) ^ (8 * w - 1) = Q at *
  by_cases h0 : a < 0
  · rw [emod_neg' h0 (by omega), if_neg (by omega)]; omega
  · rw [Int.emod_eq_of_lt (by omega) (by omega), if_pos (by omega)]

theorem unsigned_of {w : Nat} {x a : Int} (h : Has w false a) (e : x % 256 ^ w = a % 256 ^ w) : x % 256 ^ w = a := by
  simp only [Has, Bool.false_eq_true, if_false] at h
  rw [← Conv.pow256] at h
  rw [e, Int.emod_eq_of_lt h.1 h.2]

theorem low_signed (w : Nat) (x : Int) : Conv.low w x = signed w (x % 256 ^ w) := by
  unfold Conv.low sval signed
  rw [Abi.le_length, Abi.val_le_emod]

theorem result_emod {w : Nat} {sg : Bool} {c x : Int} (h : result w sg c = some x) : c % 256 ^ w = x % 256 ^ w := by
  unfold result at h
  split_ifs at h
  · simp only [Option.some.injEq] at h; rw [h]
  · simp only [Option.some.injEq] at h
    rw [← h, Conv.pow256]
    exact (Int.emod_emod_of_dvd _ (Int.dvd_refl _)).symm

theorem result_has {w : Nat} {sg : Bool} {c x : Int} (h : result w sg c = some x) (hs : sg = true) : Has w sg c ∧ c = x := by
  unfold result at h
  rw [if_pos hs] at h
  split_ifs at h with h'
  simp only [Option.some.injEq] at h
  exact ⟨h', h⟩

/-! ### Results -/

theorem Sets.result {s t : CM} {d w x c} (h : Sets s t d w x) (hd : d ∈ scratch) (hc : x % 256 ^ w = c % 256 ^ w) : Result s t d w c where
  same := h.same
  low := h.low.trans hc
  reg := (h.calm hd).reg
  mem := h.mem

/-- After other code that leaves everything but scratch registers alone. -/
theorem Sets.after {s t u : CM} {d w x c} (hs : t = { s with m := t.m }) (hq : Calm s.m t.m) (h : Sets t u d w x) (hd : d ∈ scratch)
    (hc : x % 256 ^ w = c % 256 ^ w) : Result s u d w c where
  same := by rw [h.same, hs]
  low := h.low.trans hc
  reg := (hq.trans (h.calm hd)).reg
  mem := h.mem.trans hq.mem

theorem finish {s t : CM} {body : List AIns} {v : Option Val} {r w : Nat} {c : Int} {enc} (hb : run enc s body = some t)
    (h : Result s t r w c) (hr : r = AX ∨ r = DX) (hv : ∀ x ∈ v, Target s.m x ∧ x.sz ≤ w) (hk : s.skip = none) :
    ∃ st, storeTo r v = some st ∧ ∃ u, run enc s (body ++ st) = some u ∧ Outcome s u v r w c := by
  obtain ⟨st, h1, u, h2, h3⟩ := storeTo_assigned enc hv hk h hr
  exact ⟨st, h1, u, run_two hb h2, h3⟩

/-- Two loads. -/
theorem load_two {s : CM} {l r : Val} (enc) (hl : Operand s.m l) (hr : Operand s.m r) (hk : s.skip = none) :
    ∃ c1 c2, load l AX = some c1 ∧ load r CX = some c2 ∧ ∃ t, run enc s (c1 ++ c2) = some t ∧ t = { s with m := t.m } ∧ Calm s.m t.m ∧
      t.m.reg AX % 256 ^ l.sz = l.value s.m % 256 ^ l.sz ∧ t.m.reg CX % 256 ^ r.sz = r.value s.m % 256 ^ r.sz := by
  obtain ⟨c1, g1, t1, e1, s1⟩ := load_sets (d := AX) enc hl (by decide) hk
  have q1 := s1.calm (by decide)
  obtain ⟨c2, g2, t2, e2, s2⟩ := load_sets (d := CX) enc (hr.calm q1) (by decide) (s1.skip.trans hk)
  refine ⟨c1, c2, g1, g2, t2, run_two e1 e2, ?_, q1.trans (s2.calm (by decide)), ?_, ?_⟩
  · rw [s2.same, s1.same]
  · rw [s2.reg AX (by decide) (by decide)]; exact s1.low
  · rw [s2.low, value_calm q1 hr]

/-- A register operation on the two. -/
theorem alu_result {s t u : CM} {o : Alu} {w : Nat} {a b : Int} (hs : t = { s with m := t.m }) (hq : Calm s.m t.m)
    (h : Sets t u AX w (o.eval w (t.m.reg AX) (t.m.reg CX))) (ha : t.m.reg AX % 256 ^ w = a % 256 ^ w) (hb : t.m.reg CX % 256 ^ w = b % 256 ^ w) :
    Result s u AX w (o.eval w a b) :=
  Sets.after hs hq h (by decide) (eval_congr ha hb)

theorem constant_low {s : M} {v : Val} {n : Int} (hv : Operand s v) (h : v.src = .imm n) : v.value s % 256 ^ v.sz = n % 256 ^ v.sz := by
  rw [value_low (hv.imm n h) hv.size, h, val_bytes_imm]

theorem constant_src {v : Val} {n : Int} (h : constant v = some n) : v.src = .imm n := by
  unfold constant at h
  split at h
  · rename_i e
    split_ifs at h
    simp only [Option.some.injEq] at h
    rw [e, h]
  · cases h

theorem constant_range {v : Val} {n : Int} (h : constant v = some n) (h8 : v.sz = 8) : -2147483648 ≤ n ∧ n ≤ 2147483647 := by
  unfold constant at h
  split at h
  · split_ifs at h with h1
    simp only [Option.some.injEq] at h
    omega
  · cases h

theorem immediate_src {v : Val} {n : Int} (h : immediate v = some n) : v.src = .imm n := by
  unfold immediate at h
  split at h
  · simp only [Option.some.injEq] at h; rename_i e; rw [e, h]
  · cases h

theorem place_low {s t : M} {v : Val} {p : Place} {a : Ea} (hq : Calm s t) (hv : Operand s v) (hf : v.field = none) (hp : v.src = .place p)
    (ha : p.ea = some a) : val (rd t.mem (t.ea a) v.sz) = v.value s % 256 ^ v.sz := by
  rw [← value_calm hq hv, value_low hf hv.size, hp, Conv.bytes_place ha]

theorem inMemory_low {s t : M} {v : Val} {a : Ea} (hq : Calm s t) (hv : Operand s v) (hf : v.field = none) (h : inMemory v = some a) :
    operand t v.sz (.mem a) = v.value s % 256 ^ v.sz := by
  unfold inMemory at h
  split at h
  · rename_i p hp
    exact place_low hq hv hf hp h
  · cases h

theorem temp_low {s : M} {v : Val} {x : Nat} (hv : Operand s v) (h : v.src = .place (.temp x)) : s.reg x % 256 ^ v.sz = v.value s % 256 ^ v.sz := by
  rw [value_low (hv.temp x h).2 hv.size, h, Conv.bytes_temp, Abi.val_le_emod]

/-! ### The code before the store -/

theorem sum_result {s : CM} {l r : Val} {w : Nat} (enc) (hl : Operand s.m l) (hr : Operand s.m r) (hw : w = 4 ∨ w = 8) (wl : l.sz = w) (wr : r.sz = w)
    (hk : s.skip = none) :
    ∃ code, sum w l r = some code ∧ ∃ t, run enc s code = some t ∧ Result s t AX w (l.value s.m + r.value s.m) := by
  -- one operand is loaded, the other added
  have one : ∀ {x y : Val}, Operand s.m x → Operand s.m y → x.sz = w → y.sz = w → ∀ {i : AIns}, (∀ c, i ≠ .conv c) →
      (∀ t : CM, Calm s.m t.m → ∃ b, exec t.m i = some (set t.m w AX (t.m.reg AX + b)) ∧ b % 256 ^ w = y.value s.m % 256 ^ w) →
      ∃ c, loadInt x AX w = some c ∧ ∃ t, run enc s (c ++ [i]) = some t ∧ Result s t AX w (x.value s.m + y.value s.m) := by
    intro x y hx hy wx wy i hi hex
    rw [loadInt_load wx hw]
    obtain ⟨c1, g1, t1, e1, s1⟩ := load_sets (d := AX) enc hx (by decide) hk
    have q1 := s1.calm (by decide)
    obtain ⟨b, e2, hb⟩ := hex t1 q1
    obtain ⟨t2, e3, s2⟩ := run_set (enc := enc) (s1.skip.trans hk) hi e2
    refine ⟨c1, g1, t2, run_two e1 e3, Sets.after s1.same q1 s2 (by decide) ?_⟩
    have h1 := s1.low
    rw [wx] at h1
    rw [Int.add_emod, h1, hb, ← Int.add_emod]
  have swap : ∀ {t : CM}, Result s t AX w (r.value s.m + l.value s.m) → Result s t AX w (l.value s.m + r.value s.m) := by
    intro t h; rw [Int.add_comm]; exact h
  have dir : ∀ {y : Val}, Operand s.m y → y.sz = w → direct y = true → ∃ i, addDirect w y = some [i] ∧ (∀ c, i ≠ .conv c) ∧
      ∀ t : CM, Calm s.m t.m → ∃ b, exec t.m i = some (set t.m w AX (t.m.reg AX + b)) ∧ b % 256 ^ w = y.value s.m % 256 ^ w := by
    intro y hy wy hd
    unfold direct at hd
    split at hd
    · rename_i p hp
      have hf : y.field = none := by simpa using hd
      by_cases hx : ∃ x, p = .temp x
      · obtain ⟨x, rfl⟩ := hx
        refine ⟨.alu .add w AX x, by simp only [addDirect, hp], by simp, fun t hq => ⟨t.m.reg x, rfl, ?_⟩⟩
        have := temp_low hy hp
        rw [hq.reg x (temp_scratch (hy.temp x hp).1), ← wy, this]
      · have : ∃ a, p.ea = some a := by cases p <;> simp_all [Place.ea]
        obtain ⟨a, ha⟩ := this
        refine ⟨.alum .add w AX a, by cases p <;> simp_all [addDirect], by simp, fun t hq => ⟨_, rfl, ?_⟩⟩
        have := place_low hq hy hf hp ha
        rw [wy] at this
        rw [this]
        exact Int.emod_emod_of_dvd _ (Int.dvd_refl _)
    · cases hd
  have con : ∀ {y : Val} {n : Int}, Operand s.m y → y.sz = w → constant y = some n →
      ∀ t : CM, Calm s.m t.m → ∃ b, exec t.m (.alui .add w AX n) = some (set t.m w AX (t.m.reg AX + b)) ∧ b % 256 ^ w = y.value s.m % 256 ^ w := by
    intro y n hy wy hc t _
    have := constant_low hy (constant_src hc)
    rw [wy] at this
    exact ⟨n, by simp only [exec, Abi.encoded_of (fun e => constant_range hc (wy.trans e)), Alu.eval], this.symm⟩
  unfold sum
  cases cl : constant l with
  | some n =>
    obtain ⟨c, g, t, e, h⟩ := one hr hl wr wl (i := .alui .add w AX n) (by simp) (con hl wl cl)
    exact ⟨_, by simp only [g]; rfl, t, e, swap h⟩
  | none =>
    cases cr : constant r with
    | some n =>
      obtain ⟨c, g, t, e, h⟩ := one hl hr wl wr (i := .alui .add w AX n) (by simp) (con hr wr cr)
      exact ⟨_, by simp only [g]; rfl, t, e, h⟩
    | none =>
      simp only
      split_ifs with dl dr
      · obtain ⟨i, gi, hi, hex⟩ := dir hl wl dl
        obtain ⟨c, g, t, e, h⟩ := one hr hl wr wl hi hex
        exact ⟨_, by simp only [g, gi]; rfl, t, e, swap h⟩
      · obtain ⟨i, gi, hi, hex⟩ := dir hr wr dr
        obtain ⟨c, g, t, e, h⟩ := one hl hr wl wr hi hex
        exact ⟨_, by simp only [g, gi]; rfl, t, e, h⟩
      · rw [loadInt_load wl hw, loadInt_load wr hw]
        obtain ⟨c1, c2, g1, g2, t, e, hs, hq, ha, hb⟩ := load_two enc hl hr hk
        have kt : t.skip = none := by rw [hs]; exact hk
        obtain ⟨u, e2, s2⟩ := run_set (enc := enc) (i := .alu .add w AX CX) kt (by simp) rfl
        rw [wl] at ha
        rw [wr] at hb
        exact ⟨_, by simp only [g1, g2]; rfl, u, run_two e e2, alu_result hs hq s2 ha hb⟩

theorem mul_result {s : CM} {l r : Val} {w : Nat} (enc) (hl : Operand s.m l) (hr : Operand s.m r) (hw : w = 4 ∨ w = 8) (wl : l.sz = w) (wr : r.sz = w)
    (hk : s.skip = none) (hf : l.field = none ∨ inMemory l = none) :
    ∃ c1 c2, load r AX = some c1 ∧ mulBy w l = some c2 ∧ ∃ t, run enc s (c1 ++ c2) = some t ∧ Result s t AX w (l.value s.m * r.value s.m) := by
  -- the product, once the other operand is known
  have step : ∀ {t : CM} {o : Opd}, t = { s with m := t.m } → Calm s.m t.m → t.m.reg AX % 256 ^ w = r.value s.m % 256 ^ w →
      operand t.m w o = l.value s.m % 256 ^ w → ∃ u, run enc t [.mul w o] = some u ∧ Result s u AX w (l.value s.m * r.value s.m) := by
    intro t o hs hq ha ho
    have kt : t.skip = none := by rw [hs]; exact hk
    refine ⟨_, run_one kt (by simp) rfl, ?_, ?_, ?_, ?_⟩
    · rw [hs]
    · simp only [set_other _ _ DX _ (show AX ≠ DX by decide), set_low]
      rw [ha, ho, ← Int.mul_emod, Int.mul_comm]
    · intro x hx
      have h1 : x ≠ AX := fun e => hx (by rw [e]; decide)
      have h2 : x ≠ DX := fun e => hx (by rw [e]; decide)
      simp only [set_other _ _ _ _ h1, set_other _ _ _ _ h2, hq.reg x hx]
    · exact hq.mem
  obtain ⟨c1, g1, t1, e1, s1⟩ := load_sets (d := AX) enc hr (by decide) hk
  have q1 := s1.calm (by decide)
  have l1 := s1.low
  rw [wr] at l1
  unfold mulBy
  cases hm : inMemory l with
  | some a =>
    have hf' : l.field = none := by
      rcases hf with h | h
      · exact h
      · rw [hm] at h; cases h
    have ho := inMemory_low q1 hl hf' hm
    rw [wl] at ho
    obtain ⟨u, e2, h⟩ := step s1.same q1 l1 ho
    exact ⟨c1, _, g1, rfl, u, run_two e1 e2, h⟩
  | none =>
    obtain ⟨c2, g2, t2, e2, s2⟩ := load_sets (d := CX) enc (hl.calm q1) (by decide) (s1.skip.trans hk)
    have l2 := s2.low
    rw [wl, value_calm q1 hl] at l2
    obtain ⟨u, e3, h⟩ := step (t := t2) (o := .reg CX) (by rw [s2.same, s1.same]) (q1.trans (s2.calm (by decide)))
      (by rw [s2.reg AX (by decide) (by decide)]; exact l1) l2
    exact ⟨c1, _, g1, by simp only [g2]; rfl, u, run_two e1 (run_two e2 e3), h⟩

theorem div_exec {m : M} {w : Nat} {sg : Bool} {o : Opd} {a b : Int} (hw : 0 < w) (ha : Has w sg a) (hb : Has w sg b) (h0 : b ≠ 0)
    (hq : Has w sg (a.tdiv b)) (h1 : m.reg AX % 256 ^ w = a % 256 ^ w)
    (h2 : m.reg DX % 256 ^ w = (if sg ∧ a < 0 then -1 else 0) % 256 ^ w) (h3 : operand m w o = b % 256 ^ w) :
    exec m (.div sg w o) = some (set (set m w AX (a.tdiv b)) w DX (a.tmod b)) := by
  have hP : (0 : Int) < 256 ^ w := by positivity
  have h3' : operand m w o % 256 ^ w = b % 256 ^ w := by rw [h3]; exact Int.emod_emod_of_dvd _ (Int.dvd_refl _)
  cases sg with
  | false =>
    have hd : operand m w o = b := by
      rw [h3]
      exact unsigned_of hb rfl
    have hn : m.reg DX % 256 ^ w * 256 ^ w + m.reg AX % 256 ^ w = a := by
      rw [h2, unsigned_of ha h1]; simp
    simp only [Has, Bool.false_eq_true, if_false] at ha hb hq
    rw [← Conv.pow256] at hq
    have e1 : a / b = a.tdiv b := (Int.tdiv_eq_ediv_of_nonneg ha.1).symm
    have e2 : a % b = a.tmod b := (Int.tmod_eq_emod_of_nonneg ha.1).symm
    simp only [exec, hd, hn]
    rw [if_neg, e1, e2]
    rw [e1]
    rintro (h | h)
    · exact h0 h
    · omega
  | true =>
    have hd : signed w (operand m w o) = b := by
      have := signed_of hw hb h3'
      rw [h3, Int.emod_emod_of_dvd _ (Int.dvd_refl _)] at this
      rw [h3]; exact this
    have hn : signed w (m.reg DX % 256 ^ w) * 256 ^ w + m.reg AX % 256 ^ w = a := by
      have hs : signed w (m.reg DX % 256 ^ w) = if a < 0 then -1 else 0 := by
        refine signed_of hw ?_ (by simpa using h2)
        have : (1 : Int) ≤ 2 ^ (8 * w - 1) := by exact_mod_cast Nat.one_le_two_pow
        simp only [Has, if_true]
        split_ifs <;> omega
      have hp := pow_half hw
      simp only [Has, if_true] at ha
      rw [hs, h1]
      generalize (256 : Int) ^ w = P at *
      split_ifs with hneg
      · rw [emod_neg' hneg (by omega)]; omega
      · rw [Int.emod_eq_of_lt (by omega) (by omega)]; omega
    have hp := pow_half hw
    simp only [Has, if_true] at hq
    simp only [exec, hd, hn]
    rw [if_neg]
    rintro (h | h | h)
    · exact h0 h
    · omega
    · omega

theorem divide_result {s : CM} {l r : Val} {w : Nat} {sg : Bool} (enc) (hl : Operand s.m l) (hr : Operand s.m r) (hw : w = 4 ∨ w = 8)
    (wl : l.sz = w) (wr : r.sz = w) (sl : l.signed = sg) (sr : r.signed = sg) (hk : s.skip = none)
    (h0 : r.value s.m ≠ 0) (hq : Has w sg ((l.value s.m).tdiv (r.value s.m))) :
    ∃ code, divide sg l r = some code ∧ ∃ t, run enc s code = some t ∧ Result s t AX w ((l.value s.m).tdiv (r.value s.m)) ∧
      Result s t DX w ((l.value s.m).tmod (r.value s.m)) := by
  have hw' : 0 < w := by omega
  have Ha : Has w sg (l.value s.m) := by rw [← wl, ← sl]; exact value_has hl
  have Hb : Has w sg (r.value s.m) := by rw [← wr, ← sr]; exact value_has hr
  obtain ⟨c1, g1, t1, e1, s1⟩ := load_sets (d := AX) enc hl (by decide) hk
  have q1 := s1.calm (by decide)
  have k1 := s1.skip.trans hk
  have l1 := s1.low
  rw [wl] at l1
  have hx : ∃ c2, extend l = some c2 ∧ ∃ t2, run enc t1 c2 = some t2 ∧ Sets t1 t2 DX w (if sg ∧ l.value s.m < 0 then -1 else 0) := by
    unfold extend
    rw [sl]
    cases sg with
    | true =>
      simp only [if_true]
      rw [if_pos (by omega), wl]
      refine ⟨_, rfl, run_set (i := .cxy w) (v := if True ∧ l.value s.m < 0 then -1 else 0) k1 (by simp) ?_⟩
      have : Conv.low w (t1.m.reg AX) = l.value s.m := by rw [low_signed]; exact signed_of hw' Ha l1
      simp only [exec, this, true_and]
    | false =>
      refine ⟨_, rfl, { t1 with m := t1.m.set DX 0 }, by simp [run, step, Conv.step, k1, Conv.exec, Abi.step], rfl, rfl, ?_, by simp⟩
      intro x h _; simp [h]
  obtain ⟨c2, g2, t2, e2, s2⟩ := hx
  have q2 := q1.trans (s2.calm (by decide))
  have k2 := s2.skip.trans k1
  have same2 : t2 = { s with m := t2.m } := by rw [s2.same, s1.same]
  have l2 : t2.m.reg AX % 256 ^ w = l.value s.m % 256 ^ w := by rw [s2.reg AX (by decide) (by decide)]; exact l1
  -- the division, once the divisor is known
  have last : ∀ {t : CM} {o : Opd}, t = { s with m := t.m } → Calm s.m t.m → t.m.reg AX = t2.m.reg AX → t.m.reg DX = t2.m.reg DX →
      operand t.m w o = r.value s.m % 256 ^ w → ∃ u, run enc t [.div sg w o] = some u ∧
        Result s u AX w ((l.value s.m).tdiv (r.value s.m)) ∧ Result s u DX w ((l.value s.m).tmod (r.value s.m)) := by
    intro t o hs hc ha hdx ho
    have kt : t.skip = none := by rw [hs]; exact hk
    have ex := div_exec (o := o) hw' Ha Hb h0 hq (by rw [ha]; exact l2) (by rw [hdx]; exact s2.low) ho
    have hreg : ∀ x, x ∉ scratch → (set (set t.m w AX ((l.value s.m).tdiv (r.value s.m))) w DX ((l.value s.m).tmod (r.value s.m))).reg x = s.m.reg x := by
      intro x hx
      have h1 : x ≠ AX := fun e => hx (by rw [e]; decide)
      have h2 : x ≠ DX := fun e => hx (by rw [e]; decide)
      rw [set_other _ _ _ _ h2, set_other _ _ _ _ h1, hc.reg x hx]
    refine ⟨_, run_one kt (by simp) ex, ⟨by rw [hs], ?_, hreg, hc.mem⟩, ⟨by rw [hs], set_low .., hreg, hc.mem⟩⟩
    simp only [set_other _ _ DX _ (show AX ≠ DX by decide), set_low]
  have load' : ∃ c3 u, (do some ((← load r CX) ++ [AIns.div sg r.sz (.reg CX)])) = some c3 ∧ run enc t2 c3 = some u ∧
        Result s u AX w ((l.value s.m).tdiv (r.value s.m)) ∧ Result s u DX w ((l.value s.m).tmod (r.value s.m)) := by
    obtain ⟨c3, g3, t3, e3, s3⟩ := load_sets (d := CX) enc (hr.calm q2) (by decide) k2
    have l3 := s3.low
    rw [wr, value_calm q2 hr] at l3
    obtain ⟨u, e4, h⟩ := last (t := t3) (o := .reg CX) (by rw [s3.same, same2]) (q2.trans (s3.calm (by decide)))
      (s3.reg AX (by decide) (by decide)) (s3.reg DX (by decide) (by decide)) l3
    exact ⟨_, u, by simp only [g3, wr]; rfl, run_two e3 e4, h⟩
  have hd : ∃ c3 u, divBy sg r = some c3 ∧ run enc t2 c3 = some u ∧
        Result s u AX w ((l.value s.m).tdiv (r.value s.m)) ∧ Result s u DX w ((l.value s.m).tmod (r.value s.m)) := by
    unfold divBy
    split
    · rename_i a hf hm
      have ho := inMemory_low q2 hr hf hm
      rw [wr] at ho
      obtain ⟨u, e4, h⟩ := last same2 q2 rfl rfl ho
      exact ⟨_, u, by rw [wr], e4, h⟩
    · exact load'
  obtain ⟨c3, u, g3, e3, h⟩ := hd
  exact ⟨c1 ++ c2 ++ c3, by simp only [divide, g1, g2, g3]; rfl, u, run_two (run_two e1 e2) e3, h⟩

theorem bitwise_result {s : CM} {l r : Val} {o : Alu} (ho : o = .and ∨ o = .or ∨ o = .xor) {w : Nat} (enc) (hl : Operand s.m l) (hr : Operand s.m r)
    (wl : l.sz = w) (wr : r.sz = w) (hk : s.skip = none) :
    ∃ code, bitwiseCode o l r = some code ∧ ∃ t, run enc s code = some t ∧ Result s t AX w (o.eval w (l.value s.m) (r.value s.m)) := by
  have two : ∃ code, (do some ((← load l AX) ++ (← load r CX) ++ [AIns.alu o l.sz AX CX])) = some code ∧ ∃ t, run enc s code = some t ∧
      Result s t AX w (o.eval w (l.value s.m) (r.value s.m)) := by
    obtain ⟨c1, c2, g1, g2, t, e, hs, hq, ha, hb⟩ := load_two enc hl hr hk
    have kt : t.skip = none := by rw [hs]; exact hk
    obtain ⟨u, e2, s2⟩ := run_set (enc := enc) (i := .alu o w AX CX) kt (by simp) rfl
    rw [wl] at ha
    rw [wr] at hb
    exact ⟨_, by simp only [g1, g2, wl]; rfl, u, run_two e e2, alu_result hs hq s2 ha hb⟩
  have one : ∀ {x y : Val} {n : Int}, Operand s.m x → Operand s.m y → x.sz = w → y.sz = w → y.src = .imm n → w ≠ 8 →
      ∃ code, (do some ((← load x AX) ++ [AIns.alui o l.sz AX n])) = some code ∧ ∃ t, run enc s code = some t ∧
      Result s t AX w (o.eval w (x.value s.m) (y.value s.m)) := by
    intro x y n hx hy wx wy hn h8
    obtain ⟨c1, g1, t1, e1, s1⟩ := load_sets (d := AX) enc hx (by decide) hk
    obtain ⟨u, e2, s2⟩ := run_set (enc := enc) (i := .alui o w AX n) (v := o.eval w (t1.m.reg AX) n) (d := AX) (w := w) (s1.skip.trans hk) (by simp)
      (by simp only [exec, Abi.encoded_of (fun e => (h8 e).elim)])
    have l1 := s1.low
    have l2 := constant_low hy hn
    rw [wx] at l1
    rw [wy] at l2
    exact ⟨_, by simp only [g1, wl]; rfl, u, run_two e1 e2, Sets.after s1.same (s1.calm (by decide)) s2 (by decide) (eval_congr l1 l2.symm)⟩
  have comm : ∀ a b : Int, o.eval w a b = o.eval w b a := by
    intro a b
    rcases ho with rfl | rfl | rfl
    · simp only [Alu.eval, Nat.and_comm]
    · simp only [Alu.eval, Nat.or_comm]
    · simp only [Alu.eval, Nat.xor_comm]
  unfold bitwiseCode
  split
  · rename_i n hn
    split_ifs with h8
    · exact one hl hr wl wr (immediate_src hn) (by omega)
    · exact two
  · rename_i n hn _
    split_ifs with h8
    · rw [comm]
      exact one hr hl wr wl (immediate_src hn) (by omega)
    · exact two
  · exact two

theorem shift_result {s : CM} {l r : Val} {left : Bool} {w : Nat} {k : Nat} (enc) (hl : Operand s.m l) (hr : Operand s.m r) (hw : w = 4 ∨ w = 8)
    (wl : l.sz = w) (hk : s.skip = none) (hb : r.value s.m = k) (hk' : k < 8 * w) :
    ∃ c1 c2, load l AX = some c1 ∧ load r CX = some c2 ∧
      ∃ t, run enc s (c1 ++ c2 ++ [if left then .shlc l.sz AX else .shrc l.signed l.sz AX]) = some t ∧
        Result s t AX w (if left then l.value s.m * 2 ^ k else l.value s.m / 2 ^ k) := by
  obtain ⟨c1, c2, g1, g2, t, e, hs, hq, ha, hc⟩ := load_two enc hl hr hk
  have kt : t.skip = none := by rw [hs]; exact hk
  rw [wl] at ha
  have hcount : count t.m w = k := by
    unfold count
    have hz := hr.size
    have d1 : ∀ N : Int, N ∣ 256 → t.m.reg CX % N = (k : Int) % N := by
      intro N hN
      have hN' : N ∣ 256 ^ r.sz := Int.dvd_trans hN (dvd_pow_self _ (by unfold IsSize at hz; omega))
      rw [← Int.emod_emod_of_dvd _ hN', hc, Int.emod_emod_of_dvd _ hN', hb]
    rcases hw with rfl | rfl
    · rw [if_neg (by omega), d1 32 (by decide), Int.emod_eq_of_lt (by omega) (by omega)]; rfl
    · rw [if_pos rfl, d1 64 (by decide), Int.emod_eq_of_lt (by omega) (by omega)]; rfl
  refine ⟨c1, c2, g1, g2, ?_⟩
  rw [wl]
  cases left with
  | true =>
    simp only [if_true]
    obtain ⟨u, e2, s2⟩ := run_set (enc := enc) (i := .shlc w AX) kt (by simp) rfl
    refine ⟨u, run_two e e2, Sets.after hs hq s2 (by decide) ?_⟩
    rw [hcount, Int.mul_emod, ha, ← Int.mul_emod]
  | false =>
    simp only [Bool.false_eq_true, if_false]
    obtain ⟨u, e2, s2⟩ := run_set (enc := enc) (i := .shrc l.signed w AX) kt (by simp) rfl
    refine ⟨u, run_two e e2, Sets.after hs hq s2 (by decide) ?_⟩
    have hv := value_has hl
    rw [wl] at hv
    rw [hcount]
    congr 2
    cases hsg : l.signed with
    | true =>
      rw [hsg] at hv
      simp only [if_true]
      exact signed_of (by omega) hv ha
    | false =>
      rw [hsg] at hv
      simp only [Bool.false_eq_true, if_false]
      exact unsigned_of hv ha

end Verif.Arith
