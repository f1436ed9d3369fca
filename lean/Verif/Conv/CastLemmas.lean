import Verif.Conv.IntLemmas
import Verif.Conv.RealLemmas

/-!
# Each conversion
-/

namespace Verif.Conv

open Verif.Abi

/-- Only `%r11` has changed. -/
structure Scratch (s t : CM) : Prop where
  same : t = { s with m := t.m }
  mem : t.m.mem = s.m.mem
  reg : ∀ r, r ≠ R11 → t.m.reg r = s.m.reg r

theorem Scratch.skip {s t : CM} (h : Scratch s t) : t.skip = s.skip := by rw [h.same]
theorem Scratch.xmm {s t : CM} (h : Scratch s t) : t.xmm = s.xmm := by rw [h.same]
theorem Scratch.st {s t : CM} (h : Scratch s t) : t.st = s.st := by rw [h.same]
theorem Scratch.cw {s t : CM} (h : Scratch s t) : t.cw = s.cw := by rw [h.same]

theorem Scratch.refl (s : CM) : Scratch s s := ⟨rfl, rfl, fun _ _ => rfl⟩

/-- The code up to the last instruction leaves an operand for it. -/
theorem emitLoad_opd {mk : Opd → CIns} {src : Src} {code : List CIns} {s : CM} (enc)
    (h : emitLoad mk src = some code) (hk : s.skip = none)
    (hp : ∀ r o, src = .deref (.temp r) o → 0 ≤ s.m.reg r ∧ s.m.reg r < 256 ^ 8) :
    ∃ (t : CM) (o : Opd), Scratch s t ∧ run enc s code = exec enc t (mk o) ∧
      (∀ n, t.numOpd n o = realOf s n src) ∧ (∀ n, t.intOpd n o = sval (bytes s.m src n)) := by
  cases src with
  | imm v => simp [emitLoad] at h
  | addr p => simp [emitLoad] at h
  | place p =>
    by_cases ht' : ∃ r, p = .temp r
    · obtain ⟨r, rfl⟩ := ht'
      simp only [emitLoad, Option.some.injEq] at h
      subst h
      refine ⟨s, .reg r, .refl s, ?_, fun n => rfl, fun n => rfl⟩
      rw [run_cons, run_nil, step_on hk]
    · have : ∃ a, p.ea = some a := by cases p <;> simp_all [Place.ea]
      obtain ⟨a, ha⟩ := this
      have h' : some [mk (.mem a)] = some code := by
        rw [← h]; cases p <;> simp_all [emitLoad, Place.ea]
      simp only [Option.some.injEq] at h'
      subst h'
      refine ⟨s, .mem a, .refl s, ?_, fun n => ?_, fun n => ?_⟩
      · rw [run_cons, run_nil, step_on hk]
      · have : realOf s n (.place p) = num (bytes s.m (.place p) n) := by
          cases p with
          | temp r => exact (ht' ⟨r, rfl⟩).elim
          | _ => rfl
        rw [this, bytes_place ha]; rfl
      · rw [bytes_place ha]; rfl
  | deref p o =>
    by_cases ht' : ∃ r, p = .temp r
    · obtain ⟨r, rfl⟩ := ht'
      simp only [emitLoad, Option.some.injEq] at h
      subst h
      obtain ⟨h0, h1⟩ := hp r o rfl
      have e : ∀ n, bytes s.m (.deref (.temp r) o) n = rd s.m.mem (s.m.ea (.base r o)) n := by
        intro n; rw [bytes_deref, word_temp h0 h1]; rfl
      refine ⟨s, .mem (.base r o), .refl s, ?_, fun n => ?_, fun n => ?_⟩
      · rw [run_cons, run_nil, step_on hk]
      · show _ = num (bytes s.m (.deref (.temp r) o) n)
        rw [e]; rfl
      · rw [e]; rfl
    · have : ∃ a, p.ea = some a := by cases p <;> simp_all [Place.ea]
      obtain ⟨a, ha⟩ := this
      have h' : some [.int (.ld 8 R11 a), mk (.mem (.base R11 o))] = some code := by
        rw [← h]; cases p <;> simp_all [emitLoad, Place.ea]
      simp only [Option.some.injEq] at h'
      subst h'
      have hw : (Abi.step s.m (.ld 8 R11 a)).reg R11 = p.word s.m := by
        simp only [Abi.step, set_reg, if_true, merged, show decide (8 < 4) = false from rfl, Bool.false_eq_true, if_false]
        rw [word_place ha, ea_place ha, val_rd_emod]
      refine ⟨{ s with m := Abi.step s.m (.ld 8 R11 a) }, .mem (.base R11 o), ⟨rfl, rfl, fun r hr => ?_⟩, ?_, fun n => ?_,
        fun n => ?_⟩
      · simp only [Abi.step, set_reg, if_neg hr]
      · rw [run_cons, run_cons, run_nil, step_on hk, step_on (by exact hk)]; rfl
      · show num (rd s.m.mem ((Abi.step s.m (.ld 8 R11 a)).reg R11 + o) n) = num (bytes s.m (.deref p o) n)
        rw [hw, bytes_deref]
      · show sval (rd s.m.mem ((Abi.step s.m (.ld 8 R11 a)).reg R11 + o) n) = _
        rw [hw, bytes_deref]

theorem emitLoad_some {mk : Opd → CIns} {src : Src} (h1 : ∀ p, src ≠ .addr p) (h2 : ∀ i, src ≠ .imm i) :
    ∃ code, emitLoad mk src = some code := by
  cases src with
  | imm i => exact (h2 i rfl).elim
  | addr p => exact (h1 p rfl).elim
  | place p => cases p <;> simp [emitLoad, Place.ea]
  | deref p o => cases p <;> simp [emitLoad, Place.ea]

/-! ### Integers -/

theorem holds_kept {s t : CM} {w v} (h : Holds s t w v) (hk : s.skip = none) : Kept s t [AX, CX, R11] := by
  refine ⟨by rw [h.same]; exact hk, by rw [h.same], fun r hr => ?_, fun r _ _ => by rw [h.same], fun x _ => by rw [h.mem]⟩
  simp only [List.mem_cons, List.not_mem_nil, or_false, not_or] at hr
  exact h.reg r hr.1 hr.2.2

/-- The low bytes of a register. -/
theorem HoldsIn.narrow {d : Nat} {s t : CM} {w v} (h : HoldsIn d s t w v) {n : Nat} (hn : n ≤ w) : t.m.reg d % 256 ^ n = v % 256 ^ n :=
  emod_pow_le hn h.low

theorem int_int {v : Val} {s : CM} {wd : Nat} {sg : Bool} (enc) (limit two64 : Int) (hg : v.Good s.m) (hk : s.skip = none)
    (hw : IsSize wd) :
    ∃ code, loadCast limit two64 (.int v) (.int wd sg) = some code ∧ Kept s (run enc s code) [AX, CX, R11] ∧
      (run enc s code).m.reg AX % 256 ^ wd = v.value s.m % 256 ^ wd := by
  have hw' : (if wd < 4 then 4 else wd) = 4 ∨ (if wd < 4 then 4 else wd) = 8 := by
    unfold IsSize at hw; split_ifs <;> omega
  obtain ⟨code, hc⟩ := loadInt_some hg hw'
  have h := loadInt_holds (enc := enc) hg hk hw' hc
  exact ⟨code, hc, holds_kept h hk, h.narrow (by split_ifs <;> omega)⟩

/-! ### Integers to float and double -/

theorem low_eq {w : Nat} (hw : 0 < w) {a v : Int} (h : a % 256 ^ w = v % 256 ^ w)
    (hv : -(2 ^ (8 * w - 1)) ≤ v ∧ v < 2 ^ (8 * w - 1)) : low w a = v := by
  unfold low
  rw [(le_eq_iff w a v).mpr h]
  exact sval_le hw hv

/-- The range of the values of a type. -/
theorem value_range {v : Val} {s : M} (hg : v.Good s) {k : Nat} (hk : v.field = none → k = 8 * v.sz)
    (hf : ∀ off width, v.field = some (off, width) → width ≤ k) (h0 : 0 < k) :
    if v.signed then -(2 ^ (k - 1)) ≤ v.value s ∧ v.value s < 2 ^ (k - 1) else 0 ≤ v.value s ∧ v.value s < 2 ^ k := by
  cases h : v.field with
  | none =>
    obtain rfl := hk h
    unfold Val.value
    simp only [h]
    split_ifs
    · have := sval_range (bytes s v.src v.sz)
      rw [bytes_length] at this
      exact this (by omega)
    · have h1 := val_nonneg (bytes s v.src v.sz)
      have h2 := val_lt (bytes s v.src v.sz)
      rw [bytes_length, pow256] at h2
      exact ⟨h1, h2⟩
  | some f =>
    obtain ⟨off, width⟩ := f
    obtain ⟨g1, _⟩ := hg.field off width h
    have := field_range (s := s) h g1
    have e1 := two_pow_le (show width - 1 ≤ k - 1 by have := hf off width h; omega)
    have e2 := two_pow_le (hf off width h)
    split_ifs at this ⊢ <;> omega

/-- As a number of the whole type. -/
theorem value_range_size {v : Val} {s : M} (hg : v.Good s) :
    if v.signed then -(2 ^ (8 * v.sz - 1)) ≤ v.value s ∧ v.value s < 2 ^ (8 * v.sz - 1)
    else 0 ≤ v.value s ∧ v.value s < 2 ^ (8 * v.sz) := by
  refine value_range hg (fun _ => rfl) (fun off width h => (hg.field off width h).2.2.2) ?_
  have := hg.size
  unfold IsSize at this
  omega

theorem or_bit (n : Nat) {b : Nat} (hb : b < 2) : b ||| n = 2 * (n / 2) + (if b = 0 then n % 2 else 1) := by
  have h1 : (b ||| n) / 2 = n / 2 := by
    rw [Nat.or_div_two, show b / 2 = 0 by omega, Nat.zero_or]
  have h2 : (b ||| n) % 2 = if b = 0 then n % 2 else 1 := by
    split_ifs with h
    · rw [h, Nat.zero_or]
    · exact Nat.or_mod_two_eq_one.mpr (Or.inl (by omega))
  omega

/-- The two halves of a large number. -/
theorem halves {x : Int} (h0 : 0 ≤ x) :
    ∃ a b : Int, x = 4 * a + b ∧ 0 ≤ b ∧ b < 4 ∧
      ((((x % 256 ^ 4).toNat &&& 1) ||| (x / 2).toNat : Nat) : Int) = 2 * a + (if b = 0 then 0 else 1) := by
  refine ⟨x / 4, x % 4, by omega, by omega, by omega, ?_⟩
  rw [Nat.and_one_is_mod, or_bit _ (Nat.mod_lt _ (by omega))]
  push_cast
  split_ifs <;> omega

theorem low_neg {x : Int} (h0 : 0 ≤ x) (h1 : x < 256 ^ 8) : low 8 x < 0 ↔ 2 ^ 63 ≤ x := by
  rw [low_emod h0 h1]
  split_ifs <;> omega

theorem emod_half {y : Int} (h0 : 0 ≤ y) (h1 : y < 2 ^ 63) : y % 256 ^ 8 = y :=
  Int.emod_eq_of_lt h0 (lt_trans h1 (by norm_num))

theorem unsigned_tail {s : CM} {w : Nat} {x : Int} (enc) (hk : s.skip = none) (hx : s.m.reg AX = x) (h0 : 0 ≤ x)
    (h1 : x < 256 ^ 8) (hw : prec w ≤ 61) (hp : 0 < prec w) :
    let t := run enc s [.test AX, .js 1, .cvtsi2s 8 w (XMM 0) (.reg AX), .jmp 2, .label 1,
      .int (.mov 8 CX AX), .shr false 8 CX 1, .andi 4 AX 1, .or AX CX,
      .cvtsi2s 8 w (XMM 0) (.reg AX), .adds w (XMM 0) (XMM 0), .label 2]
    Kept s t [AX, CX, R11] ∧ t.xmm (XMM 0) = some (rnd (prec w) x) := by
  by_cases hn : 2 ^ 63 ≤ x
  · have hlow : low 8 x < 0 := (low_neg h0 h1).mpr hn
    obtain ⟨a, b, e1, e2, e3, e4⟩ := halves h0
    have hy : ((((x % 256 ^ 4).toNat &&& 1) ||| (x / 2).toNat : Nat) : Int) < 2 ^ 63 := by
      rw [e4]; split_ifs <;> omega
    have hst := sticky hw hn (by omega) ⟨a, b, e1, e2, e3, e4⟩
    have e8 : x % 256 ^ 8 = x := Int.emod_eq_of_lt h0 h1
    have e8' : x / 2 % 256 ^ 8 = x / 2 := Int.emod_eq_of_lt (by omega) (by omega)
    generalize hY : (x % 256 ^ 4).toNat &&& 1 ||| (x / 2).toNat = Y at *
    have ly : low 8 (Y : Int) = Y := by rw [low_emod (by omega) (by omega), if_pos (by omega)]
    have h4 : ∀ n : Nat, ((n &&& 1 : Nat) : Int) % 256 ^ 4 = (n &&& 1 : Nat) := by
      intro n; rw [Nat.and_one_is_mod]; exact Int.emod_eq_of_lt (by omega) (by omega)
    have h8 : ∀ n : Nat, ((n &&& 1 : Nat) : Int) % 256 ^ 8 = (n &&& 1 : Nat) := by
      intro n; rw [Nat.and_one_is_mod]; exact Int.emod_eq_of_lt (by omega) (by omega)
    simp only [run, List.foldl, step, exec, hk, hx, CM.setNum, CM.intOpd, hlow, CM.setInt, Abi.step, M.set, merged, val_le_emod,
      decide_true, if_true, reduceCtorEq, if_false, Bool.false_eq_true, e8,
      show decide (8 < 4) = false from rfl, show decide (4 < 4) = false from rfl, show decide (17 ≤ CX) = false from rfl,
      show AX ≠ CX by decide, show CX ≠ AX by decide, Bool.or_false, pow_one, e8', h4, h8, Int.toNat_natCast, hY]
    have e8y : (Y : Int) % 256 ^ 8 = Y := emod_half (Int.natCast_nonneg Y) hy
    rw [e8y, ly, hst, rnd_rep (rep_rnd hp _)]
    refine ⟨⟨rfl, rfl, fun r hr => ?_, fun r hr _ => ?_, fun _ _ => rfl⟩, rfl⟩
    · simp only [List.mem_cons, List.not_mem_nil, or_false, not_or] at hr
      simp only [hr.1, hr.2.1, if_false]
    · simp only [hr, if_false]
  · have hlow : ¬ low 8 x < 0 := fun h => hn ((low_neg h0 h1).mp h)
    have hl : low 8 x = x := by rw [low_emod h0 h1, if_pos (by omega)]
    have hneg : ¬ x < 0 := by omega
    simp [run, step, exec, hk, hx, CM.setNum, CM.intOpd, hl, hneg]
    exact ⟨rfl, rfl, fun _ _ => rfl, fun r hr _ => by simp only [hr, if_false], fun _ _ => rfl⟩

theorem Kept.trans {s t u : CM} {regs : List Nat} (hs : SP ∉ regs) (h : Kept s t regs) (g : Kept t u regs) : Kept s u regs := by
  refine ⟨g.skip, g.cw.trans h.cw, fun r hr => (g.reg r hr).trans (h.reg r hr),
    fun r h1 h2 => (g.xmm r h1 h2).trans (h.xmm r h1 h2), fun x hx => ?_⟩
  rw [g.mem x (by rw [h.reg SP hs]; exact hx), h.mem x hx]

theorem Kept.mono {s t : CM} {a b : List Nat} (hs : ∀ r ∈ a, r ∈ b) (h : Kept s t a) : Kept s t b :=
  ⟨h.skip, h.cw, fun r hr => h.reg r fun h' => hr (hs r h'), h.xmm, h.mem⟩

theorem Scratch.kept {s t : CM} (h : Scratch s t) (hk : s.skip = none) : Kept s t [AX, CX, R11] := by
  refine ⟨by rw [h.skip, hk], h.cw, fun r hr => ?_, fun r _ _ => by rw [h.xmm], fun x _ => by rw [h.mem]⟩
  simp only [List.mem_cons, List.not_mem_nil, or_false, not_or] at hr
  exact h.reg r hr.2.2

theorem prec_real {w : Nat} (h : IsReal w) : prec w ≤ 61 ∧ 0 < prec w := by
  rcases h with rfl | rfl <;> decide

/-- A number set in `%xmm0`. -/
theorem setNum_kept {s t : CM} (h : Kept s t [AX, CX, R11]) (x : Option ℚ) : Kept s (t.setNum (XMM 0) x) [AX, CX, R11] :=
  ⟨h.skip, h.cw, h.reg, fun r h0 h1 => by simp only [CM.setNum, h0, if_false]; exact h.xmm r h0 h1, h.mem⟩

theorem setInt_kept {s t : CM} (h : Kept s t [AX, CX, R11]) (w : Nat) (x : Int) : Kept s (t.setInt w AX x) [AX, CX, R11] := by
  refine ⟨h.skip, h.cw, fun r hr => ?_, h.xmm, h.mem⟩
  have : r ≠ AX := by rintro rfl; exact hr (List.mem_cons_self ..)
  simp only [CM.setInt, set_reg, this, if_false]
  exact h.reg r hr

theorem int_real {v : Val} {s : CM} {w : Nat} (enc) (limit two64 : Int) (hg : v.Good s.m) (hk : s.skip = none) (hw : IsReal w)
    (hf : ∀ off width, v.field = some (off, width) → v.signed = true → width ≤ 32) :
    ∃ code, loadCast limit two64 (.int v) (.real w) = some code ∧ Kept s (run enc s code) [AX, CX, R11] ∧
      (run enc s code).xmm (XMM 0) = some (rnd (prec w) (v.value s.m)) := by
  -- through 32 bits
  have via4 : ∀ code, loadInt v AX 4 = some code → (-(2 ^ 31) ≤ v.value s.m ∧ v.value s.m < 2 ^ 31) →
      Kept s (run enc s (code ++ [.cvtsi2s 4 w (XMM 0) (.reg AX)])) [AX, CX, R11] ∧
        (run enc s (code ++ [.cvtsi2s 4 w (XMM 0) (.reg AX)])).xmm (XMM 0) = some (rnd (prec w) (v.value s.m)) := by
    intro code hc hr
    have h := loadInt_holds (enc := enc) hg hk (.inl rfl) hc
    rw [run_append, run_cons, run_nil, step_on (by rw [h.skip, hk])]
    have hl : low 4 ((run enc s code).m.reg AX) = v.value s.m := low_eq (by omega) h.low hr
    refine ⟨setNum_kept (holds_kept h hk) _, ?_⟩
    simp only [exec, CM.setNum, CM.intOpd, if_true, hl]
  have hsz := hg.size
  unfold IsSize at hsz
  simp only [loadCast, loadIntegerAsFloat]
  cases hs : v.signed with
  | true =>
    simp only [if_true]
    split_ifs with hc
    · obtain ⟨code, hl⟩ := loadInt_some hg (.inl rfl : 4 = 4 ∨ 4 = 8)
      refine ⟨_, by rw [hl]; rfl, via4 code hl ?_⟩
      have h1 := value_range (k := 32) hg
      cases hfd : v.field with
      | none =>
        have h1 := value_range_size hg
        rw [hs] at h1
        simp only [if_true] at h1
        have hlt : v.sz < 4 := by rw [hfd] at hc; simpa using hc
        have := two_pow_le (show 8 * v.sz - 1 ≤ 31 by omega)
        omega
      | some f =>
        have h1 := value_range (k := 32) hg (fun h => by rw [h] at hfd; simp at hfd)
          (fun off width h => hf off width h hs) (by omega)
        rw [hs] at h1
        simpa using h1
    · have hfd : v.field = none := by
        cases hfd : v.field with
        | none => rfl
        | some f => exact (hc (.inr (by rw [hfd]; rfl))).elim
      obtain ⟨code, hl⟩ := emitLoad_some (mk := .cvtsi2s v.sz w (XMM 0)) hg.src hg.imm
      obtain ⟨t, o, h1, h2, h3, h4⟩ := emitLoad_opd enc hl hk (fun r o h => (hg.pointer r o h).2)
      refine ⟨code, hl, ?_⟩
      rw [h2]
      refine ⟨setNum_kept (h1.kept hk) _, ?_⟩
      simp only [exec, CM.setNum, if_true, h4]
      unfold Val.value
      simp only [hfd, hs, if_true]
  | false =>
    simp only [Bool.false_eq_true, if_false]
    have hr := value_range_size hg
    rw [hs] at hr
    simp only [Bool.false_eq_true, if_false] at hr
    split_ifs with hc
    · obtain ⟨code, hl⟩ := loadInt_some hg (.inl rfl : 4 = 4 ∨ 4 = 8)
      refine ⟨_, by rw [hl]; rfl, via4 code hl ?_⟩
      have := two_pow_le (show 8 * v.sz ≤ 16 by omega)
      omega
    all_goals
      obtain ⟨code, hl⟩ := loadInt_some hg (.inr rfl : 8 = 4 ∨ 8 = 8)
      refine ⟨_, by rw [hl]; rfl, ?_⟩
      have h := loadInt_holds (enc := enc) hg hk (.inr rfl) hl
      have hv8 : v.value s.m < 256 ^ 8 := by
        have := two_pow_le (show 8 * v.sz ≤ 64 by omega)
        omega
      have hreg : (run enc s code).m.reg AX = v.value s.m := by
        have := h.low
        rwa [Int.emod_eq_of_lt h.nonneg h.lt, Int.emod_eq_of_lt hr.1 hv8] at this
      obtain ⟨p1, p2⟩ := prec_real hw
    · have ht : Kept s (run enc s (code ++ [.int (.mov 4 AX AX)])) [AX, CX, R11] ∧
          (run enc s (code ++ [.int (.mov 4 AX AX)])).m.reg AX = v.value s.m := by
        rw [run_append, run_cons, run_nil, step_on (by rw [h.skip, hk])]
        have hk' := holds_kept h hk
        refine ⟨⟨hk'.skip, hk'.cw, fun r hr => ?_, hk'.xmm, hk'.mem⟩, ?_⟩
        · have : r ≠ AX := by rintro rfl; exact hr (List.mem_cons_self ..)
          simp only [exec, Abi.step, set_reg, this, if_false]
          exact hk'.reg r hr
        · simp only [exec, Abi.step, set_reg, if_true, merged, hreg, show decide (4 < 4) = false from rfl,
            show decide (17 ≤ AX) = false from rfl, Bool.or_false, Bool.false_eq_true, if_false]
          rename_i h4
          rw [h4] at hr
          exact Int.emod_eq_of_lt hr.1 (by omega)
      rw [run_append]
      obtain ⟨k1, k2⟩ := unsigned_tail enc ht.1.skip ht.2 hr.1 hv8 p1 p2
      exact ⟨ht.1.trans (by decide) k1, k2⟩
    · rw [List.append_nil, run_append]
      obtain ⟨k1, k2⟩ := unsigned_tail enc (by rw [h.skip, hk]) hreg hr.1 hv8 p1 p2
      exact ⟨(holds_kept h hk).trans (by decide) k1, k2⟩

/-! ### Float and double -/

theorem bytes_length' (s : M) (src : Src) (n : Nat) : (bytes s src n).length = n := bytes_length s src n

/-- What a register or memory has is a number of the type. -/
theorem realOf_rep {s : CM} {sz : Nat} {src : Src} (hg : RealGood s sz src) {x : ℚ} (h : realOf s sz src = some x) :
    Rep (prec sz) x := by
  have key : num (bytes s.m src sz) = some x → Rep (prec sz) x := by
    intro h
    have := rep_num h
    rwa [bytes_length] at this
  cases hs : src with
  | imm i => exact (hg.imm i hs).elim
  | addr p => exact (hg.addr p hs).elim
  | deref p o => rw [hs] at h; exact key (by rw [hs]; exact h)
  | place p =>
    cases p with
    | temp r => rw [hs] at h; exact (hg.place r hs).2 x h
    | frame o => rw [hs] at h; exact key (by rw [hs]; exact h)
    | global o => rw [hs] at h; exact key (by rw [hs]; exact h)

theorem real_real {s : CM} {sz w : Nat} {src : Src} {x : ℚ} (enc) (limit two64 : Int) (hg : RealGood s sz src)
    (hk : s.skip = none) (hx : realOf s sz src = some x) :
    ∃ code, loadCast limit two64 (.real sz src) (.real w) = some code ∧ Kept s (run enc s code) [AX, CX, R11] ∧
      (run enc s code).xmm (XMM 0) = some (if sz = w then x else rnd (prec w) x) := by
  simp only [loadCast, loadSse]
  by_cases hne : sz ≠ w
  · rw [if_pos hne]
    obtain ⟨code, hl⟩ := emitLoad_some (mk := .cvts2s sz w (XMM 0)) hg.addr hg.imm
    obtain ⟨t, o, h1, h2, h3, h4⟩ := emitLoad_opd enc hl hk (fun r o h => (hg.pointer r o h).2)
    refine ⟨code, hl, ?_⟩
    rw [h2]
    refine ⟨setNum_kept (h1.kept hk) _, ?_⟩
    simp only [exec, CM.setNum, if_true, h3, hx, Option.map_some, if_neg (show ¬ sz = w from hne)]
  · rw [if_neg hne]
    have hne : sz = w := by simpa using hne
    subst hne
    obtain ⟨code, hl⟩ := emitLoad_some (mk := .movs sz (XMM 0)) hg.addr hg.imm
    obtain ⟨t, o, h1, h2, h3, h4⟩ := emitLoad_opd enc hl hk (fun r o h => (hg.pointer r o h).2)
    refine ⟨code, hl, ?_⟩
    rw [h2]
    refine ⟨setNum_kept (h1.kept hk) _, ?_⟩
    simp only [exec, CM.setNum, if_true, h3, hx]

/-! ### Float and double to integers -/

theorem toInt_fits {w : Nat} {i : Int} (h : -(2 ^ (8 * w - 1)) ≤ i ∧ i < 2 ^ (8 * w - 1)) : toInt w (some i) = i := by
  unfold toInt
  exact if_pos h

/-- The same operand after other registers have changed. -/
theorem realOf_congr {s t : CM} {sz : Nat} {src : Src} (hg : RealGood s sz src) (hm : t.m.mem = s.m.mem)
    (hr : ∀ r, r ≠ R11 → t.m.reg r = s.m.reg r) (hx : ∀ r, isTempSse r → t.xmm r = s.xmm r) (n : Nat) :
    realOf t n src = realOf s n src := by
  have hbp : t.m.reg BP = s.m.reg BP := hr BP (by decide)
  have hplace : ∀ p : Place, (∀ r, p ≠ .temp r) → ∀ j, p.byte t.m j = p.byte s.m j := by
    intro p hp j
    cases p with
    | temp r => exact (hp r rfl).elim
    | frame o => simp only [Place.byte, Place.address, hm, hbp]
    | global o => simp only [Place.byte, Place.address, hm]
  cases hs : src with
  | imm i => exact (hg.imm i hs).elim
  | addr p => exact (hg.addr p hs).elim
  | place p =>
    cases p with
    | temp r => exact hx r (hg.place r hs).1
    | frame o =>
      show num (bytes t.m _ n) = num (bytes s.m _ n)
      congr 1
      exact List.map_congr_left fun j _ => hplace (.frame o) (fun r => by simp) j
    | global o =>
      show num (bytes t.m _ n) = num (bytes s.m _ n)
      congr 1
      exact List.map_congr_left fun j _ => hplace (.global o) (fun r => by simp) j
  | deref p o =>
    show num (bytes t.m _ n) = num (bytes s.m _ n)
    have hw : p.word t.m = p.word s.m := by
      unfold Place.word
      congr 1
      refine List.map_congr_left fun j _ => ?_
      cases p with
      | temp r =>
        have h1 := (hg.pointer r o hs).1
        have : r ≠ R11 := by rintro rfl; revert h1; decide
        simp only [Place.byte, hr r this]
      | frame o => exact hplace _ (fun r => by simp) j
      | global o => exact hplace _ (fun r => by simp) j
    rw [bytes_deref, bytes_deref, hm, hw]

theorem run_skipped {enc} {n : Nat} : ∀ (is : List CIns) {s : CM}, s.skip = some n → (∀ i ∈ is, i ≠ .label n) → run enc s is = s
  | [], _, _, _ => rfl
  | i :: is, s, hs, h => by
    rw [run_cons]
    have : step enc s i = s := by
      unfold step
      rw [hs]
      exact if_neg (h i (List.mem_cons_self ..))
    rw [this]
    exact run_skipped is hs fun j hj => h j (List.mem_cons_of_mem _ hj)

theorem emitLoad_nolabel {mk : Opd → CIns} {src : Src} {code : List CIns} {n : Nat} (h : emitLoad mk src = some code)
    (hm : ∀ o, mk o ≠ .label n) : ∀ i ∈ code, i ≠ .label n := by
  intro i hi
  cases src with
  | imm v => simp [emitLoad] at h
  | addr p => simp [emitLoad] at h
  | place p =>
    cases p <;>
      (simp only [emitLoad, Place.ea, Option.bind_eq_bind, Option.bind_some, Option.some.injEq] at h
       subst h
       simp only [List.mem_cons, List.not_mem_nil, or_false] at hi
       rw [hi]; exact hm _)
  | deref p o =>
    cases p <;>
      (simp only [emitLoad, Place.ea, Option.bind_eq_bind, Option.bind_some, Option.some.injEq] at h
       subst h
       simp only [List.mem_cons, List.not_mem_nil, or_false] at hi
       rcases hi with rfl | rfl <;> first | exact hm _ | simp)

/-- One instruction that truncates. -/
theorem truncate {s : CM} {sz W wd : Nat} {src : Src} {x : ℚ} {code : List CIns} (enc) (hg : RealGood s sz src)
    (hk : s.skip = none) (hx : realOf s sz src = some x) (hW : 4 ≤ W) (hwd : wd ≤ W)
    (hf : -(2 ^ (8 * W - 1)) ≤ trunc x ∧ trunc x < 2 ^ (8 * W - 1)) (h : emitLoad (.cvtts2si sz W AX) src = some code) :
    Kept s (run enc s code) [AX, CX, R11] ∧ (run enc s code).m.reg AX % 256 ^ wd = trunc x % 256 ^ wd := by
  obtain ⟨t, o, h1, h2, h3, h4⟩ := emitLoad_opd enc h hk (fun r o h => (hg.pointer r o h).2)
  rw [h2]
  refine ⟨setInt_kept (h1.kept hk) _ _, ?_⟩
  refine emod_pow_le hwd ?_
  simp only [exec, CM.setInt, set_reg, if_true, merged, show decide (W < 4) = false by simp; omega, Bool.false_eq_true,
    if_false, h3, hx, Option.map_some, toInt_fits hf]
  exact Int.emod_emod_of_dvd _ (Int.dvd_refl _)

theorem trunc_lt {x : ℚ} {n : Int} (hn : 0 < n) (h : trunc x < n) : x < n := by
  unfold trunc at h
  split_ifs at h with h0
  · exact Int.floor_lt.mp h
  · have : (0 : ℚ) < n := by exact_mod_cast hn
    linarith

theorem trunc_sub {x : ℚ} {n : Int} (hn : 0 ≤ n) (h : n ≤ x) : trunc (x - n) = trunc x - n := by
  have : (0 : ℚ) ≤ n := by exact_mod_cast hn
  unfold trunc
  rw [if_pos (by linarith), if_pos (by linarith), Int.floor_sub_intCast]

theorem xor_top {n : Nat} (h : n < 2 ^ 63) : n ^^^ 2 ^ 63 = n + 2 ^ 63 := by
  apply Nat.eq_of_testBit_eq
  intro i
  rw [Nat.testBit_xor, Nat.add_comm, Nat.testBit_two_pow]
  by_cases hi : 63 = i
  · subst hi
    rw [Nat.testBit_two_pow_add_eq]
    simp
  · rw [decide_eq_false hi, Bool.xor_false]
    rcases lt_or_gt_of_ne hi with hlt | hlt
    · rw [Nat.testBit_lt_two_pow (lt_of_lt_of_le h (Nat.pow_le_pow_right (by omega) hlt.le)),
        Nat.testBit_lt_two_pow (x := 2 ^ 63 + n) (i := i) ?_]
      have : 2 ^ 64 ≤ 2 ^ i := Nat.pow_le_pow_right (by omega) hlt
      omega
    · rw [Nat.testBit_two_pow_add_gt hlt]

/-- Two numbers compared, and what follows. -/
theorem ulong_tail {s : CM} {sz : Nat} {src : Src} {x : ℚ} {c : List CIns} (enc) (hg : RealGood s sz src) (hk : s.skip = none)
    (hx : realOf s sz src = some x) (h0 : s.xmm (XMM 0) = some x) (h1 : s.xmm (XMM 1) = some (2 ^ 63))
    (hp : prec sz ≤ 64 ∧ 0 < prec sz) (hf : 0 ≤ trunc x ∧ trunc x < 2 ^ 64) (hc : emitLoad (.cvtts2si sz 8 AX) src = some c) :
    let t := run enc s ([.ucomis (XMM 0) (XMM 1), .jae 1] ++ c
      ++ [.jmp 2, .label 1, .subs sz (XMM 0) (XMM 1), .cvtts2si sz 8 AX (.reg (XMM 0)),
          .int (.movi 8 CX (2 ^ 63)), .xor AX CX, .label 2])
    Kept s t [AX, CX, R11] ∧ t.m.reg AX % 256 ^ 8 = trunc x % 256 ^ 8 := by
  have hrep := realOf_rep hg hx
  dsimp only
  rw [run_append, run_append]
  by_cases hlt : x < 2 ^ 63
  · have e : run enc s [.ucomis (XMM 0) (XMM 1), .jae 1] = { s with cf := true } := by
      simp only [run, List.foldl, step, exec, hk, h0, h1, hlt, decide_true, if_true]
    rw [e]
    have hb : -(2 ^ (8 * 8 - 1)) ≤ trunc x ∧ trunc x < 2 ^ (8 * 8 - 1) := by
      refine ⟨by omega, ?_⟩
      unfold trunc
      split_ifs with hx0
      · rw [Int.floor_lt]; push_cast; exact hlt
      · have : (0 : Int) ≤ ⌊-x⌋ := Int.floor_nonneg.mpr (by linarith)
        omega
    have hg' : RealGood { s with cf := true } sz src := ⟨hg.addr, hg.imm, hg.place, hg.pointer⟩
    have hx' : realOf { s with cf := true } sz src = some x := by
      rw [← hx]; exact realOf_congr hg rfl (fun _ _ => rfl) (fun _ _ => rfl) sz
    obtain ⟨k1, k2⟩ := truncate enc hg' hk hx' (by omega) (le_refl 8) hb hc
    generalize run enc { s with cf := true } c = t at *
    have ht : run enc t [.jmp 2, .label 1, .subs sz (XMM 0) (XMM 1), .cvtts2si sz 8 AX (.reg (XMM 0)),
        .int (.movi 8 CX (2 ^ 63)), .xor AX CX, .label 2] = { t with skip := none } := by
      have := k1.skip
      simp [run, step, exec, this]
    rw [ht]
    exact ⟨⟨rfl, k1.cw, k1.reg, k1.xmm, k1.mem⟩, k2⟩
  · have e : run enc s [.ucomis (XMM 0) (XMM 1), .jae 1] = { s with cf := false, skip := some 1 } := by
      simp only [run, List.foldl, step, exec, hk, h0, h1, hlt, decide_false, Bool.false_eq_true, if_false]
    rw [e, run_skipped c rfl (emitLoad_nolabel hc (by simp))]
    have hge : (2 : ℚ) ^ 63 ≤ x := not_lt.mp hlt
    have hlt' : x < 2 ^ 64 := by
      have := trunc_lt (n := 2 ^ 64) (by norm_num) hf.2
      push_cast at this; exact this
    have hsub : rnd (prec sz) (x - 2 ^ 63) = x - 2 ^ 63 := rnd_rep (rep_sub hp.2 hp.1 hrep hge hlt')
    have htr : trunc (x - 2 ^ 63) = trunc x - 2 ^ 63 := by
      have := trunc_sub (x := x) (n := 2 ^ 63) (by norm_num) (by push_cast; exact hge)
      push_cast at this; exact this
    have hlow : 2 ^ 63 ≤ trunc x := by
      unfold trunc
      rw [if_pos (le_trans (by positivity) hge), Int.le_floor]
      push_cast; exact hge
    have hfit : toInt 8 (some (trunc x - 2 ^ 63)) = trunc x - 2 ^ 63 := toInt_fits ⟨by omega, by omega⟩
    have m8 : (trunc x - 2 ^ 63) % 256 ^ 8 = trunc x - 2 ^ 63 := emod_half (by omega) (by omega)
    have hxor : (((trunc x - 2 ^ 63).toNat ^^^ (2 ^ 63 : Int).toNat : Nat) : Int) = trunc x := by
      rw [show (2 ^ 63 : Int).toNat = 2 ^ 63 by rfl, xor_top (by omega)]
      omega
    have m63 : (2 : Int) ^ 63 % 256 ^ 8 = 2 ^ 63 := by decide
    have mT : trunc x % 256 ^ 8 = trunc x := Int.emod_eq_of_lt hf.1 (lt_of_lt_of_le hf.2 (by norm_num))
    simp only [run, List.foldl, step, exec, CM.setNum, CM.numOpd, CM.setInt, Abi.step, M.set, merged, val_le_emod,
      if_true, reduceCtorEq, if_false, Bool.false_eq_true, h0, h1, hsub, Option.map_some, htr, hfit,
      show decide (8 < 4) = false from rfl, show AX ≠ CX by decide, m8, m63, hxor, mT,
      show XMM 0 ≠ XMM 1 by decide, show XMM 1 ≠ XMM 0 by decide]
    refine ⟨⟨rfl, rfl, fun r hr => ?_, fun r h0 h1 => ?_, fun _ _ => rfl⟩, trivial⟩
    · simp only [List.mem_cons, List.not_mem_nil, or_false, not_or] at hr
      simp only [hr.1, hr.2.1, if_false]
    · simp only [h0, if_false]

theorem real_int {s : CM} {sz wd : Nat} {sg : Bool} {src : Src} {x : ℚ} (enc) (limit two64 : Int) (hg : RealGood s sz src)
    (hz : IsReal sz) (hk : s.skip = none) (hx : realOf s sz src = some x) (hw : IsSize wd) (hf : Fits wd sg (trunc x))
    (hl : Const s sz limit (2 ^ 63)) :
    ∃ code, loadCast limit two64 (.real sz src) (.int wd sg) = some code ∧ Kept s (run enc s code) [AX, CX, R11] ∧
      (run enc s code).m.reg AX % 256 ^ wd = trunc x % 256 ^ wd := by
  unfold Fits at hf
  unfold IsSize at hw
  -- one instruction
  have one : ∀ W, 4 ≤ W → wd ≤ W → (-(2 ^ (8 * W - 1)) ≤ trunc x ∧ trunc x < 2 ^ (8 * W - 1)) →
      ∃ code, emitLoad (.cvtts2si sz W AX) src = some code ∧ Kept s (run enc s code) [AX, CX, R11] ∧
        (run enc s code).m.reg AX % 256 ^ wd = trunc x % 256 ^ wd := by
    intro W h4 hW hb
    obtain ⟨code, hc⟩ := emitLoad_some (mk := .cvtts2si sz W AX) hg.addr hg.imm
    exact ⟨code, hc, truncate enc hg hk hx h4 hW hb hc⟩
  simp only [loadCast, loadFloatAsInteger]
  by_cases c1 : wd < 4
  · simp only [if_pos c1, if_true, if_neg (show ¬ 4 < 4 by omega)]
    refine one 4 (by omega) (by omega) ?_
    have e1 := two_pow_le (show 8 * wd - 1 ≤ 31 by omega)
    have e2 := two_pow_le (show 8 * wd ≤ 31 by omega)
    split_ifs at hf <;> omega
  rw [if_neg c1]
  cases sg with
  | true =>
    simp only [if_true] at hf ⊢
    rw [if_neg c1]
    exact one wd (by omega) (le_refl _) hf
  | false =>
    simp only [Bool.false_eq_true, if_false] at hf ⊢
    by_cases c2 : wd < 8
    · simp only [if_neg c1, if_pos c2]
      refine one 8 (by omega) (by omega) ?_
      have e2 := two_pow_le (show 8 * wd ≤ 63 by omega)
      omega
    obtain rfl : wd = 8 := by omega
    simp only [if_neg c1, if_neg c2, loadSse, ne_eq, not_true_eq_false, if_false]
    -- both numbers are loaded
    obtain ⟨l, hl'⟩ := emitLoad_some (mk := .movs sz (XMM 0)) hg.addr hg.imm
    obtain ⟨c, hc⟩ := emitLoad_some (mk := .cvtts2si sz 8 AX) hg.addr hg.imm
    have hk' : emitLoad (.movs sz (XMM 1)) (.place (.global limit)) = some [.movs sz (XMM 1) (.mem (.abs limit))] := rfl
    rw [hl', hk', hc]
    refine ⟨_, rfl, ?_⟩
    obtain ⟨t, o, h1, h2, h3, h4⟩ := emitLoad_opd enc hl' hk (fun r o h => (hg.pointer r o h).2)
    have hs2 : run enc s (l ++ [.movs sz (XMM 1) (.mem (.abs limit))])
        = (t.setNum (XMM 0) (some x)).setNum (XMM 1) (some (2 ^ 63)) := by
      rw [run_append, h2]
      simp only [exec, h3, hx]
      rw [run_cons, run_nil, step_on (by show t.skip = none; rw [h1.skip, hk])]
      simp only [exec]
      congr 1
      show num (rd t.m.mem limit sz) = _
      rw [h1.mem, hl.1]
    rw [List.append_assoc, List.append_assoc, run_append, hs2, ← List.append_assoc]
    have hsse : ∀ r, isTempSse r → r ≠ XMM 0 ∧ r ≠ XMM 1 := by
      intro r h; unfold isTempSse at h; unfold XMM; omega
    have hxm : ∀ r, isTempSse r → ((t.setNum (XMM 0) (some x)).setNum (XMM 1) (some (2 ^ 63))).xmm r = s.xmm r := by
      intro r h
      obtain ⟨a, b⟩ := hsse r h
      simp only [CM.setNum, a, b, if_false, h1.xmm]
    have hg' : RealGood ((t.setNum (XMM 0) (some x)).setNum (XMM 1) (some (2 ^ 63))) sz src := by
      refine ⟨hg.addr, hg.imm, fun r h => ?_, fun r o h => ?_⟩
      · obtain ⟨a, b⟩ := hg.place r h
        exact ⟨a, fun y hy => b y (by rw [← hy, hxm r a])⟩
      · obtain ⟨a, b, c⟩ := hg.pointer r o h
        have : r ≠ R11 := by rintro rfl; revert a; decide
        exact ⟨a, by show 0 ≤ t.m.reg r; rw [h1.reg r this]; exact b, by show t.m.reg r < _; rw [h1.reg r this]; exact c⟩
    have hx' : realOf ((t.setNum (XMM 0) (some x)).setNum (XMM 1) (some (2 ^ 63))) sz src = some x := by
      exact (realOf_congr (t := (t.setNum (XMM 0) (some x)).setNum (XMM 1) (some (2 ^ 63))) hg h1.mem h1.reg hxm sz).trans hx
    have hpr := prec_real hz
    obtain ⟨k1, k2⟩ := ulong_tail enc hg' (by show t.skip = none; rw [h1.skip, hk]) hx'
      (by simp [CM.setNum, XMM]) (by simp [CM.setNum]) ⟨by omega, hpr.2⟩ hf hc
    refine ⟨Kept.trans (by decide) ?_ k1, k2⟩
    have kt := h1.kept hk
    refine ⟨kt.skip, kt.cw, kt.reg, fun r a b => ?_, kt.mem⟩
    simp only [CM.setNum, a, b, if_false, h1.xmm]

end Verif.Conv
