import Verif.Conv.CastLemmas
import Verif.Abi.VaMain

/-!
# Conversions which use the x87 stack
-/

namespace Verif.Conv

open Verif.Abi

/-- Registers which conversions through the x87 stack may change. -/
abbrev used : List Nat := [AX, CX, SI, R11]

theorem sp_used : SP ∉ used := by decide

theorem rd_wr (m : Mem) (a : Int) (bs : List UInt8) (n : Nat) (h : n ≤ bs.length) : rd (wr m a bs) a n = bs.take n := by
  apply List.ext_getElem?
  intro j
  by_cases hj : j < n
  · rw [rd_get hj, List.getElem?_take_of_lt hj]
    obtain ⟨b, hb⟩ : ∃ b, bs[j]? = some b := ⟨bs[j]'(by omega), List.getElem?_eq_getElem _⟩
    rw [wr_in hb, hb]
  · rw [List.getElem?_eq_none (by rw [rd_length]; omega), List.getElem?_eq_none (by rw [List.length_take]; omega)]

theorem rd_wr_out {m : Mem} {a b : Int} {bs : List UInt8} {n : Nat} (h : b + n ≤ a ∨ a + bs.length ≤ b) :
    rd (wr m a bs) b n = rd m b n :=
  rd_ext fun j hj => wr_out (by omega)

theorem take_le (n k : Nat) (v : Int) (h : k ≤ n) : (le n v).take k = le k v := by
  unfold le
  rw [← List.map_take, List.take_range, Nat.min_eq_left h]

/-- Pushed, loaded as an integer and dropped. -/
theorem push_fild {s t : CM} {w n : Nat} {v : Int} (enc) (h : Holds s t 8 v) (hk : s.skip = none) (hn : n ≤ 8) (h0 : 0 < n)
    (hv : -(2 ^ (8 * n - 1)) ≤ v ∧ v < 2 ^ (8 * n - 1)) :
    let u := run enc t [.int (.push AX), .fild n (.base SP 0), .int (.addi SP w)]
    u.skip = none ∧ u.cw = s.cw ∧ u.xmm = s.xmm ∧ u.st = some (v : ℚ) :: s.st ∧ u.m.reg SP = s.m.reg SP - 8 + w ∧
      u.m.reg AX = t.m.reg AX ∧ (∀ r, r ≠ AX → r ≠ R11 → r ≠ SP → u.m.reg r = s.m.reg r) ∧
      (∀ x, x < s.m.reg SP - 8 ∨ s.m.reg SP ≤ x → u.m.mem x = s.m.mem x) := by
  have hsp : t.m.reg SP = s.m.reg SP := h.reg SP (by decide) (by decide)
  have hsk : t.skip = none := by rw [h.skip, hk]
  have hrd : sval (rd (wr t.m.mem (s.m.reg SP - 8) (le 8 (t.m.reg AX))) (s.m.reg SP - 8) n) = v := by
    rw [rd_wr _ _ _ _ (by rw [le_length]; omega), take_le _ _ _ hn]
    exact low_eq h0 (h.narrow hn) hv
  have hst : t.st = s.st := by rw [h.same]
  have hcw : t.cw = s.cw := by rw [h.same]
  have hxm : t.xmm = s.xmm := by rw [h.same]
  simp only [run, List.foldl, step, exec, hsk, Abi.step, pushBytes_mem, pushBytes_reg, set_reg, set_mem, if_true, M.ea, hsp,
    Int.add_zero, hrd, hst]
  refine ⟨trivial, hcw, hxm, trivial, trivial, by simp [AX, SP], fun r h1 h2 h3 => ?_, fun x hx => ?_⟩
  · simp only [h3, if_false]; exact h.reg r h1 h2
  · rw [wr_out (by rw [le_length]; omega), h.mem]

theorem Holds.congr {s t : CM} {w : Nat} {a b : Int} (h : Holds s t w a) (e : a % 256 ^ w = b % 256 ^ w) : Holds s t w b :=
  ⟨h.same, h.mem, h.reg, h.low.trans e, h.nonneg, h.lt⟩

/-- The state after a number has been pushed on the x87 stack and nothing else. -/
structure Loaded (s t : CM) (x : Option ℚ) : Prop where
  kept : Kept s t used
  xmm : t.xmm = s.xmm
  st : t.st = x :: s.st

/-- Unsigned, or of one byte: through `%rax`. -/
theorem unsigned_ldouble {v : Val} {s : CM} {two64 : Int} (enc) (hg : v.Good s.m) (hk : s.skip = none)
    (hu : v.signed = false ∨ v.sz = 1) (hc : Const s 10 two64 (2 ^ 64)) :
    ∃ code, loadX87Int v two64 = some code ∧ Loaded s (run enc s code) (some (v.value s.m)) := by
  have hsz := hg.size
  unfold IsSize at hsz
  obtain ⟨l, hl⟩ := loadInt_some hg (.inr rfl : 8 = 4 ∨ 8 = 8)
  have h := loadInt_holds (enc := enc) hg hk (.inr rfl) hl
  have hr := value_range_size hg
  have hu' : ¬ v.signed ∨ v.sz = 1 := by
    rcases hu with h | h
    · left; simp [h]
    · right; exact h
  simp only [loadX87Int, if_pos hu', hl]
  refine ⟨_, rfl, ?_⟩
  rw [run_append, run_append]
  generalize run enc s l = t at *
  by_cases h8 : v.sz = 8
  · have hs : v.signed = false := by rcases hu with h | h <;> [exact h; omega]
    rw [hs] at hr
    simp only [Bool.false_eq_true, if_false, h8] at hr
    rw [if_pos h8]
    have hax : t.m.reg AX = v.value s.m := by
      have := h.low
      rwa [Int.emod_eq_of_lt h.nonneg h.lt, Int.emod_eq_of_lt hr.1 (lt_of_lt_of_le hr.2 (by norm_num))] at this
    by_cases hbig : 2 ^ 63 ≤ v.value s.m
    · have h' : Holds s t 8 (v.value s.m - 2 ^ 64) := h.congr (by
        rw [show (256 : Int) ^ 8 = 2 ^ 64 by norm_num, Int.sub_emod_right])
      obtain ⟨g1, g2, g3, g4, g5, g6, g7, g8⟩ := push_fild (w := 8) (n := 8) enc h' hk (by omega) (by omega)
        ⟨by omega, by omega⟩
      simp only [Nat.cast_ofNat] at g1 g2 g3 g4 g5 g6 g7 g8
      generalize run enc t [.int (.push AX), .fild 8 (.base SP 0), .int (.addi SP 8)] = u at *
      have hneg : low 8 (u.m.reg AX) < 0 := by
        rw [g6, hax]; exact (low_neg hr.1 (lt_of_lt_of_le hr.2 (by norm_num))).mpr hbig
      have hnum : num (rd u.m.mem two64 10) = some (2 ^ 64) := by
        rw [← hc.1]
        congr 1
        refine rd_ext fun j hj => g8 _ ?_
        have := hc.2
        omega
      have hsum : rnd 64 ((2 : ℚ) ^ 64 + ((v.value s.m - 2 ^ 64 : Int) : ℚ)) = v.value s.m := by
        have e : (2 : ℚ) ^ 64 + ((v.value s.m - 2 ^ 64 : Int) : ℚ) = ((v.value s.m : Int) : ℚ) := by push_cast; ring
        rw [e]
        exact rnd_rep (Rep.ofInt (by omega))
      have hrun : run enc u [.test AX, .jns 1, .fld 10 (.abs two64), .faddp, .label 1]
          = { u with sf := true, st := some (v.value s.m : ℚ) :: s.st } := by
        simp only [run, List.foldl, step, exec, g1, hneg, decide_true, if_true, M.ea, hnum, g4, hsum]
      rw [hrun]
      refine ⟨⟨g1, g2, fun r hr => ?_, fun r _ _ => by rw [← g3], fun x hx => g8 x (by omega)⟩, g3, rfl⟩
      simp only [List.mem_cons, List.not_mem_nil, or_false, not_or] at hr
      by_cases hsp : r = SP
      · rw [hsp]; show u.m.reg SP = _; omega
      · exact g7 r hr.1 hr.2.2.2 hsp
    · obtain ⟨g1, g2, g3, g4, g5, g6, g7, g8⟩ := push_fild (w := 8) (n := 8) enc h hk (by omega) (by omega)
        ⟨by omega, by omega⟩
      simp only [Nat.cast_ofNat] at g1 g2 g3 g4 g5 g6 g7 g8
      generalize run enc t [.int (.push AX), .fild 8 (.base SP 0), .int (.addi SP 8)] = u at *
      have hneg : ¬ low 8 (u.m.reg AX) < 0 := by
        rw [g6, hax]; exact fun h => hbig ((low_neg hr.1 (lt_of_lt_of_le hr.2 (by norm_num))).mp h)
      have hrun : run enc u [.test AX, .jns 1, .fld 10 (.abs two64), .faddp, .label 1] = { u with sf := false, skip := none } := by
        simp only [run, List.foldl, step, exec, g1, hneg, decide_false, Bool.false_eq_true, if_false, reduceCtorEq, if_true]
      rw [hrun]
      refine ⟨⟨rfl, g2, fun r hr => ?_, fun r _ _ => by rw [← g3], fun x hx => g8 x (by omega)⟩, g3, g4⟩
      simp only [List.mem_cons, List.not_mem_nil, or_false, not_or] at hr
      by_cases hsp : r = SP
      · rw [hsp]; show u.m.reg SP = _; omega
      · exact g7 r hr.1 hr.2.2.2 hsp
  · rw [if_neg h8, run_nil]
    have e1 := two_pow_le (show 8 * v.sz - 1 ≤ 63 by omega)
    have e2 := two_pow_le (show 8 * v.sz ≤ 63 by omega)
    obtain ⟨g1, g2, g3, g4, g5, g6, g7, g8⟩ := push_fild (w := 8) (n := 8) enc h hk (by omega) (by omega)
      (by split_ifs at hr <;> constructor <;> omega)
    simp only [Nat.cast_ofNat] at g1 g2 g3 g4 g5 g6 g7 g8
    refine ⟨⟨g1, g2, fun r hr => ?_, fun r _ _ => by rw [← g3], fun x hx => g8 x (by omega)⟩, g3, g4⟩
    simp only [List.mem_cons, List.not_mem_nil, or_false, not_or] at hr
    by_cases hsp : r = SP
    · rw [hsp]; omega
    · exact g7 r hr.1 hr.2.2.2 hsp

/-- Signed and in memory, not a bit-field: directly. -/
theorem direct_ldouble {v : Val} {s : CM} {two64 : Int} (enc) (hg : v.Good s.m) (hk : s.skip = none)
    (hs : v.signed = true) (h1 : v.sz ≠ 1) (hf : v.field = none) {p : Place} (hp : v.src = .place p) (ht : ∀ r, p ≠ .temp r) :
    ∃ code, loadX87Int v two64 = some code ∧ Loaded s (run enc s code) (some (v.value s.m)) := by
  have hu' : ¬ (¬ v.signed ∨ v.sz = 1) := by rw [hs]; simpa using h1
  obtain ⟨a, ha⟩ : ∃ a, p.ea = some a := by cases p <;> simp_all [Place.ea]
  simp only [loadX87Int, if_neg hu', hp, ha]
  refine ⟨_, rfl, ?_⟩
  rw [run_cons, run_nil, step_on hk]
  refine ⟨⟨hk, rfl, fun _ _ => rfl, fun _ _ _ => rfl, fun _ _ => rfl⟩, rfl, ?_⟩
  simp only [exec]
  congr 3
  unfold Val.value
  simp only [hf, hs, if_true]
  rw [hp, bytes_place ha]

/-- Signed and through a pointer: the stack pointer ends where it was if the size is 8. -/
theorem deref_ldouble {v : Val} {s : CM} {two64 : Int} (enc) (hg : v.Good s.m) (hk : s.skip = none)
    (hs : v.signed = true) (h1 : v.sz ≠ 1) {p : Place} {o : Nat} (hp : v.src = .deref p o) :
    ∃ code, loadX87Int v two64 = some code ∧ (run enc s code).m.reg SP = s.m.reg SP - (8 - v.sz) ∧
      (run enc s code).st = some (v.value s.m : ℚ) :: s.st ∧ (v.sz = 8 → Loaded s (run enc s code) (some (v.value s.m))) := by
  have hu' : ¬ (¬ v.signed ∨ v.sz = 1) := by rw [hs]; simpa using h1
  have hsz := hg.size
  unfold IsSize at hsz
  obtain ⟨l, hl⟩ := loadInt_some hg (.inr rfl : 8 = 4 ∨ 8 = 8)
  have h := loadInt_holds (enc := enc) hg hk (.inr rfl) hl
  have hr := value_range_size hg
  rw [hs] at hr
  simp only [if_true] at hr
  have hcode : loadX87Int v two64 = some (l ++ [.int (.push AX), .fild v.sz (.base SP 0), .int (.addi SP v.sz)]) := by
    simp only [loadX87Int, if_neg hu', hp, hl]; rfl
  refine ⟨_, hcode, ?_⟩
  rw [run_append]
  obtain ⟨g1, g2, g3, g4, g5, g6, g7, g8⟩ := push_fild (w := v.sz) (n := v.sz) enc h hk (by omega) (by omega) hr
  refine ⟨by omega, g4, fun h8 => ⟨⟨g1, g2, fun r hr => ?_, fun r _ _ => by rw [← g3], fun x hx => g8 x (by omega)⟩, g3, g4⟩⟩
  simp only [List.mem_cons, List.not_mem_nil, or_false, not_or] at hr
  by_cases hsp : r = SP
  · rw [hsp]; omega
  · exact g7 r hr.1 hr.2.2.2 hsp

/-! ### Numbers -/

theorem bytes_object {s : CM} {n : Nat} {src : Src} (h : Stored s n src) (k : Nat) : bytes s.m src k = rd s.m.mem (src.object s.m) k := by
  cases hs : src with
  | imm i => exact (h.imm i hs).elim
  | addr p => exact (h.addr p hs).elim
  | deref p o => rfl
  | place p =>
    obtain ⟨a, ha⟩ : ∃ a, p.ea = some a := by
      cases p with
      | temp r => exact (h.place r hs).elim
      | frame o => exact ⟨_, rfl⟩
      | global o => exact ⟨_, rfl⟩
    rw [bytes_place ha, ea_place ha]; rfl

/-- A number of the bytes pushed. -/
theorem push_fld {s t : CM} {n : Nat} {v : Int} (enc) (h : Holds s t 8 v) (hk : s.skip = none) (hn : n ≤ 8) :
    Loaded s (run enc t [.int (.push AX), .fld n (.base SP 0), .int (.addi SP 8)]) (num (le n v)) := by
  have hsp : t.m.reg SP = s.m.reg SP := h.reg SP (by decide) (by decide)
  have hsk : t.skip = none := by rw [h.skip, hk]
  have hrd : rd (wr t.m.mem (s.m.reg SP - 8) (le 8 (t.m.reg AX))) (s.m.reg SP - 8) n = le n v := by
    rw [rd_wr _ _ _ _ (by rw [le_length]; omega), take_le _ _ _ hn]
    exact (le_eq_iff _ _ _).mpr (h.narrow hn)
  have hst : t.st = s.st := by rw [h.same]
  have hcw : t.cw = s.cw := by rw [h.same]
  have hxm : t.xmm = s.xmm := by rw [h.same]
  simp only [run, List.foldl, step, exec, hsk, Abi.step, pushBytes_mem, pushBytes_reg, set_reg, set_mem, if_true, M.ea, hsp,
    Int.add_zero, hrd, hst]
  refine ⟨⟨rfl, hcw, fun r hr => ?_, fun r _ _ => by rw [← hxm], fun x hx => ?_⟩, hxm, rfl⟩
  · simp only [List.mem_cons, List.not_mem_nil, or_false, not_or] at hr
    by_cases hr' : r = SP
    · subst hr'; simp
    · simp only [set_reg, hr', if_false, pushBytes_reg]; exact h.reg r hr.1 hr.2.2.2
  · show wr _ _ _ x = _
    rw [wr_out (by rw [le_length]; omega), h.mem]

theorem real_loaded {s : CM} {sz : Nat} {src : Src} (enc) (hs : Stored s sz src) (hk : s.skip = none)
    (hz : sz = 4 ∨ sz = 8 ∨ sz = 16) :
    ∃ code, loadX87Real sz src = some code ∧
      Loaded s (run enc s code) (num (bytes s.m src (if sz = 16 then 10 else sz))) := by
  cases hsrc : src with
  | imm i => exact (hs.imm i hsrc).elim
  | addr p => exact (hs.addr p hsrc).elim
  | place p =>
    obtain ⟨a, ha⟩ : ∃ a, p.ea = some a := by
      cases p with
      | temp r => exact (hs.place r hsrc).elim
      | frame o => exact ⟨_, rfl⟩
      | global o => exact ⟨_, rfl⟩
    refine ⟨[.fld (if sz = 16 then 10 else sz) a], by simp only [loadX87Real, ha]; rfl, ?_⟩
    rw [run_cons, run_nil, step_on hk]
    refine ⟨⟨hk, rfl, fun _ _ => rfl, fun _ _ _ => rfl, fun _ _ => rfl⟩, rfl, ?_⟩
    simp only [exec]
    rw [bytes_place ha]
  | deref p o =>
    by_cases h16 : sz = 16
    · subst h16
      obtain ⟨l, hl⟩ : ∃ l, loadAddress src SI = some l := by
        rw [hsrc]; cases p <;> simp [loadAddress, Abi.load, Abi.loadInt, Abi.emitLoad, Place.ea]
      obtain ⟨a1, a2, a3⟩ := loadAddress_spec (s := s.m) hl (by decide) (by
        rintro p' o' he ⟨x, rfl⟩
        obtain ⟨b1, b2⟩ := hs.pointer x o' he
        refine ⟨x, rfl, ?_, b2⟩
        rcases b1 with rfl | rfl | rfl | rfl | rfl <;> decide)
      have hcode : loadX87Real 16 (.deref p o) = some (l.map .int
          ++ [.int (.pushm (.base SI 8)), .int (.pushm (.base SI 0)), .fld 10 (.base SP 0), .int (.addi SP 16)]) := by
        rw [hsrc] at hl
        simp only [loadX87Real, if_true, hl]; rfl
      refine ⟨_, hcode, ?_⟩
      rw [run_append, run_ints enc l s hk, ← hsrc, if_pos rfl, bytes_object hs]
      generalize Abi.run s.m l = m at *
      have hsp : m.reg SP = s.m.reg SP := a2 SP (by decide) (by decide)
      have hfar := hs.far
      generalize src.object s.m = A at *
      have hrd : rd (wr (wr m.mem (s.m.reg SP - 8) (rd m.mem (A + 8) 8)) (s.m.reg SP - 8 - 8)
          (rd (wr m.mem (s.m.reg SP - 8) (rd m.mem (A + 8) 8)) A 8)) (s.m.reg SP - 8 - 8) 10 = rd s.m.mem A 10 := by
        refine rd_ext fun j hj => ?_
        by_cases hj8 : j < 8
        · rw [wr_rd hj8, wr_out (by rw [rd_length]; omega), a1]
        · obtain ⟨i, rfl⟩ : ∃ i, j = 8 + i := ⟨j - 8, by omega⟩
          rw [wr_out (by rw [rd_length]; omega), show s.m.reg SP - 8 - 8 + ((8 + i : Nat) : Int) = s.m.reg SP - 8 + i by omega,
            wr_rd (by omega), a1]
          congr 1; omega
      simp only [run, List.foldl, step, exec, hk, Abi.step, pushBytes_mem, pushBytes_reg, set_reg, set_mem, if_true, M.ea, hsp,
        Int.add_zero, show SI ≠ SP by decide, if_false, a3, hrd]
      refine ⟨⟨rfl, rfl, fun r hr => ?_, fun r _ _ => rfl, fun x hx => ?_⟩, rfl, rfl⟩
      · simp only [List.mem_cons, List.not_mem_nil, or_false, not_or] at hr
        by_cases hr' : r = SP
        · subst hr'; simp; omega
        · simp only [set_reg, hr', if_false, pushBytes_reg]; exact a2 r hr.2.2.1 hr.2.2.2
      · simp only [pushBytes_mem, pushBytes_reg, set_mem, if_true, hsp]
        rw [wr_out (by rw [rd_length]; omega), wr_out (by rw [rd_length]; omega), a1]
    · have hsz : sz = 4 ∨ sz = 8 := by omega
      have hg : (Val.mk sz false none src).Good s.m := by
        refine ⟨by unfold IsSize; simp only; omega, hs.addr, hs.imm, fun r h => (hs.place r h).elim, fun r o h => ?_, fun _ _ h => by simp at h⟩
        obtain ⟨b1, b2⟩ := hs.pointer r o h
        refine ⟨?_, b2⟩
        rcases b1 with rfl | rfl | rfl | rfl | rfl <;> decide
      obtain ⟨l, hl⟩ := loadInt_some hg (.inr rfl : 8 = 4 ∨ 8 = 8)
      have h := loadInt_holds (enc := enc) hg hk (.inr rfl) hl
      obtain ⟨l', hl', rfl⟩ : ∃ l', Abi.loadInt sz false src AX 8 = some l' ∧ l = l'.map .int := by
        simp only [loadInt] at hl
        obtain ⟨l', a, b⟩ := Option.bind_eq_some_iff.mp hl
        exact ⟨l', a, (Option.some.inj b).symm⟩
      have hcode : loadX87Real sz (.deref p o) = some (l'.map .int
          ++ [.int (.push AX), .fld sz (.base SP 0), .int (.addi SP 8)]) := by
        rw [hsrc] at hl'
        simp only [loadX87Real, if_neg h16, hl']; rfl
      refine ⟨_, hcode, ?_⟩
      rw [run_append, ← hsrc, if_neg h16]
      have := push_fld (n := sz) enc h hk (by omega)
      have hv : le sz ((Val.mk sz false none src).value s.m) = bytes s.m src sz := by
        show le sz (Abi.val (bytes s.m src sz)) = _
        have := le_val (bytes s.m src sz)
        rwa [bytes_length] at this
      rwa [hv] at this

/-- Long double to float and double. -/
theorem ldouble_real {s : CM} {w : Nat} {src : Src} {x : ℚ} {enc} (henc : Encodes enc) (limit two64 : Int) (hs : Stored s 16 src)
    (hk : s.skip = none) (hw : IsReal w) (hx : num (bytes s.m src 10) = some x)
    (hr : ∃ bs, bs.length = w ∧ num bs = some (rnd (prec w) x)) :
    ∃ code, loadCast limit two64 (.ldouble src) (.real w) = some code ∧ Kept s (run enc s code) used ∧
      (run enc s code).st = s.st ∧ (run enc s code).xmm (XMM 0) = some (rnd (prec w) x) := by
  obtain ⟨l, hl, h⟩ := real_loaded enc hs hk (.inr (.inr rfl))
  rw [if_pos rfl, hx] at h
  refine ⟨_, by simp only [loadCast, loadFloatFromLongDouble, hl]; rfl, ?_⟩
  rw [run_append]
  generalize run enc s l = t at *
  have hsp := h.kept.reg SP sp_used
  obtain ⟨bs, hb1, hb2⟩ := hr
  have hlen := henc.length w (some x)
  have hrd : num (rd (wr t.m.mem (s.m.reg SP + -8) (enc w (some x))) (s.m.reg SP + -8) w) = some (rnd (prec w) x) := by
    rw [rd_wr _ _ _ _ (by omega), List.take_of_length_le (by omega)]
    exact henc.num w x bs hb1 hb2
  unfold IsReal at hw
  simp only [run, List.foldl, step, exec, h.kept.skip, h.st, write_mem, write_reg, M.ea, hsp, CM.setNum, CM.numOpd, hrd]
  refine ⟨⟨rfl, h.kept.cw, h.kept.reg, fun r h0 h1 => ?_, fun y hy => ?_⟩, trivial, by simp⟩
  · simp only [h0, if_false]; exact h.kept.xmm r h0 h1
  · show wr _ _ _ y = _
    rw [wr_out (by omega)]
    exact h.kept.mem y hy

theorem rounding_bits {n : Nat} (h : n < 65536) : (n ||| 12 * 2 ^ 8) < 65536 ∧ (n ||| 12 * 2 ^ 8) / 1024 % 4 = 3 := by
  constructor
  · exact Nat.or_lt_two_pow (n := 16) h (by norm_num)
  · have h1 : (n ||| 12 * 2 ^ 8) / 2 ^ 10 = n / 2 ^ 10 ||| 3 := by
      rw [Nat.or_div_two_pow]; rfl
    rw [show (1024 : Nat) = 2 ^ 10 by rfl, h1, show (4 : Nat) = 2 ^ 2 by rfl, Nat.or_mod_two_pow]
    have : n / 2 ^ 10 % 2 ^ 2 < 4 := Nat.mod_lt _ (by norm_num)
    generalize n / 2 ^ 10 % 2 ^ 2 = k at *
    interval_cases k <;> rfl

/-- Long double to an integer: what the instruction makes of the truncated number. -/
theorem ldouble_raw {s : CM} {wd : Nat} {sg : Bool} {src : Src} {x : ℚ} (enc) (limit two64 : Int) (hs : Stored s 16 src)
    (hk : s.skip = none) (hcw : 0 ≤ s.cw ∧ s.cw < 65536) (hw : IsSize wd) (hx : num (bytes s.m src 10) = some x) :
    ∃ code, loadCast limit two64 (.ldouble src) (.int wd sg) = some code ∧ Kept s (run enc s code) used ∧
      (run enc s code).st = s.st ∧ (run enc s code).m.reg AX % 256 ^ wd = toInt (fistpWidth wd sg) (some (trunc x)) % 256 ^ wd := by
  obtain ⟨l, hl, h⟩ := real_loaded enc hs hk (.inr (.inr rfl))
  rw [if_pos rfl, hx] at h
  obtain ⟨w, hwv⟩ : ∃ w, w = fistpWidth wd sg := ⟨_, rfl⟩
  refine ⟨_, by simp only [loadCast, loadIntegerFromLongDouble, hl, ← hwv]; rfl, ?_⟩
  unfold IsSize at hw
  have hw8 : w = 2 ∨ w = 4 ∨ w = 8 := by
    rw [hwv]; unfold fistpWidth; split_ifs <;> omega
  have hle : wd ≤ w := by
    rw [hwv]; unfold fistpWidth; split_ifs <;> omega
  rw [run_append]
  generalize run enc s l = t at *
  have hsp := h.kept.reg SP sp_used
  have hcwt := h.kept.cw
  generalize hS : s.m.reg SP = S at *
  obtain ⟨n, hn, hn'⟩ : ∃ n : Nat, s.cw = n ∧ n < 65536 := ⟨s.cw.toNat, by omega, by omega⟩
  obtain ⟨r1, r2⟩ := rounding_bits hn'
  have c1 : Abi.val (rd (wr t.m.mem (S + -16) (le 2 (n : Int))) (S + -16) 2) = n :=
    val_wr (Int.natCast_nonneg n) (by omega)
  have c2 : (n : Int) % 256 ^ 4 = n := Int.emod_eq_of_lt (Int.natCast_nonneg n) (by omega)
  have c3 : ((n ||| 12 * 2 ^ 8 : Nat) : Int) % 256 ^ 4 = (n ||| 12 * 2 ^ 8 : Nat) :=
    Int.emod_eq_of_lt (Int.natCast_nonneg _) (by omega)
  have c4 : Abi.val (rd (wr (wr t.m.mem (S + -16) (le 2 (n : Int))) (S + -14) (le 2 ((n ||| 12 * 2 ^ 8 : Nat) : Int))) (S + -14) 2)
      = (n ||| 12 * 2 ^ 8 : Nat) := val_wr (Int.natCast_nonneg _) (by omega)
  have c5 : byControl ((n ||| 12 * 2 ^ 8 : Nat) : Int) x = trunc x := by
    unfold byControl
    rw [if_pos (by omega)]
  rw [← hwv]
  obtain ⟨T, c6⟩ : ∃ T, toInt w (some (trunc x)) = T := ⟨_, rfl⟩
  obtain ⟨M3, hM3⟩ : ∃ M3, M3 = wr (wr (wr t.m.mem (S + -16) (le 2 (n : Int))) (S + -14)
      (le 2 ((n ||| 12 * 2 ^ 8 : Nat) : Int))) (S + -8) (le w T) := ⟨_, rfl⟩
  have c7 : Abi.val (rd M3 (S + -16) 2) = n := by
    rw [hM3, rd_wr_out (by omega), rd_wr_out (by omega), c1]
  have c8 : Abi.val (rd M3 (S + -8) w) = T % 256 ^ w := by
    rw [hM3, rd_wr _ _ _ _ (by rw [le_length]), take_le _ _ _ (le_refl w), val_le_emod]
  simp only [run, List.foldl, step, exec, h.kept.skip, h.st, Abi.step, write_mem, write_reg, set_mem, set_reg, M.ea, hsp, hcwt, hn,
    CM.setInt, merged, show decide (4 < 4) = false from rfl, Bool.false_eq_true, if_false, if_true, c1, c2, val_le_emod,
    show SP ≠ AX by decide, Int.toNat_natCast, c3, c4, Option.map_some, c5, c6, ← hM3, c7, c8]
  refine ⟨⟨rfl, hn.symm, fun r hr => ?_, h.kept.xmm, fun y hy => ?_⟩, trivial, ?_⟩
  · have : r ≠ AX := by rintro rfl; exact hr (List.mem_cons_self ..)
    simp only [set_reg, write_reg, this, if_false]
    exact h.kept.reg r hr
  · simp only [set_mem, write_mem]
    rw [wr_out (by rw [le_length]; omega), wr_out (by rw [le_length]; omega), wr_out (by rw [le_length]; omega)]
    exact h.kept.mem y hy
  · refine emod_pow_le hle ?_
    split_ifs
    · rw [Int.emod_emod_of_dvd _ (Int.dvd_refl _)]
      have := Int.mul_ediv_add_emod ((n ||| 12 * 2 ^ 8 : Nat) : Int) (256 ^ w)
      generalize ((n ||| 12 * 2 ^ 8 : Nat) : Int) = N at *
      rw [show N - N % 256 ^ w = 256 ^ w * (N / 256 ^ w) by omega, Int.mul_add_emod_self_left, Int.emod_emod_of_dvd _ (Int.dvd_refl _)]
    · rw [Int.emod_emod_of_dvd _ (Int.dvd_refl _), Int.emod_emod_of_dvd _ (Int.dvd_refl _)]

/-- Long double to an integer. -/
theorem ldouble_int {s : CM} {wd : Nat} {sg : Bool} {src : Src} {x : ℚ} (enc) (limit two64 : Int) (hs : Stored s 16 src)
    (hk : s.skip = none) (hcw : 0 ≤ s.cw ∧ s.cw < 65536) (hw : IsSize wd) (hx : num (bytes s.m src 10) = some x)
    (hf : Fits wd sg (trunc x)) (hb : sg = false → wd = 2 ∨ wd = 8 → trunc x < 2 ^ (8 * wd - 1)) :
    ∃ code, loadCast limit two64 (.ldouble src) (.int wd sg) = some code ∧ Kept s (run enc s code) used ∧
      (run enc s code).st = s.st ∧ (run enc s code).m.reg AX % 256 ^ wd = trunc x % 256 ^ wd := by
  obtain ⟨code, h1, h2, h3, h4⟩ := ldouble_raw (sg := sg) enc limit two64 hs hk hcw hw hx
  refine ⟨code, h1, h2, h3, h4.trans ?_⟩
  obtain ⟨w, hwv⟩ : ∃ w, w = fistpWidth wd sg := ⟨_, rfl⟩
  rw [← hwv]
  unfold IsSize at hw
  have hle : wd ≤ w := by
    rw [hwv]; unfold fistpWidth; split_ifs <;> omega
  have hfit : -(2 ^ (8 * w - 1)) ≤ trunc x ∧ trunc x < 2 ^ (8 * w - 1) := by
    unfold Fits at hf
    cases sg with
    | true =>
      simp only [if_true] at hf
      have := two_pow_le (show 8 * wd - 1 ≤ 8 * w - 1 by omega)
      omega
    | false =>
      simp only [Bool.false_eq_true, if_false] at hf
      have h1 := two_pow_le (show 8 * wd - 1 ≤ 8 * w - 1 by omega)
      have hp : (0 : Int) < 2 ^ (8 * w - 1) := Int.pow_pos (by omega)
      refine ⟨by omega, ?_⟩
      rcases hw with rfl | rfl | rfl | rfl
      · obtain rfl : w = 2 := by rw [hwv]; rfl
        omega
      · have := hb rfl (.inl rfl); omega
      · obtain rfl : w = 8 := by rw [hwv]; rfl
        omega
      · have := hb rfl (.inr rfl); omega
  rw [toInt_fits hfit]

/-- The top of the x87 stack to memory. -/
theorem store_ldouble {s : CM} {src : Src} {x : Option ℚ} {rest : List (Option ℚ)} {enc} (henc : Encodes enc)
    (hs : Stored s 16 src) (hk : s.skip = none) (hst : s.st = x :: rest) :
    ∃ code, storeX87 src = some code ∧ (run enc s code).skip = none ∧ (run enc s code).st = rest ∧
      (∀ r, r ∉ used → (run enc s code).m.reg r = s.m.reg r) ∧ rd (run enc s code).m.mem (src.object s.m) 10 = enc 10 x ∧
      (∀ y, y < s.m.reg SP - 16 ∨ s.m.reg SP ≤ y → y < src.object s.m ∨ src.object s.m + 16 ≤ y →
        (run enc s code).m.mem y = s.m.mem y) := by
  have hlen := henc.length 10 x
  cases hsrc : src with
  | imm i => exact (hs.imm i hsrc).elim
  | addr p => exact (hs.addr p hsrc).elim
  | place p =>
    obtain ⟨a, ha⟩ : ∃ a, p.ea = some a := by
      cases p with
      | temp r => exact (hs.place r hsrc).elim
      | frame o => exact ⟨_, rfl⟩
      | global o => exact ⟨_, rfl⟩
    refine ⟨[.fstp 10 a], by simp only [storeX87, ha]; rfl, ?_⟩
    rw [run_cons, run_nil, step_on hk]
    have ho : Src.object s.m (.place p) = s.m.ea a := (ea_place ha).symm
    rw [ho]
    simp only [exec, hst, write_mem, write_reg]
    refine ⟨hk, trivial, fun _ _ => trivial, ?_, fun y _ hy => wr_out (by omega)⟩
    rw [rd_wr _ _ _ _ (by omega), List.take_of_length_le (by omega)]
  | deref p o =>
    obtain ⟨l, hl⟩ : ∃ l, loadAddress src CX = some l := by
      rw [hsrc]; cases p <;> simp [loadAddress, Abi.load, Abi.loadInt, Abi.emitLoad, Place.ea]
    obtain ⟨a1, a2, a3⟩ := loadAddress_spec (s := s.m) hl (by decide) (by
      rintro p' o' he ⟨x, rfl⟩
      obtain ⟨b1, b2⟩ := hs.pointer x o' he
      refine ⟨x, rfl, ?_, b2⟩
      rcases b1 with rfl | rfl | rfl | rfl | rfl <;> decide)
    have hcode : storeX87 (.deref p o) = some (l.map .int
        ++ [.int (.addi SP (-16)), .fstp 10 (.base SP 0), .int (.pop AX), .int (.st 8 AX (.base CX 0)), .int (.pop AX),
          .int (.st 8 AX (.base CX 8))]) := by
      rw [hsrc] at hl
      simp only [storeX87, hl]; rfl
    refine ⟨_, hcode, ?_⟩
    rw [run_append, run_ints enc l s hk, ← hsrc]
    generalize Abi.run s.m l = m at *
    have hsp : m.reg SP = s.m.reg SP := a2 SP (by decide) (by decide)
    have hfar := hs.far
    generalize src.object s.m = A at *
    obtain ⟨S, hS⟩ : ∃ S, s.m.reg SP = S := ⟨_, rfl⟩
    rw [hS] at hsp hfar ⊢
    have e1 : ∀ (mem : Mem) (b : Int), le 8 (Abi.val (rd mem b 8)) = rd mem b 8 := by
      intro mem b
      have := le_val (rd mem b 8)
      rwa [rd_length] at this
    simp only [run, List.foldl, step, exec, hk, hst, Abi.step, write_mem, write_reg, set_reg, set_mem, if_true, if_false, M.ea, hsp, a3,
      Int.add_zero, show CX ≠ SP by decide, show CX ≠ AX by decide, show SP ≠ AX by decide, show AX ≠ SP by decide, e1]
    refine ⟨trivial, trivial, fun r hr => ?_, ?_, fun y h1 h2 => ?_⟩
    · simp only [List.mem_cons, List.not_mem_nil, or_false, not_or] at hr
      by_cases hr' : r = SP
      · subst hr'; simp only [show SP ≠ AX by decide, if_false, if_true, hS]; omega
      · simp only [hr.1, hr', if_false]; exact a2 r hr.2.1 hr.2.2.2
    · -- the two halves
      apply List.ext_getElem?
      intro j
      by_cases hj : j < 10
      · obtain ⟨b, hb⟩ : ∃ b, (enc 10 x)[j]? = some b := ⟨(enc 10 x)[j]'(by omega), List.getElem?_eq_getElem _⟩
        rw [rd_get hj, hb]
        congr 1
        by_cases hj8 : j < 8
        · rw [wr_out (by rw [rd_length]; omega), wr_rd hj8, wr_in hb]
        · obtain ⟨i, rfl⟩ : ∃ i, j = 8 + i := ⟨j - 8, by omega⟩
          rw [show A + ((8 + i : Nat) : Int) = A + 8 + i by omega, wr_rd (by omega), wr_out (by rw [rd_length]; omega),
            show S + -16 + 8 + (i : Int) = S + -16 + ((8 + i : Nat) : Int) by omega, wr_in hb]
      · rw [List.getElem?_eq_none (by rw [rd_length]; omega), List.getElem?_eq_none (by omega)]
    · rw [wr_out (by rw [rd_length]; omega), wr_out (by rw [rd_length]; omega), wr_out (by omega), a1]

end Verif.Conv
