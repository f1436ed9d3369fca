import Verif.Arith.Spec
import Verif.Conv.IntLemmas

/-!
# Loads
-/

namespace Verif.Arith

open Verif.Abi (M Ea Ins Src Place AX CX DX R11 BP le val sval rd isTempInt merged)
open Verif.Conv (CM Val IsSize CIns Opd bytes)

theorem run_append (enc) : ∀ (a b : List AIns) (s : CM), run enc s (a ++ b) = (run enc s a).bind fun t => run enc t b
  | [], _, _ => rfl
  | i :: a, b, s => by
    simp only [List.cons_append, run, Option.bind_eq_bind]
    cases h : step enc s i with
    | none => rfl
    | some t => simp only [Option.bind_some]; exact run_append enc a b t

theorem run_conv (enc) : ∀ (l : List CIns) (s : CM), run enc s (l.map .conv) = some (Conv.run enc s l)
  | [], _ => rfl
  | i :: l, s => by
    simp only [List.map_cons, run, step, Option.bind_eq_bind, Option.bind_some]
    rw [run_conv enc l]; rfl

/-- One instruction that is not `conv`. -/
theorem run_one {enc} {s : CM} {i : AIns} {m : M} (hk : s.skip = none) (hi : ∀ c, i ≠ .conv c) (h : exec s.m i = some m) :
    run enc s [i] = some { s with m := m } := by
  cases i with
  | conv c => exact (hi c rfl).elim
  | _ => simp [run, step, hk, h]

/-- What code for an operand does: only the register `d` has changed, and `%r11`. -/
structure Sets (s t : CM) (d w : Nat) (x : Int) : Prop where
  same : t = { s with m := t.m }
  mem : t.m.mem = s.m.mem
  reg : ∀ r, r ≠ d → r ≠ R11 → t.m.reg r = s.m.reg r
  low : t.m.reg d % 256 ^ w = x % 256 ^ w

theorem Sets.skip {s t : CM} {d w x} (h : Sets s t d w x) : t.skip = s.skip := by rw [h.same]

theorem temp_lt {r : Nat} (h : isTempInt r) : r < 17 := by
  rcases h with rfl | rfl | rfl | rfl | rfl <;> decide

theorem temp_scratch {r : Nat} (h : isTempInt r) : r ∉ scratch := by
  rcases h with rfl | rfl | rfl | rfl | rfl <;> decide

theorem bp_scratch : BP ∉ scratch := by decide

theorem Operand.good {s : M} {v : Val} (h : Operand s v) (h1 : ∀ n, v.src ≠ .imm n) (h2 : ∀ p, v.src ≠ .addr p) : v.Good s where
  size := h.size
  src := h2
  imm := h1
  place r hr := ⟨temp_lt (h.temp r hr).1, (h.temp r hr).2⟩
  pointer r o hr := ⟨temp_lt (h.pointer r o hr).1, (h.pointer r o hr).2⟩
  field := h.field

theorem value_low {s : M} {v : Val} (hf : v.field = none) (hz : IsSize v.sz) : v.value s % 256 ^ v.sz = val (bytes s v.src v.sz) := by
  unfold Val.value
  simp only [hf]
  have h := Conv.val_bytes_emod s v.src v.sz
  split_ifs
  · rw [← h]
    have := Conv.sval_emod (w := v.sz) (bytes s v.src v.sz) (by rw [Conv.bytes_length]) v.sz (by rw [Conv.bytes_length])
    rw [this]
  · exact h

theorem val_bytes_imm (s : M) (n : Int) (w : Nat) : val (bytes s (.imm n) w) = n % 256 ^ w := by
  have : bytes s (.imm n) w = le w n := rfl
  rw [this, Abi.val_le_emod]

theorem load_sets {v : Val} {s : CM} {d : Nat} (enc) (hv : Operand s.m v) (hd : d < 17) (hk : s.skip = none) :
    ∃ code, load v d = some code ∧ ∃ t, run enc s code = some t ∧ Sets s t d v.sz (v.value s.m) := by
  have hz := hv.size
  have hw : (if v.sz < 4 then 4 else v.sz) = 4 ∨ (if v.sz < 4 then 4 else v.sz) = 8 := by
    unfold IsSize at hz; split_ifs <;> omega
  have hle : v.sz ≤ (if v.sz < 4 then 4 else v.sz) := by split_ifs <;> omega
  by_cases hi : ∃ n, v.src = .imm n
  · obtain ⟨n, hn⟩ := hi
    have hf := hv.imm n hn
    have hval : v.value s.m % 256 ^ v.sz = n % 256 ^ v.sz := by
      rw [value_low hf hz, hn, val_bytes_imm]
    unfold load loadInt Conv.loadInt
    generalize (if v.sz < 4 then 4 else v.sz) = w at *
    simp only [hf, hn, Abi.loadInt, Abi.emitLoad, Option.bind_eq_bind, Option.bind_some, Option.some.injEq, exists_eq_left']
    rw [run_conv]
    refine ⟨_, rfl, ?_⟩
    rw [Conv.run_ints enc _ s hk]
    split_ifs with h0
    · refine ⟨rfl, rfl, fun r h1 _ => ?_, ?_⟩
      · simp [Abi.run, Abi.step, h1]
      · rw [hval, h0]; simp [Abi.run, Abi.step]
    · refine ⟨rfl, rfl, fun r h1 _ => ?_, ?_⟩
      · simp [Abi.run, Abi.step, h1]
      · rw [hval]
        simp only [Abi.run, Abi.step, List.foldl, Abi.set_reg, if_true, merged, show decide (w < 4) = false by simp; omega,
          Bool.false_eq_true, if_false]
        exact Conv.emod_pow_le hle (Int.emod_emod_of_dvd _ (Int.dvd_refl _))
  by_cases ha : ∃ p, v.src = .addr p
  · obtain ⟨p, hp⟩ := ha
    obtain ⟨hf, h8, ht⟩ := hv.addr p hp
    have : ∃ a, p.ea = some a := by cases p <;> simp_all [Place.ea]
    obtain ⟨a, ha⟩ := this
    unfold load loadInt Conv.loadInt
    simp only [hf, hp, Abi.loadInt, h8, Option.bind_eq_bind, ha, Option.bind_some, Option.some.injEq, exists_eq_left',
      show ¬ (8 < 4) by omega, if_false, and_self, if_true]
    rw [run_conv]
    refine ⟨_, rfl, ?_⟩
    rw [Conv.run_ints enc _ s hk]
    refine ⟨rfl, rfl, fun r h1 _ => by simp [Abi.run, Abi.step, h1], ?_⟩
    have e := value_low (s := s.m) hf hz
    rw [h8] at e
    rw [e, hp]
    have : bytes s.m (.addr p) 8 = le 8 (p.address s.m) := rfl
    rw [this, Abi.val_le_emod]
    simp only [Abi.run, Abi.step, List.foldl, Abi.set_reg, if_true]
    rw [Abi.ea_place ha]
  · have hg := hv.good (fun n h => hi ⟨n, h⟩) (fun p h => ha ⟨p, h⟩)
    obtain ⟨code, hc⟩ := Conv.loadInt_some (d := d) hg hw
    have h := Conv.loadInt_in (enc := enc) hd hg hk hw hc
    refine ⟨code.map .conv, by simp only [load, loadInt, hc]; rfl, _, run_conv enc code s, h.same, h.mem, h.reg, ?_⟩
    exact Conv.emod_pow_le hle h.low

theorem loadInt_load {v : Val} {d w : Nat} (h : v.sz = w) (hw : w = 4 ∨ w = 8) : loadInt v d w = load v d := by
  unfold load
  rw [if_neg (by omega), h]

/-! ### Values do not change -/

/-- The same memory and the same registers but scratch. -/
structure Calm (s t : M) : Prop where
  mem : t.mem = s.mem
  reg : ∀ r, r ∉ scratch → t.reg r = s.reg r

theorem Calm.refl (s : M) : Calm s s := ⟨rfl, fun _ _ => rfl⟩
theorem Calm.trans {s t u : M} (h : Calm s t) (g : Calm t u) : Calm s u :=
  ⟨g.mem.trans h.mem, fun r hr => (g.reg r hr).trans (h.reg r hr)⟩

theorem Sets.calm {s t : CM} {d w x} (h : Sets s t d w x) (hd : d ∈ scratch) : Calm s.m t.m :=
  ⟨h.mem, fun r hr => h.reg r (fun e => hr (e ▸ hd)) (fun e => hr (e ▸ by decide))⟩

/-- A place that does not need a scratch register. -/
def Firm (p : Place) : Prop := ∀ r, p = .temp r → isTempInt r

theorem address_calm {s t : M} (h : Calm s t) (p : Place) : p.address t = p.address s := by
  cases p with
  | frame o => simp only [Place.address, h.reg BP bp_scratch]
  | global _ => rfl
  | temp _ => rfl

theorem pbyte_calm {s t : M} (h : Calm s t) {p : Place} (hp : Firm p) (j : Nat) : p.byte t j = p.byte s j := by
  cases p with
  | temp r => simp only [Place.byte, h.reg r (temp_scratch (hp r rfl))]
  | frame o => simp only [Place.byte, h.mem, address_calm h]
  | global _ => simp only [Place.byte, h.mem, address_calm h]

theorem word_calm {s t : M} (h : Calm s t) {p : Place} (hp : Firm p) : p.word t = p.word s := by
  unfold Place.word
  congr 1
  apply List.map_congr_left
  intro j _
  exact pbyte_calm h hp j

/-- The places an operand mentions. -/
theorem Operand.firm {s : M} {v : Val} (h : Operand s v) : (∀ p, v.src = .place p → Firm p) ∧ (∀ p o, v.src = .deref p o → Firm p) :=
  ⟨fun p hp r hr => (h.temp r (by rw [hp, hr])).1, fun p o hp r hr => (h.pointer r o (by rw [hp, hr])).1⟩

theorem bytes_calm {s t : M} (h : Calm s t) {v : Val} (hv : Operand s v) (n : Nat) : bytes t v.src n = bytes s v.src n := by
  unfold bytes
  apply List.map_congr_left
  intro j _
  obtain ⟨h1, h2⟩ := hv.firm
  cases hs : v.src with
  | imm n => rfl
  | addr p => simp only [Src.byte, address_calm h]
  | place p => exact pbyte_calm h (h1 p hs) j
  | deref p o => simp only [Src.byte, word_calm h (h2 p o hs), h.mem]

theorem value_calm {s t : M} (h : Calm s t) {v : Val} (hv : Operand s v) : v.value t = v.value s := by
  unfold Val.value
  simp only [bytes_calm h hv]

theorem object_calm {s t : M} (h : Calm s t) {v : Val} (hv : Operand s v) : v.src.object t = v.src.object s := by
  cases hs : v.src with
  | imm n => rfl
  | addr p => rfl
  | place p => exact address_calm h p
  | deref p o => simp only [Src.object, word_calm h (hv.firm.2 p o hs)]

theorem Operand.calm {s t : M} (h : Calm s t) {v : Val} (hv : Operand s v) : Operand t v where
  size := hv.size
  imm := hv.imm
  addr := hv.addr
  temp := hv.temp
  pointer r o hr := by
    obtain ⟨a, b⟩ := hv.pointer r o hr
    rw [h.reg r (temp_scratch a)]
    exact ⟨a, b⟩
  field := hv.field

theorem Target.calm {s t : M} (h : Calm s t) {v : Val} (hv : Target s v) : Target t v where
  toOperand := hv.toOperand.calm h
  noImm := hv.noImm
  noAddr := hv.noAddr
  inside := hv.inside

end Verif.Arith
