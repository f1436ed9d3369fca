import Verif.Abi.Passing
import Verif.Abi.MachineLemmas
import Verif.Abi.Lemmas

namespace Verif.Abi

/-- Effect of code which loads a value to register `r`. -/
structure Loads (s : M) (code : List Ins) (r sz : Nat) (src : Src) : Prop where
  mem : (run s code).mem = s.mem
  reg : ∀ x, x ≠ r → x ≠ R11 → (run s code).reg x = s.reg x
  byte : ∀ j, j < sz → byteAt ((run s code).reg r) j = src.byte s j

/-- Conditions for a load to read the right register. -/
def Src.Sound (s : M) (real : Bool) : Src → Prop
  | .place (.temp r) => real = false → r < 17
  | .deref (.temp r) _ => 0 ≤ s.reg r ∧ s.reg r < 256 ^ 8
  | .addr p => ∀ r, p ≠ .temp r
  | _ => True

theorem word_temp {s : M} {r : Nat} (h0 : 0 ≤ s.reg r) (h1 : s.reg r < 256 ^ 8) :
    Place.word s (.temp r) = s.reg r := by
  have : Place.word s (.temp r) = val (le 8 (s.reg r)) := rfl
  rw [this, val_le_emod, Int.emod_eq_of_lt h0 h1]

theorem val_rd_emod (m a n) : val (rd m a n) % 256 ^ n = val (rd m a n) := by
  have := val_lt (rd m a n)
  rw [rd_length] at this
  exact Int.emod_eq_of_lt (val_nonneg _) this

/-- The width of the result of an opcode covers `sz` bytes. -/
def Op.Covers (sz : Nat) : Op → Prop
  | .mov w | .movs w => sz ≤ w
  | .movx _ w dw => sz ≤ w ∧ w ≤ dw

def Op.isMovs : Op → Bool
  | .movs _ => true
  | _ => false

theorem fromMem_byte {op : Op} {sz : Nat} (h : op.Covers sz) (s : M) (d : Nat) (a : Ea) {j : Nat} (hj : j < sz) :
    byteAt ((step s (op.fromMem d a)).reg d) j = s.mem (s.ea a + j) := by
  cases op with
  | mov w =>
    simp only [Op.Covers] at h
    simp only [Op.fromMem, step, set_reg, if_true]
    rw [byteAt_merged _ _ _ _ (by omega), byteAt_val_rd (by omega)]
  | movs w =>
    simp only [Op.Covers] at h
    simp only [Op.fromMem, step, set_reg, if_true]
    rw [byteAt_merged _ _ _ _ (by omega), byteAt_val_rd (by omega)]
  | movx sg w dw =>
    simp only [Op.Covers] at h
    simp only [Op.fromMem, step, set_reg, if_true]
    rw [byteAt_merged _ _ _ _ (by omega)]
    split_ifs
    · rw [byteAt_sval (by simp; omega), byteAt_val_rd (by omega)]
    · rw [byteAt_val_rd (by omega)]

theorem fromMem_other (op : Op) (s : M) (d : Nat) (a : Ea) :
    (step s (op.fromMem d a)).mem = s.mem ∧ ∀ x, x ≠ d → (step s (op.fromMem d a)).reg x = s.reg x := by
  cases op <;> simp only [Op.fromMem, step, set_reg, set_mem, true_and] <;> intro x hx <;> simp [hx]

theorem fromReg_byte {op : Op} {sz : Nat} (h : op.Covers sz) (s : M) (d r : Nat)
    (hr : op.isMovs = false → r < 17) {j : Nat} (hj : j < sz) :
    byteAt ((step s (op.fromReg d r)).reg d) j = byteAt (s.reg r) j := by
  cases op with
  | mov w =>
    have := hr rfl
    simp only [Op.Covers] at h
    simp only [Op.fromReg, step, set_reg, if_true]
    rw [byteAt_merged _ _ _ _ (by omega), if_neg (by omega)]
  | movs w =>
    simp only [Op.Covers] at h
    simp only [Op.fromReg, step, set_reg, if_true]
    rw [byteAt_merged _ _ _ _ (by omega)]
  | movx sg w dw =>
    have := hr rfl
    simp only [Op.Covers] at h
    simp only [Op.fromReg, step, set_reg, if_true]
    rw [byteAt_merged _ _ _ _ (by omega)]
    simp only [if_neg (show ¬ 17 ≤ r by omega)]
    split_ifs
    · rw [byteAt_sval (by simp; omega), byteAt_val_le (by omega)]
    · rw [byteAt_val_le (by omega)]

theorem fromReg_other (op : Op) (s : M) (d r : Nat) :
    (step s (op.fromReg d r)).mem = s.mem ∧ ∀ x, x ≠ d → (step s (op.fromReg d r)).reg x = s.reg x := by
  cases op <;> simp only [Op.fromReg, step, set_reg, set_mem, true_and] <;> intro x hx <;> simp [hx]

theorem ea_place {s : M} {p : Place} {a : Ea} (h : p.ea = some a) : s.ea a = p.address s := by
  cases p <;> simp only [Place.ea, Option.some.injEq, reduceCtorEq] at h <;> subst h <;> rfl

theorem byte_place {s : M} {p : Place} {a : Ea} (h : p.ea = some a) (j : Nat) :
    p.byte s j = s.mem (p.address s + j) := by
  cases p <;> simp only [Place.ea, reduceCtorEq] at h <;> rfl

theorem word_place {s : M} {p : Place} {a : Ea} (h : p.ea = some a) :
    p.word s = val (rd s.mem (p.address s) 8) := by
  unfold Place.word rd
  simp only [byte_place h]

theorem emitLoad_loads {op : Op} {sz : Nat} {src : Src} {d : Nat} {code : List Ins} {s : M}
    (h : emitLoad op src d = some code) (hc : op.Covers sz)
    (hs : src.Sound s op.isMovs) : Loads s code d sz src := by
  cases src with
  | imm v =>
    cases op with
    | mov w =>
      simp only [emitLoad, Option.some.injEq] at h
      simp only [Op.Covers] at hc
      subst h
      split_ifs with hv
      · subst hv
        refine ⟨rfl, ?_, ?_⟩
        · intro x hx _; simp [step, hx]
        · intro j hj; simp [step, Src.byte]
      · refine ⟨rfl, ?_, ?_⟩
        · intro x hx _; simp [step, hx]
        · intro j hj
          simp only [run_cons, run_nil, step, set_reg, if_true, Src.byte]
          exact byteAt_merged _ _ _ _ (by omega)
    | _ => simp [emitLoad] at h
  | addr p => simp [emitLoad] at h
  | place p =>
    by_cases ht : ∃ r, p = .temp r
    · obtain ⟨r, rfl⟩ := ht
      simp only [emitLoad, Option.some.injEq] at h
      subst h
      have ho := fromReg_other op s d r
      refine ⟨ho.1, fun x hx _ => ho.2 x hx, fun j hj => ?_⟩
      exact fromReg_byte hc s d r hs hj
    · have : ∃ a, p.ea = some a := by cases p <;> simp_all [Place.ea]
      obtain ⟨a, ha⟩ := this
      have h' : some [op.fromMem d a] = some code := by
        rw [← h]
        cases p <;> simp_all [emitLoad, Place.ea]
      simp only [Option.some.injEq] at h'
      subst h'
      have ho := fromMem_other op s d a
      refine ⟨ho.1, fun x hx _ => ho.2 x hx, fun j hj => ?_⟩
      rw [run_cons, run_nil, fromMem_byte hc s d a hj, ea_place ha]
      exact (byte_place ha j).symm
  | deref p o =>
    by_cases ht : ∃ r, p = .temp r
    · obtain ⟨r, rfl⟩ := ht
      simp only [emitLoad, Option.some.injEq] at h
      subst h
      have ho := fromMem_other op s d (.base r o)
      refine ⟨ho.1, fun x hx _ => ho.2 x hx, fun j hj => ?_⟩
      rw [run_cons, run_nil, fromMem_byte hc s d _ hj]
      simp only [Src.byte, M.ea]
      rw [word_temp hs.1 hs.2]
    · have : ∃ a, p.ea = some a := by cases p <;> simp_all [Place.ea]
      obtain ⟨a, ha⟩ := this
      have h' : some [.ld 8 R11 a, op.fromMem d (.base R11 o)] = some code := by
        rw [← h]
        cases p <;> simp_all [emitLoad, Place.ea]
      simp only [Option.some.injEq] at h'
      subst h'
      have ho := fromMem_other op (step s (.ld 8 R11 a)) d (.base R11 o)
      refine ⟨ho.1, fun x hx hx' => ?_, fun j hj => ?_⟩
      · rw [run_cons, run_cons, run_nil, ho.2 x hx]
        simp [step, hx']
      · rw [run_cons, run_cons, run_nil, fromMem_byte hc _ d _ hj]
        have e : ∀ t : M, t.ea (.base R11 o) = t.reg R11 + o := fun _ => rfl
        rw [e]
        simp only [step, set_reg, if_true, set_mem, merged, Src.byte]
        rw [word_place ha, ea_place ha]
        simp only [show decide (8 < 4) = false from rfl, Bool.false_eq_true, if_false]
        rw [val_rd_emod]

theorem loadInt_loads {sz w : Nat} {signed : Bool} {src : Src} {r : Nat} {code : List Ins} {s : M}
    (h : loadInt sz signed src r w = some code) (hs : src.Sound s false) (hz : sz ≤ 8) :
    Loads s code r (min sz w) src := by
  have key : ∀ op : Op, op.isMovs = false → op.Covers (min sz w) → emitLoad op src r = some code →
      Loads s code r (min sz w) src := by
    intro op ho hc he
    refine emitLoad_loads he hc ?_
    rw [ho]
    exact hs
  unfold loadInt at h
  split at h
  · rename_i p
    split_ifs at h with hc
    obtain ⟨a, ha, h⟩ := Option.bind_eq_some_iff.mp h
    simp only [Option.some.injEq] at h
    subst h
    refine ⟨rfl, ?_, ?_⟩
    · intro x hx _; simp [step, hx]
    · intro j hj
      simp only [run_cons, run_nil, step, set_reg, if_true, Src.byte]
      rw [ea_place ha]
  · exact key _ rfl (by simp only [Op.Covers]; omega) h
  · split_ifs at h with h1 h2 h3 h4 h5
    · exact key _ rfl (by simp only [Op.Covers]; omega) h
    · exact key _ rfl (by simp only [Op.Covers]; omega) h
    · exact key _ rfl (by simp only [Op.Covers]; omega) h
    · exact key _ rfl (by simp only [Op.Covers]; omega) h

theorem load_loads {sz : Nat} {k : Kind} {src : Src} {r : Nat} {code : List Ins} {s : M}
    (h : load sz k src r = some code) (hs : src.Sound s (decide (k = .real))) (hz : sz ≤ 8) :
    Loads s code r sz src := by
  have hm : ∀ w, w = (if sz < 4 then 4 else sz) → min sz w = sz := by
    intro w hw; split_ifs at hw <;> omega
  unfold load at h
  cases k with
  | real =>
    simp only at h
    split_ifs at h with hc <;>
    · refine emitLoad_loads h (by simp only [Op.Covers]; omega) ?_
      simpa [Op.isMovs] using hs
  | signed =>
    simp only at h
    have := loadInt_loads h (by simpa using hs) hz
    rwa [hm _ rfl] at this
  | unsigned =>
    simp only at h
    have := loadInt_loads h (by simpa using hs) hz
    rwa [hm _ rfl] at this

theorem step_addi (s : M) (d v) : step s (.addi d v) = s.set d (s.reg d + v) := rfl

/-- Address of the object an operand denotes. -/
def Src.object (s : M) : Src → Int
  | .place p => p.address s
  | .deref p o => p.word s + o
  | _ => 0

theorem loadAddress_spec {src : Src} {r : Nat} {code : List Ins} {s : M}
    (h : loadAddress src r = some code) (hr : r < 17) (hs : ∀ p o, src = .deref p o → (∃ x, p = .temp x) → ∃ x, p = .temp x ∧ x < 17 ∧
      0 ≤ s.reg x ∧ s.reg x < 256 ^ 8) :
    (run s code).mem = s.mem ∧ (∀ x, x ≠ r → x ≠ R11 → (run s code).reg x = s.reg x) ∧
      (run s code).reg r = src.object s := by
  cases src with
  | imm v => simp [loadAddress] at h
  | addr p => simp [loadAddress] at h
  | place p =>
    simp only [loadAddress] at h
    obtain ⟨a, ha, h⟩ := Option.bind_eq_some_iff.mp h
    simp only [Option.some.injEq] at h
    subst h
    refine ⟨rfl, ?_, ?_⟩
    · intro x hx _; simp [step, hx]
    · simp only [run_cons, run_nil, step, set_reg, if_true, Src.object]
      exact ea_place ha
  | deref p o =>
    simp only [loadAddress] at h
    obtain ⟨l, hl, h⟩ := Option.bind_eq_some_iff.mp h
    simp only [Option.some.injEq] at h
    subst h
    -- the pointer
    have hw : ∃ a, l = [a] ∧ (step s a).mem = s.mem ∧ (∀ x, x ≠ r → (step s a).reg x = s.reg x) ∧
        (step s a).reg r = p.word s := by
      simp only [load, loadInt, show ¬ (8 < 4) by omega, if_false] at hl
      simp only [show ¬ (8 < 8) by omega, if_false, show ¬ (8 > 8) by omega, false_and] at hl
      by_cases ht : ∃ x, p = .temp x
      · obtain ⟨x, rfl, h17, h0, h1⟩ := hs p o rfl ht
        simp only [emitLoad, Option.some.injEq] at hl
        refine ⟨_, hl.symm, (fromReg_other _ _ _ _).1, fun y hy => (fromReg_other _ _ _ _).2 y hy, ?_⟩
        simp only [Op.fromReg, step, set_reg, if_true]
        rw [word_temp h0 h1, if_neg (by omega)]
        unfold merged
        split_ifs
        · rename_i hh
          simp at hh
          omega
        · exact Int.emod_eq_of_lt h0 h1
      · have : ∃ a, p.ea = some a := by cases p <;> simp_all [Place.ea]
        obtain ⟨a, ha⟩ := this
        have h' : some [.ld 8 r a] = some l := by
          rw [← hl]
          cases p <;> simp_all [emitLoad, Place.ea, Op.fromMem]
        simp only [Option.some.injEq] at h'
        refine ⟨_, h'.symm, rfl, fun x hx => by simp [step, hx], ?_⟩
        simp only [step, set_reg, if_true, merged]
        rw [word_place ha, ea_place ha]
        simp only [show decide (8 < 4) = false from rfl, Bool.false_eq_true, if_false]
        rw [val_rd_emod]
    obtain ⟨a, rfl, h1, h2, h3⟩ := hw
    by_cases ho : o = 0
    · subst ho
      simp only [if_true, List.append_nil, run_cons, run_nil, Src.object]
      exact ⟨h1, fun x hx _ => h2 x hx, by rw [h3]; simp⟩
    · simp only [if_neg ho, List.singleton_append, run_cons, run_nil, Src.object]
      refine ⟨h1, fun x hx _ => ?_, ?_⟩
      · rw [step_addi, set_reg, if_neg hx, h2 x hx]
      · rw [step_addi, set_reg, if_pos rfl, h3]

end Verif.Abi
