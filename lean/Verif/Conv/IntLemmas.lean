import Verif.Conv.Spec
import Verif.Abi.PassLemmas

/-! Lemmas for C86: loads of integers. -/

namespace Verif.Conv

open Verif.Abi

/-! ### Running code -/

@[simp] theorem run_nil (enc s) : run enc s [] = s := rfl
@[simp] theorem run_cons (enc s i is) : run enc s (i :: is) = run enc (step enc s i) is := rfl
theorem run_append (enc s l m) : run enc s (l ++ m) = run enc (run enc s l) m := by simp [run, List.foldl_append]

theorem step_on {enc s i} (h : s.skip = none) : step enc s i = exec enc s i := by simp [step, h]

theorem run_ints (enc) : ∀ (is : List Ins) (s : CM), s.skip = none →
    run enc s (is.map .int) = { s with m := Abi.run s.m is }
  | [], s, _ => rfl
  | i :: is, s, h => by
    rw [List.map_cons, run_cons, step_on h, Abi.run_cons]
    exact run_ints enc is _ h

/-! ### Bytes and numbers -/

theorem bytes_length (s src n) : (bytes s src n).length = n := by simp [bytes]

theorem le_eq_iff (n : Nat) (a b : Int) : le n a = le n b ↔ a % 256 ^ n = b % 256 ^ n := by
  constructor
  · intro h
    rw [← val_le_emod, ← val_le_emod, h]
  · intro h
    unfold le
    apply List.map_congr_left
    intro j hj
    have hj := List.mem_range.mp hj
    rw [← byteAt_emod a hj, ← byteAt_emod b hj, h]

theorem le_val (bs : List UInt8) : le bs.length (val bs) = bs := by
  apply List.ext_getElem?
  intro j
  by_cases hj : j < bs.length
  · rw [le_get hj, List.getElem?_eq_getElem hj]
    congr 1
    exact byteAt_val bs j _ (List.getElem?_eq_getElem hj)
  · rw [List.getElem?_eq_none (by simp; omega), List.getElem?_eq_none (by omega)]

theorem val_bytes_take {s : M} {src : Src} {n k : Nat} (h : n ≤ k) :
    val (bytes s src n) = val (bytes s src k) % 256 ^ n := by
  rw [← val_le_emod]
  congr 1
  unfold bytes le
  apply List.map_congr_left
  intro j hj
  have hj := List.mem_range.mp hj
  refine (byteAt_val _ _ _ ?_).symm
  simp [List.getElem?_map, List.getElem?_range (show j < k by omega)]

theorem sval_emod (bs : List UInt8) {w : Nat} (h : bs.length ≤ w) (k : Nat) (hk : k ≤ bs.length) :
    sval bs % 256 ^ k = val bs % 256 ^ k := by
  unfold sval
  split_ifs
  · rfl
  · obtain ⟨d, hd⟩ : ∃ d, bs.length = k + d := ⟨bs.length - k, by omega⟩
    rw [hd, pow_add, Int.mul_comm, show val bs - 256 ^ d * 256 ^ k = val bs + (-(256 ^ d)) * 256 ^ k by
      rw [Int.neg_mul]; rfl]
    exact Int.add_mul_emod_self_right ..

theorem sval_range (bs : List UInt8) (h : 0 < bs.length) :
    -(2 ^ (8 * bs.length - 1)) ≤ sval bs ∧ sval bs < 2 ^ (8 * bs.length - 1) := by
  have h0 := val_nonneg bs
  have h1 := val_lt bs
  have e : (256 : Int) ^ bs.length = 2 * 2 ^ (8 * bs.length - 1) := by
    rw [show (256 : Int) = 2 ^ 8 by rfl, ← Int.pow_mul, ← Int.pow_succ', show 8 * bs.length - 1 + 1 = 8 * bs.length by omega]
  rw [e] at h1
  unfold sval
  rw [e]
  split_ifs <;> omega

/-- A value in range is determined by its bytes. -/
theorem sval_le {n : Nat} {v : Int} (hn : 0 < n) (h : -(2 ^ (8 * n - 1)) ≤ v ∧ v < 2 ^ (8 * n - 1)) : sval (le n v) = v := by
  have e : (256 : Int) ^ n = 2 * 2 ^ (8 * n - 1) := by
    rw [show (256 : Int) = 2 ^ 8 by rfl, ← Int.pow_mul, ← Int.pow_succ', show 8 * n - 1 + 1 = 8 * n by omega]
  have hp : (0 : Int) < 2 ^ (8 * n - 1) := Int.pow_pos (by omega)
  unfold sval
  rw [le_length, val_le_emod, e]
  generalize (2 : Int) ^ (8 * n - 1) = P at *
  by_cases h0 : 0 ≤ v
  · rw [Int.emod_eq_of_lt h0 (by omega), if_pos (by omega)]
  · have : v % (2 * P) = v + 2 * P := by
      rw [← Int.add_emod_right, Int.emod_eq_of_lt (by omega) (by omega)]
    rw [this, if_neg (by omega)]
    omega

/-! ### Loads -/

/-- The effect of code that loads `v` to a register. -/
structure Puts (s t : M) (r : Nat) (v : Int) : Prop where
  mem : t.mem = s.mem
  reg : ∀ x, x ≠ r → x ≠ R11 → t.reg x = s.reg x
  val : t.reg r = v

theorem bytes_place {s : M} {p : Place} {a : Ea} (h : p.ea = some a) (n : Nat) :
    bytes s (.place p) n = rd s.mem (s.ea a) n := by
  rw [ea_place h]
  unfold bytes rd
  apply List.map_congr_left
  intro j _
  exact byte_place h j

theorem bytes_deref (s : M) (p : Place) (o n : Nat) : bytes s (.deref p o) n = rd s.mem (p.word s + o) n := rfl

theorem bytes_temp (s : M) (r n : Nat) : bytes s (.place (.temp r)) n = le n (s.reg r) := rfl

/-- What an opcode makes of the bytes of the operand. -/
def opValue (op : Op) (s : M) (src : Src) : Int :=
  match op with
  | .mov w | .movs w => Abi.val (bytes s src w)
  | .movx sg w dw => (if sg then sval (bytes s src w) else Abi.val (bytes s src w)) % 256 ^ dw

def Op.Wide : Op → Prop
  | .mov w => 4 ≤ w
  | .movs _ => False
  | .movx _ _ dw => 4 ≤ dw

theorem val_bytes_emod (s src n) : Abi.val (bytes s src n) % 256 ^ n = Abi.val (bytes s src n) := by
  have := val_lt (bytes s src n)
  rw [bytes_length] at this
  exact Int.emod_eq_of_lt (val_nonneg _) this

theorem fromMem_puts {op : Op} (h : Op.Wide op) (s : M) (d : Nat) (a : Ea) (src : Src)
    (hb : ∀ n, bytes s src n = rd s.mem (s.ea a) n) :
    Puts s (Abi.step s (op.fromMem d a)) d (opValue op s src) := by
  obtain ⟨h1, h2⟩ := fromMem_other op s d a
  refine ⟨h1, fun x hx _ => h2 x hx, ?_⟩
  cases op with
  | mov w =>
    simp only [Op.Wide] at h
    simp only [Op.fromMem, Abi.step, set_reg, if_true, merged, show decide (w < 4) = false by simp; omega,
      Bool.false_eq_true, if_false, opValue, ← hb, val_bytes_emod]
  | movs w => exact h.elim
  | movx sg w dw =>
    simp only [Op.Wide] at h
    simp only [Op.fromMem, Abi.step, set_reg, if_true, merged, show decide (dw < 4) = false by simp; omega,
      Bool.false_eq_true, if_false, opValue, ← hb]

theorem fromReg_puts {op : Op} (h : Op.Wide op) (s : M) (d r : Nat) (hr : r < 17) (hd : d < 17) :
    Puts s (Abi.step s (op.fromReg d r)) d (opValue op s (.place (.temp r))) := by
  obtain ⟨h1, h2⟩ := fromReg_other op s d r
  refine ⟨h1, fun x hx _ => h2 x hx, ?_⟩
  cases op with
  | mov w =>
    simp only [Op.Wide] at h
    simp only [Op.fromReg, Abi.step, set_reg, if_true, merged, if_neg (show ¬ 17 ≤ r by omega),
      show (decide (w < 4) || decide (17 ≤ d)) = false by simp; omega, Bool.false_eq_true, if_false, opValue, bytes_temp,
      val_le_emod]
  | movs w => exact h.elim
  | movx sg w dw =>
    simp only [Op.Wide] at h
    simp only [Op.fromReg, Abi.step, set_reg, if_true, merged, if_neg (show ¬ 17 ≤ r by omega),
      show decide (dw < 4) = false by simp; omega, Bool.false_eq_true, if_false, opValue, bytes_temp]

theorem emitLoad_puts {op : Op} {src : Src} {d : Nat} {code : List Ins} {s : M} (ho : Op.Wide op) (hd : d < 17)
    (h : Abi.emitLoad op src d = some code) (hi : ∀ i, src ≠ .imm i)
    (ht : ∀ r, src = .place (.temp r) → r < 17)
    (hp : ∀ r o, src = .deref (.temp r) o → r < 17 ∧ 0 ≤ s.reg r ∧ s.reg r < 256 ^ 8) :
    Puts s (Abi.run s code) d (opValue op s src) := by
  cases src with
  | imm v => exact (hi v rfl).elim
  | addr p => simp [Abi.emitLoad] at h
  | place p =>
    by_cases ht' : ∃ r, p = .temp r
    · obtain ⟨r, rfl⟩ := ht'
      simp only [Abi.emitLoad, Option.some.injEq] at h
      subst h
      exact fromReg_puts ho s d r (ht r rfl) hd
    · have : ∃ a, p.ea = some a := by cases p <;> simp_all [Place.ea]
      obtain ⟨a, ha⟩ := this
      have h' : some [op.fromMem d a] = some code := by
        rw [← h]
        cases p <;> simp_all [Abi.emitLoad, Place.ea]
      simp only [Option.some.injEq] at h'
      subst h'
      exact fromMem_puts ho s d a _ (bytes_place ha)
  | deref p o =>
    by_cases ht' : ∃ r, p = .temp r
    · obtain ⟨r, rfl⟩ := ht'
      simp only [Abi.emitLoad, Option.some.injEq] at h
      subst h
      obtain ⟨_, h0, h1⟩ := hp r o rfl
      refine fromMem_puts ho s d (.base r o) _ fun n => ?_
      rw [bytes_deref, word_temp h0 h1]; rfl
    · have : ∃ a, p.ea = some a := by cases p <;> simp_all [Place.ea]
      obtain ⟨a, ha⟩ := this
      have h' : some [.ld 8 R11 a, op.fromMem d (.base R11 o)] = some code := by
        rw [← h]
        cases p <;> simp_all [Abi.emitLoad, Place.ea]
      simp only [Option.some.injEq] at h'
      subst h'
      have hw : (Abi.step s (.ld 8 R11 a)).reg R11 = p.word s := by
        simp only [Abi.step, set_reg, if_true, merged, show decide (8 < 4) = false from rfl, Bool.false_eq_true, if_false]
        rw [word_place ha, ea_place ha, val_rd_emod]
      have hm : (Abi.step s (.ld 8 R11 a)).mem = s.mem := rfl
      have := fromMem_puts ho (Abi.step s (.ld 8 R11 a)) d (.base R11 o) (.deref p o) fun n => by
        rw [bytes_deref]
        have e : ∀ t : M, t.ea (.base R11 o) = t.reg R11 + o := fun _ => rfl
        rw [e, hw]
        congr 1
        -- the pointer is read from memory which is not changed, or from a register
        have : p.word (Abi.step s (.ld 8 R11 a)) = p.word s := by
          have h2 : p.address (Abi.step s (.ld 8 R11 a)) = p.address s := by
            cases p with
            | frame o => simp [Place.address, Abi.step, BP, R11]
            | global _ => rfl
            | temp _ => rfl
          rw [word_place ha, word_place ha, hm, h2]
        rw [this]
      obtain ⟨g1, g2, g3⟩ := this
      refine ⟨by rw [Abi.run_cons, Abi.run_cons, Abi.run_nil, g1, hm], fun x hx hx' => ?_, ?_⟩
      · rw [Abi.run_cons, Abi.run_cons, Abi.run_nil, g2 x hx hx']
        simp [Abi.step, hx']
      · rw [Abi.run_cons, Abi.run_cons, Abi.run_nil, g3]
        have hbb : ∀ n, bytes (Abi.step s (.ld 8 R11 a)) (.deref p o) n = bytes s (.deref p o) n := by
          intro n
          have h2 : p.address (Abi.step s (.ld 8 R11 a)) = p.address s := by
            cases p with
            | frame o => simp [Place.address, Abi.step, BP, R11]
            | global _ => rfl
            | temp _ => rfl
          rw [bytes_deref, bytes_deref, word_place ha, word_place ha, hm, h2]
        unfold opValue
        simp only [hbb]

/-! ### Bit-fields -/

theorem pow256 (n : Nat) : (256 : Int) ^ n = 2 ^ (8 * n) := by
  rw [show (256 : Int) = 2 ^ 8 by rfl, ← Int.pow_mul]

theorem emod_mul_ediv (n : Int) {q r : Int} (hq : 0 < q) (hr : 0 < r) : n % (q * r) / q = n / q % r := by
  have h1 := Int.emod_add_mul_ediv n q
  have h2 := Int.emod_add_mul_ediv (n / q) r
  have b1 := Int.emod_nonneg n (by omega : q ≠ 0)
  have b2 := Int.emod_lt_of_pos n hq
  have b3 := Int.emod_nonneg (n / q) (by omega : r ≠ 0)
  have b4 := Int.emod_lt_of_pos (n / q) hr
  have h3 : n % (q * r) = n % q + q * (n / q % r) := by
    have e : n = (n % q + q * (n / q % r)) + (n / q / r) * (q * r) := by
      have : (n / q / r) * (q * r) = q * (r * (n / q / r)) := by
        simp only [Int.mul_assoc, Int.mul_comm, Int.mul_left_comm]
      rw [this, Int.add_assoc, ← Int.mul_add, h2, h1]
    have := congrArg (· % (q * r)) e
    simp only [Int.add_mul_emod_self_right] at this
    rw [this]
    refine Int.emod_eq_of_lt ?_ ?_
    · have := Int.mul_nonneg (Int.le_of_lt hq) b3; omega
    · have : q * (n / q % r) + q ≤ q * r := by
        rw [show q * (n / q % r) + q = q * (n / q % r + 1) by rw [Int.mul_add, Int.mul_one]]
        exact Int.mul_le_mul_of_nonneg_left (by omega) (by omega)
      omega
  rw [h3, Int.add_mul_ediv_left _ _ (by omega), Int.ediv_eq_zero_of_lt b1 b2]
  omega

/-- Shifting up and down again leaves the bits in between. -/
theorem shift_bits {n : Int} {off width up A : Nat} (hA : A = off + width + up) :
    (n * 2 ^ up) % 2 ^ A / 2 ^ (off + up) = n / 2 ^ off % 2 ^ width := by
  have h1 : (n * 2 ^ up) % 2 ^ A = (n % 2 ^ (off + width)) * 2 ^ up := by
    rw [hA, Int.pow_add 2 (off + width) up, Int.mul_comm n, Int.mul_comm (2 ^ (off + width)),
      Int.mul_emod_mul_of_pos _ _ (Int.pow_pos (by omega)), Int.mul_comm]
  rw [h1, Int.pow_add 2 off up, Int.mul_ediv_mul_of_pos_left _ _ (Int.pow_pos (by omega))]
  rw [Int.pow_add]
  exact emod_mul_ediv n (Int.pow_pos (by omega)) (Int.pow_pos (by omega))

/-- The same with the sign. -/
theorem shift_bits_signed {n : Int} {off width up A : Nat} (hw : 0 < width) (hA : A = off + width + up) :
    (if 2 * ((n * 2 ^ up) % 2 ^ A) < 2 ^ A then (n * 2 ^ up) % 2 ^ A else (n * 2 ^ up) % 2 ^ A - 2 ^ A) / 2 ^ (off + up)
      = signedBits width (n / 2 ^ off) := by
  have h1 := shift_bits (n := n) hA
  have hA' : (2 : Int) ^ A = 2 ^ (width - 1) * 2 * 2 ^ (off + up) := by
    rw [← Int.pow_succ, ← Int.pow_add]; congr 1; omega
  have hw' : (2 : Int) ^ width = 2 ^ (width - 1) * 2 := by
    rw [← Int.pow_succ]; congr 1; omega
  have hP : (0 : Int) < 2 ^ (off + up) := Int.pow_pos (by omega)
  have key : ∀ x : Int, (if 2 * x < 2 ^ A then x else x - 2 ^ A) / 2 ^ (off + up)
      = if 2 ^ (width - 1) ≤ x / 2 ^ (off + up) then x / 2 ^ (off + up) - 2 ^ width else x / 2 ^ (off + up) := by
    intro x
    rw [hA', hw']
    generalize (2 : Int) ^ (off + up) = P at *
    generalize (2 : Int) ^ (width - 1) = Q at *
    have hc : Q ≤ x / P ↔ Q * P ≤ x := Int.le_ediv_iff_mul_le hP
    by_cases h : Q * P ≤ x
    · rw [if_neg, if_pos (hc.mpr h)]
      · rw [show x - Q * 2 * P = x + (-(Q * 2)) * P by rw [Int.neg_mul]; omega, Int.add_mul_ediv_right _ _ (by omega)]
        omega
      · have : Q * 2 * P = 2 * (Q * P) := by simp only [Int.mul_assoc, Int.mul_comm, Int.mul_left_comm]
        omega
    · rw [if_pos, if_neg (fun h' => h (hc.mp h'))]
      have : Q * 2 * P = 2 * (Q * P) := by simp only [Int.mul_assoc, Int.mul_comm, Int.mul_left_comm]
      omega
  rw [key, h1]
  rfl

/-- Nothing to shift: the whole of the register. -/
theorem signedBits_val {s : M} {src : Src} {w : Nat} (hw : 0 < w) :
    signedBits (8 * w) (Abi.val (bytes s src w)) = sval (bytes s src w) := by
  have h0 := val_nonneg (bytes s src w)
  have h1 := val_lt (bytes s src w)
  unfold signedBits sval
  rw [bytes_length] at *
  rw [pow256] at *
  have e : (2 : Int) ^ (8 * w) = 2 * 2 ^ (8 * w - 1) := by
    rw [← Int.pow_succ']; congr 1; omega
  rw [Int.emod_eq_of_lt h0 h1]
  rw [e] at *
  split_ifs <;> omega

/-! ### The value in the register -/

/-- The effect of code that loads an integer to the register `d`: its low `w` bytes are those of `v`. -/
structure HoldsIn (d : Nat) (s t : CM) (w : Nat) (v : Int) : Prop where
  same : t = { s with m := t.m }
  mem : t.m.mem = s.m.mem
  reg : ∀ x, x ≠ d → x ≠ R11 → t.m.reg x = s.m.reg x
  low : t.m.reg d % 256 ^ w = v % 256 ^ w
  nonneg : 0 ≤ t.m.reg d
  lt : t.m.reg d < 256 ^ 8

theorem HoldsIn.skip {d : Nat} {s t : CM} {w v} (h : HoldsIn d s t w v) : t.skip = s.skip := by rw [h.same]

abbrev Holds := HoldsIn AX

theorem emod_pow_le {a b : Int} {k n : Nat} (h : k ≤ n) (e : a % 256 ^ n = b % 256 ^ n) : a % 256 ^ k = b % 256 ^ k := by
  obtain ⟨d, rfl⟩ : ∃ d, n = k + d := ⟨n - k, by omega⟩
  rw [pow_add] at e
  have := congrArg (· % (256 : Int) ^ k) e
  simpa only [Int.emod_emod_of_dvd _ (Int.dvd_mul_right (256 ^ k) (256 ^ d))] using this

theorem plain_holds {v : Val} {s : CM} {enc} {w : Nat} {code : List CIns} {d : Nat} (hd : d < 17) (hg : v.Good s.m) (hf : v.field = none)
    (hk : s.skip = none) (hw : w = 4 ∨ w = 8) (h : loadInt v d w = some code) :
    HoldsIn d s (run enc s code) w (v.value s.m) := by
  simp only [loadInt, hf] at h
  obtain ⟨l, hl, h⟩ := Option.bind_eq_some_iff.mp h
  simp only [Option.some.injEq] at h
  subst h
  rw [run_ints enc l s hk]
  have key : ∀ op : Op, Op.Wide op → Abi.emitLoad op v.src d = some l → opValue op s.m v.src < 256 ^ 8 →
      0 ≤ opValue op s.m v.src → opValue op s.m v.src % 256 ^ w = v.value s.m % 256 ^ w →
      HoldsIn d s { s with m := Abi.run s.m l } w (v.value s.m) := by
    intro op ho he hlt h0 hv
    have hp := emitLoad_puts (s := s.m) ho hd he hg.imm (fun r hr => (hg.place r hr).1) hg.pointer
    exact ⟨rfl, hp.mem, hp.reg, by rw [hp.val]; exact hv, by rw [hp.val]; exact h0, by rw [hp.val]; exact hlt⟩
  have hb : ∀ n, n ≤ 8 → Abi.val (bytes s.m v.src n) < 256 ^ 8 := by
    intro n hn
    have h1 := val_lt (bytes s.m v.src n)
    rw [bytes_length] at h1
    have h2 : (256 : Int) ^ n ≤ 256 ^ 8 := by
      have := Nat.pow_le_pow_right (n := 256) (by omega) hn
      exact_mod_cast this
    omega
  have hpos : (0 : Int) < 256 ^ w := Int.pow_pos (by omega)
  have hle8 : (256 : Int) ^ w ≤ 256 ^ 8 := by rcases hw with rfl | rfl <;> decide
  have hmod : ∀ x : Int, 0 ≤ x % 256 ^ w ∧ x % 256 ^ w < 256 ^ 8 := by
    intro x
    have h1 := Int.emod_nonneg x (by omega : (256 : Int) ^ w ≠ 0)
    have h2 := Int.emod_lt_of_pos x hpos
    omega
  have hs := hg.size
  unfold Abi.loadInt at hl
  split at hl
  · rename_i p hp; exact (hg.src p hp).elim
  · rename_i i hi; exact (hg.imm i hi).elim
  · split_ifs at hl with h1 h2 h3 h4 h5
    · -- signed extension
      refine key _ (by simp only [Op.Wide]; omega) hl ?_ ?_ ?_
      · exact (hmod _).2
      · exact (hmod _).1
      · simp only [opValue, if_true, Val.value, hf, h2, Int.emod_emod_of_dvd _ (Int.dvd_refl _)]
    · refine key _ (by simp only [Op.Wide]; omega) hl ?_ ?_ ?_
      · exact (hmod _).2
      · exact (hmod _).1
      · simp only [opValue, if_false, Val.value, hf, h2, Bool.false_eq_true, Int.emod_emod_of_dvd _ (Int.dvd_refl _)]
    · refine key _ (by simp [Op.Wide]) hl (hb 4 (by omega)) (val_nonneg _) ?_
      simp only [opValue, Val.value, hf, h2, Bool.false_eq_true, if_false, h4.1]
    · -- same width, or 8 bytes loaded as 4
      have hw4 : 4 ≤ w := by omega
      refine key _ (by simp only [Op.Wide]; omega) hl (hb w (by omega)) (val_nonneg _) ?_
      have e : Abi.val (bytes s.m v.src w) % 256 ^ w = Abi.val (bytes s.m v.src v.sz) % 256 ^ w := by
        rw [val_bytes_take (s := s.m) (src := v.src) (show w ≤ v.sz by omega), Int.emod_emod_of_dvd _ (Int.dvd_refl _)]
      simp only [opValue, Val.value, hf]
      rw [e]
      split_ifs
      · exact (sval_emod (w := v.sz) _ (by rw [bytes_length]) w (by rw [bytes_length]; omega)).symm
      · rfl

/-- Only the register `d`, which is `x`, and `%r11` have changed. -/
structure Only (d : Nat) (s t : CM) (x : Int) : Prop where
  same : t = { s with m := t.m }
  mem : t.m.mem = s.m.mem
  reg : ∀ r, r ≠ d → r ≠ R11 → t.m.reg r = s.m.reg r
  val : t.m.reg d = x

theorem Only.trans {s t u : CM} {d : Nat} {x y} (h : Only d s t x) (g : Only d t u y) : Only d s u y := by
  refine ⟨?_, g.mem.trans h.mem, fun r h1 h2 => (g.reg r h1 h2).trans (h.reg r h1 h2), g.val⟩
  rw [g.same, h.same]

theorem Only.skip {d : Nat} {s t : CM} {x} (h : Only d s t x) : t.skip = s.skip := by rw [h.same]

theorem Only.setInt {d : Nat} (s : CM) {w : Nat} (hw : 4 ≤ w) (v : Int) : Only d s (s.setInt w d v) (v % 256 ^ w) := by
  refine ⟨rfl, rfl, fun r h _ => ?_, ?_⟩
  · simp [CM.setInt, h]
  · simp only [CM.setInt, set_reg, if_true, merged, show decide (w < 4) = false by simp; omega, Bool.false_eq_true, if_false]

theorem only_shl {enc} {d : Nat} {s : CM} {w up : Nat} {n : Int} (hw : 4 ≤ w) (hk : s.skip = none) (hn : s.m.reg d = n)
    (h0 : 0 ≤ n) (h1 : n < 256 ^ w) :
    Only d s (run enc s (if 0 < up then [.shl w d up] else [])) (n * 2 ^ up % 256 ^ w) := by
  split_ifs with h
  · rw [run_cons, run_nil, step_on hk]
    have := Only.setInt (d := d) s hw (Abi.val (le w (s.m.reg d)) * 2 ^ up)
    rw [val_le_emod, hn, Int.emod_eq_of_lt h0 h1] at this
    simpa only [exec, val_le_emod, hn, Int.emod_eq_of_lt h0 h1] using this
  · obtain rfl : up = 0 := by omega
    refine ⟨rfl, rfl, fun _ _ _ => rfl, ?_⟩
    simp only [run_nil, hn, pow_zero, Int.mul_one]
    exact (Int.emod_eq_of_lt h0 h1).symm

theorem low_emod {w : Nat} {x : Int} (h0 : 0 ≤ x) (h1 : x < 256 ^ w) :
    low w x = if 2 * x < 2 ^ (8 * w) then x else x - 2 ^ (8 * w) := by
  unfold low sval
  rw [le_length, val_le_emod, Int.emod_eq_of_lt h0 h1, pow256]

theorem only_shr {enc} {d : Nat} {s : CM} {w down : Nat} {sg : Bool} {x : Int} (hw : 4 ≤ w) (hk : s.skip = none)
    (hn : s.m.reg d = x) (h0 : 0 ≤ x) (h1 : x < 256 ^ w) :
    Only d s (run enc s (if 0 < down then [.shr sg w d down] else []))
      ((if sg then (if 2 * x < 2 ^ (8 * w) then x else x - 2 ^ (8 * w)) else x) / 2 ^ down % 256 ^ w) := by
  split_ifs with h
  all_goals try
    rw [run_cons, run_nil, step_on hk]
    have := Only.setInt (d := d) s hw ((if sg then low w (s.m.reg d) else Abi.val (le w (s.m.reg d))) / 2 ^ down)
    simp only [exec]
    simpa [hn, low_emod h0 h1, val_le_emod, Int.emod_eq_of_lt h0 h1, *] using this
  all_goals
    obtain rfl : down = 0 := by omega
    refine ⟨rfl, rfl, fun _ _ _ => rfl, ?_⟩
    simp only [run_nil, hn, pow_zero, Int.ediv_one]
    first
      | exact (Int.emod_eq_of_lt h0 h1).symm
      | (rw [← pow256, Int.sub_emod_right]; exact (Int.emod_eq_of_lt h0 h1).symm)

theorem bits_take (N : Int) {A off width : Nat} (h : off + width ≤ A) :
    N % 2 ^ A / 2 ^ off % 2 ^ width = N / 2 ^ off % 2 ^ width := by
  obtain ⟨d, rfl⟩ : ∃ d, A = off + (width + d) := ⟨A - off - width, by omega⟩
  rw [Int.pow_add 2 off, emod_mul_ediv _ (Int.pow_pos (by omega)) (Int.pow_pos (by omega)), Int.pow_add 2 width,
    Int.emod_emod_of_dvd _ (Int.dvd_mul_right _ _)]

theorem signedBits_congr {k : Nat} {a b : Int} (h : a % 2 ^ k = b % 2 ^ k) : signedBits k a = signedBits k b := by
  unfold signedBits; rw [h]

theorem signedBits_range {k : Nat} (hk : 0 < k) (n : Int) : -(2 ^ (k - 1)) ≤ signedBits k n ∧ signedBits k n < 2 ^ (k - 1) := by
  have e : (2 : Int) ^ k = 2 * 2 ^ (k - 1) := by rw [← Int.pow_succ']; congr 1; omega
  have hp : (0 : Int) < 2 ^ (k - 1) := Int.pow_pos (by omega)
  have h0 := Int.emod_nonneg n (by omega : (2 : Int) ^ k ≠ 0)
  have h1 := Int.emod_lt_of_pos n (by omega : (0 : Int) < 2 ^ k)
  unfold signedBits
  split_ifs <;> omega

theorem two_pow_le {a b : Nat} (h : a ≤ b) : (2 : Int) ^ a ≤ 2 ^ b := by
  have := Nat.pow_le_pow_right (n := 2) (by omega) h
  exact_mod_cast this

/-- The value of a bit-field is in the range of its width. -/
theorem field_range {v : Val} {s : M} {off width : Nat} (hf : v.field = some (off, width)) (hw : 0 < width) :
    if v.signed then -(2 ^ (width - 1)) ≤ v.value s ∧ v.value s < 2 ^ (width - 1)
    else 0 ≤ v.value s ∧ v.value s < 2 ^ width := by
  unfold Val.value
  simp only [hf]
  split_ifs with h
  · exact signedBits_range hw _
  · have hp : (0 : Int) < 2 ^ width := Int.pow_pos (by omega)
    exact ⟨Int.emod_nonneg _ (by omega), Int.emod_lt_of_pos _ hp⟩

/-- The bits of a field, read from a register of `aw` bytes. -/
theorem field_value {v : Val} {s : M} {aw off width up : Nat} (hf : v.field = some (off, width)) (hw : 0 < width)
    (ha : aw ≤ 8) (hA : 8 * aw = off + width + up) :
    (if v.signed then
        (if 2 * (Abi.val (bytes s v.src aw) * 2 ^ up % 256 ^ aw) < 2 ^ (8 * aw)
          then Abi.val (bytes s v.src aw) * 2 ^ up % 256 ^ aw
          else Abi.val (bytes s v.src aw) * 2 ^ up % 256 ^ aw - 2 ^ (8 * aw))
      else Abi.val (bytes s v.src aw) * 2 ^ up % 256 ^ aw) / 2 ^ (off + up) = v.value s := by
  have e : Abi.val (bytes s v.src aw) / 2 ^ off % 2 ^ width = Abi.val (bytes s v.src 8) / 2 ^ off % 2 ^ width := by
    rw [val_bytes_take ha, pow256]
    exact bits_take _ (by omega)
  unfold Val.value
  simp only [hf, pow256]
  split_ifs with h1 h2
  · have := shift_bits_signed (n := Abi.val (bytes s v.src aw)) hw hA
    rw [if_pos h2] at this
    rw [this]; exact signedBits_congr e
  · have := shift_bits_signed (n := Abi.val (bytes s v.src aw)) hw hA
    rw [if_neg h2] at this
    rw [this]; exact signedBits_congr e
  · rw [shift_bits hA]; exact e

theorem field_holds {v : Val} {s : CM} {enc} {w off width : Nat} {code : List CIns} {d : Nat} (hd : d < 17) (hg : v.Good s.m)
    (hf : v.field = some (off, width)) (hk : s.skip = none) (hw : w = 4 ∨ w = 8) (h : loadInt v d w = some code) :
    HoldsIn d s (run enc s code) w (v.value s.m) := by
  obtain ⟨g1, g2, g3, _⟩ := hg.field off width hf
  simp only [loadInt, hf, loadField, Option.bind_eq_bind] at h
  have hc : ¬ ¬ (0 < width ∧ width < 64 ∧ off + width ≤ 64) := by
    rw [not_not]; refine ⟨g1, g2, ?_⟩; split_ifs at g3 <;> omega
  rw [if_neg hc] at h
  have haw : (if v.sz ≤ 4 then 4 else 8) = 4 ∨ (if v.sz ≤ 4 then 4 else 8) = 8 := by split_ifs <;> simp
  generalize (if v.sz ≤ 4 then 4 else 8) = aw at *
  obtain ⟨l, hl, h⟩ := Option.bind_eq_some_iff.mp h
  simp only [Option.some.injEq] at h
  subst h
  obtain ⟨up, hup⟩ : ∃ up, up = aw * 8 - (off + width) := ⟨_, rfl⟩
  rw [← hup]
  have hA : 8 * aw = off + width + up := by omega
  have hb0 := val_nonneg (bytes s.m v.src aw)
  have hb1 := val_lt (bytes s.m v.src aw)
  rw [bytes_length] at hb1
  have hp : (0 : Int) < 256 ^ aw := Int.pow_pos (by omega)
  -- the load
  have o1 : Only d s (run enc s (l.map .int)) (Abi.val (bytes s.m v.src aw)) := by
    rw [run_ints enc l s hk]
    have := emitLoad_puts (s := s.m) (op := .mov aw) (by simp only [Op.Wide]; omega) hd hl hg.imm
      (fun r hr => (hg.place r hr).1) hg.pointer
    exact ⟨rfl, this.mem, this.reg, this.val⟩
  -- the shifts
  have o2 := o1.trans (only_shl (enc := enc) (up := up) (by omega) (by rw [o1.skip, hk]) o1.val hb0 hb1)
  rw [← run_append] at o2
  have o3 := o2.trans (only_shr (enc := enc) (down := off + up) (sg := v.signed) (by omega) (by rw [o2.skip, hk]) o2.val
    (Int.emod_nonneg _ (by omega)) (Int.emod_lt_of_pos _ hp))
  rw [← run_append, field_value hf g1 (by omega) hA] at o3
  rw [run_append]
  generalize run enc s (l.map .int ++ (if 0 < up then [.shl aw d up] else [])
    ++ (if 0 < off + up then [.shr v.signed aw d (off + up)] else [])) = t at *
  have hr := field_range (s := s.m) hf g1
  generalize v.value s.m = F at *
  have hw1 := two_pow_le (show width - 1 ≤ 8 * aw - 1 by omega)
  have hw2 := two_pow_le (show width ≤ 8 * aw by omega)
  split_ifs with hx
  · obtain ⟨hsg, hlt⟩ := hx
    obtain ⟨rfl, rfl⟩ : aw = 4 ∧ w = 8 := by omega
    rw [if_pos hsg] at hr
    rw [run_cons, run_nil, step_on (by rw [o3.skip, hk])]
    have e : Abi.sval (le 4 (t.m.reg d)) = F := by
      have he : le 4 (F % 256 ^ 4) = le 4 F := (le_eq_iff _ _ _).mpr (Int.emod_emod_of_dvd _ (Int.dvd_refl _))
      rw [o3.val, he]
      exact sval_le (by omega) ⟨by omega, by omega⟩
    have hm := Int.emod_nonneg F (by omega : (256 : Int) ^ 8 ≠ 0)
    have hm' := Int.emod_lt_of_pos F (by omega : (0 : Int) < 256 ^ 8)
    have hreg : (Abi.step t.m (.movx true 4 8 d d)).reg d = F % 256 ^ 8 := by
      simp only [Abi.step, set_reg, if_true, merged, e]
      rfl
    refine ⟨?_, o3.mem, fun x h1 h2 => ?_, ?_, ?_, ?_⟩
    · simp only [exec]; rw [o3.same]
    · simp only [exec, Abi.step, set_reg, if_neg h1]; exact o3.reg x h1 h2
    · simp only [exec]; rw [hreg, Int.emod_emod_of_dvd _ (Int.dvd_refl _)]
    · simp only [exec]; rw [hreg]; exact hm
    · simp only [exec]; rw [hreg]; exact hm'
  · rw [run_nil]
    have hm := Int.emod_nonneg F (by omega : (256 : Int) ^ aw ≠ 0)
    have hm' := Int.emod_lt_of_pos F hp
    refine ⟨o3.same, o3.mem, o3.reg, ?_, by rw [o3.val]; exact hm, ?_⟩
    · rw [o3.val]
      by_cases hle : w ≤ aw
      · exact emod_pow_le hle (Int.emod_emod_of_dvd _ (Int.dvd_refl _))
      · have hu : v.signed = false := by
          cases hv : v.signed with
          | true => exact (hx ⟨hv, by omega⟩).elim
          | false => rfl
        rw [hu] at hr
        simp only [Bool.false_eq_true, if_false] at hr
        rw [Int.emod_eq_of_lt hr.1 (by rw [pow256]; omega)]
    · rw [o3.val]
      have : (256 : Int) ^ aw ≤ 256 ^ 8 := by rcases haw with rfl | rfl <;> decide
      omega

theorem loadInt_in {v : Val} {s : CM} {enc} {w : Nat} {code : List CIns} {d : Nat} (hd : d < 17) (hg : v.Good s.m)
    (hk : s.skip = none) (hw : w = 4 ∨ w = 8) (h : loadInt v d w = some code) :
    HoldsIn d s (run enc s code) w (v.value s.m) := by
  cases hf : v.field with
  | none => exact plain_holds hd hg hf hk hw h
  | some f => exact field_holds hd hg hf hk hw h

theorem loadInt_holds {v : Val} {s : CM} {enc} {w : Nat} {code : List CIns} (hg : v.Good s.m)
    (hk : s.skip = none) (hw : w = 4 ∨ w = 8) (h : loadInt v AX w = some code) :
    Holds s (run enc s code) w (v.value s.m) := loadInt_in (by decide) hg hk hw h

/-- There is code for every operand. -/
theorem loadInt_some {d : Nat} {v : Val} {s : M} {w : Nat} (hg : v.Good s) (hw : w = 4 ∨ w = 8) : ∃ code, loadInt v d w = some code := by
  have key : ∀ op : Op, ∃ l, Abi.emitLoad op v.src d = some l := by
    intro op
    cases hv : v.src with
    | imm i => exact (hg.imm i hv).elim
    | addr p => exact (hg.src p hv).elim
    | place p => cases p <;> simp [Abi.emitLoad, Place.ea]
    | deref p o => cases p <;> simp [Abi.emitLoad, Place.ea]
  cases hf : v.field with
  | none =>
    have : ∃ l, Abi.loadInt v.sz v.signed v.src d w = some l := by
      have hs := hg.size
      unfold Abi.loadInt
      cases hv : v.src with
      | imm i => exact (hg.imm i hv).elim
      | addr p => exact (hg.src p hv).elim
      | place p =>
        simp only [← hv]
        unfold IsSize at hs
        split_ifs <;> first | exact key _ | omega
      | deref p o =>
        simp only [← hv]
        unfold IsSize at hs
        split_ifs <;> first | exact key _ | omega
    obtain ⟨l, hl⟩ := this
    exact ⟨_, by simp only [loadInt, hf, hl]; rfl⟩
  | some f =>
    obtain ⟨off, width⟩ := f
    obtain ⟨g1, g2, g3, _⟩ := hg.field off width hf
    obtain ⟨l, hl⟩ := key (.mov (if v.sz ≤ 4 then 4 else 8))
    have hc : ¬ ¬ (0 < width ∧ width < 64 ∧ off + width ≤ 64) := by
      rw [not_not]; refine ⟨g1, g2, ?_⟩; split_ifs at g3 <;> omega
    simp only [loadInt, hf, loadField, Option.bind_eq_bind, if_neg hc, pure_bind, hl, Option.bind_some, Option.some.injEq,
      exists_eq']

end Verif.Conv
