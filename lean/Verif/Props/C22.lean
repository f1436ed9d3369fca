import Verif.Fold.Lemmas

/-!
# C22 constant folding, C23 constant conversion
-/

namespace Verif.Fold
open Verif.Types Verif.Types.Spec
open Verif.Fold.Spec (fits conv width result ofBits)

/-! ## C23 -/

/-- **C23**: casting an integer constant to an integer type gives the value C prescribes, in canonical representation. -/
theorem C23_conversion (a t : Basic) (n : Int) (i : Imm) (q : Quals) (h : Holds a n i) (ht : t.isFloating = false) :
    ∃ j, cast i (tyOf t q) = .const j ∧ Holds t (Spec.conv t n) j ∧ j.ty = tyOf t q := by
  refine ⟨_, by unfold cast; rw [castOperand_eq q h ht], ⟨conv_fits ht n, ⟨q, rfl⟩, rfl⟩, rfl⟩

/-- **C23**: the canonical representation determines the value. -/
theorem C23_canonical (a b : Basic) (n m : Int) (i : Imm) (h : Holds a n i) (h' : Holds b m i) : a = b ∧ n = m := by
  obtain ⟨f1, ⟨q1, e1⟩, v1⟩ := h
  obtain ⟨f2, ⟨q2, e2⟩, v2⟩ := h'
  rw [e1] at e2
  injection e2 with k1 k2 k3
  have hab := basic_inj k1 k2
  subst hab
  refine ⟨rfl, ?_⟩
  rw [v1] at v2
  have := congrArg BitVec.toNat v2
  rw [BitVec.toNat_ofInt, BitVec.toNat_ofInt] at this
  obtain ⟨lo, hi, e, p1, p2⟩ := f1
  obtain ⟨lo', hi', e', p3, p4⟩ := f2
  rw [e] at e'
  cases a <;> simp [Basic.range] at e e' <;> omega

/-- `(short) 100000`, `(unsigned char) -1`, `(_Bool) 256`. -/
example : Holds .int 100000 ⟨{ kind := .int }, 100000⟩ ∧ Spec.conv .short 100000 = -31072 ∧ Spec.conv .uchar (-1) = 255 ∧
    Spec.conv .bool 256 = 1 ∧ cast ⟨{ kind := .int }, 100000⟩ (tyOf .short {}) = .const ⟨{ kind := .short }, -31072⟩ :=
  ⟨⟨⟨_, _, rfl, by decide⟩, ⟨{}, rfl⟩, by decide⟩, by decide, by decide, by decide, by decide⟩

/-! ## C22 -/

theorem binary_common {a b : Basic} {x y : Int} {l r : Imm} (hl : Holds a x l) (hr : Holds b y r) :
    let t := a.common b
    isOpTy t ∧ fits t (conv t x) ∧ fits t (conv t y) ∧ l.ty.isInteger = true ∧ r.ty.isInteger = true ∧
    usualConversion l.ty r.ty = .ok (tyOf t {}) ∧ castOperand l (tyOf t {}) = some ⟨tyOf t {}, BitVec.ofInt 64 (conv t x)⟩ ∧
    castOperand r (tyOf t {}) = some ⟨tyOf t {}, BitVec.ofInt 64 (conv t y)⟩ := by
  have hia := fits_isInt hl.1
  have hib := fits_isInt hr.1
  have ht : isOpTy (a.common b) := common_cases hia hib
  obtain ⟨_, ⟨q1, e1⟩, _⟩ := id hl
  obtain ⟨_, ⟨q2, e2⟩, _⟩ := id hr
  refine ⟨ht, conv_fits ht.isInt.1 _, conv_fits ht.isInt.1 _, ?_, ?_, ?_, castOperand_eq _ hl ht.isInt.1, castOperand_eq _ hr ht.isInt.1⟩
  · rw [e1]; exact isInteger_tyOf hia q1
  · rw [e2]; exact isInteger_tyOf hib q2
  · rw [e1, e2]; exact usual_eq q1 q2

/-- **C22** (value clause): whenever C defines the value of an operation on two integer constants, folding produces a
constant of exactly that type and value, whatever operator, types, qualifiers and values; in particular the compiler
executes no undefined behaviour of its own in those cases. -/
theorem C22_folding (op : Spec.Op) (a b : Basic) (x y : Int) (l r : Imm) (t : Basic) (z : Int)
    (hl : Holds a x l) (hr : Holds b y r) (h : Spec.binary op a b x y = some (t, z)) :
    ∃ i, binary (opOf op) l r = .const i ∧ Holds t z i := by
  obtain ⟨ht, fx, fy, il, ir, hu, cl, cr⟩ := binary_common hl hr
  have A := fun z => arith ht {} (z := z) fx fy
  have C := compare_eq ht {} fx fy
  have z0 := ofInt_eq_zero fy
  have fin : ∀ (o : Op) (z : Int), finish o (tyOf (a.common b) {}) (BitVec.ofInt 64 (conv (a.common b) x))
      (BitVec.ofInt 64 (conv (a.common b) y)) = .const ⟨tyOf (a.common b) {}, BitVec.ofInt 64 z⟩ ∧ fits (a.common b) z →
      ∃ i, finish o (tyOf (a.common b) {}) (BitVec.ofInt 64 (conv (a.common b) x))
        (BitVec.ofInt 64 (conv (a.common b) y)) = .const i ∧ Holds (a.common b) z i :=
    fun o z h => ⟨_, h.1, h.2, ⟨{}, rfl⟩, rfl⟩
  have sh : ∀ p, p = a.promote → 0 ≤ y ∧ y < width p → isOpTy p ∧ ∃ q', promoteInteger l.ty = .ok (tyOf p q') ∧
      castOperand l (tyOf p q') = some ⟨tyOf p q', BitVec.ofInt 64 x⟩ ∧ r.v = BitVec.ofInt 64 y ∧ fits p x := by
    intro p hp hy
    have hia := fits_isInt hl.1
    obtain ⟨_, ⟨q1, e1⟩, _⟩ := id hl
    obtain ⟨q', e⟩ := promote_eq hia q1
    have hp' : isOpTy p := hp ▸ promote_cases hia
    have hf := promote_fits hia hl.1
    rw [← hp] at e hf
    refine ⟨hp', q', by rw [e1]; exact e, ?_, hr.2.2, hf⟩
    rw [castOperand_eq q' hl hp'.isInt.1, conv_self hf]
  unfold Fold.binary
  rw [il, ir]
  simp only [Bool.not_true, Bool.or_self, Bool.false_eq_true, if_false]
  cases op <;> simp only [Spec.binary, opOf] at h ⊢
  case mul =>
    rw [hu]; simp only [cl, cr]
    obtain ⟨w, hw, e⟩ := Option.map_eq_some_iff.1 h
    obtain ⟨rfl, rfl⟩ := Prod.mk.inj e
    simpa using fin _ _ ((A _).1 hw)
  case add =>
    rw [hu]; simp only [cl, cr]
    obtain ⟨w, hw, e⟩ := Option.map_eq_some_iff.1 h
    obtain ⟨rfl, rfl⟩ := Prod.mk.inj e
    simpa using fin _ _ ((A _).2.1 hw)
  case sub =>
    rw [hu]; simp only [cl, cr]
    obtain ⟨w, hw, e⟩ := Option.map_eq_some_iff.1 h
    obtain ⟨rfl, rfl⟩ := Prod.mk.inj e
    simpa using fin _ _ ((A _).2.2.1 hw)
  case div =>
    rw [hu]; simp only [cl, cr]
    split_ifs at h with hz
    obtain ⟨w, hw, e⟩ := Option.map_eq_some_iff.1 h
    obtain ⟨rfl, rfl⟩ := Prod.mk.inj e
    rw [if_neg (fun hh => hz (z0.1 hh.2))]
    exact fin _ _ ((A _).2.2.2.1 hz hw)
  case mod =>
    rw [hu]; simp only [cl, cr]
    split_ifs at h with hz
    rw [not_or] at hz
    injection h with h
    obtain ⟨rfl, rfl⟩ := Prod.mk.inj h
    rw [if_neg (fun hh => hz.1 (z0.1 hh.2))]
    exact fin _ _ ((A _).2.2.2.2 hz.1 hz.2 rfl)
  case and =>
    rw [hu]; simp only [cl, cr]
    injection h with h
    obtain ⟨rfl, rfl⟩ := Prod.mk.inj h
    simp only [reduceCtorEq, or_self, false_and, if_false]
    have := finish_bits ht {} (op := .and) (l := BitVec.ofInt 64 (conv (a.common b) x)) (r := BitVec.ofInt 64 (conv (a.common b) y)) rfl rfl
    rw [BitVec.setWidth_and, setWidth_ofInt _ (width_le _), setWidth_ofInt _ (width_le _)] at this
    exact fin _ _ this
  case or =>
    rw [hu]; simp only [cl, cr]
    injection h with h
    obtain ⟨rfl, rfl⟩ := Prod.mk.inj h
    simp only [reduceCtorEq, or_self, false_and, if_false]
    have := finish_bits ht {} (op := .or) (l := BitVec.ofInt 64 (conv (a.common b) x)) (r := BitVec.ofInt 64 (conv (a.common b) y)) rfl rfl
    rw [BitVec.setWidth_or, setWidth_ofInt _ (width_le _), setWidth_ofInt _ (width_le _)] at this
    exact fin _ _ this
  case xor =>
    rw [hu]; simp only [cl, cr]
    injection h with h
    obtain ⟨rfl, rfl⟩ := Prod.mk.inj h
    simp only [reduceCtorEq, or_self, false_and, if_false]
    have := finish_bits ht {} (op := .xor) (l := BitVec.ofInt 64 (conv (a.common b) x)) (r := BitVec.ofInt 64 (conv (a.common b) y)) rfl rfl
    rw [BitVec.setWidth_xor, setWidth_ofInt _ (width_le _), setWidth_ofInt _ (width_le _)] at this
    exact fin _ _ this
  case shl =>
    split_ifs at h with hc
    obtain ⟨w, hw, e⟩ := Option.map_eq_some_iff.1 h
    obtain ⟨rfl, rfl⟩ := Prod.mk.inj e
    obtain ⟨hp, q', e1, e2, e3, hf⟩ := sh _ rfl ⟨hc.1, hc.2.1⟩
    rw [e1]; simp only [e2, e3]
    have := (shifts hp q' (z := w) hf ⟨hc.1, hc.2.1⟩).1 hc.2.2 hw
    exact ⟨_, this.1, this.2, ⟨_, rfl⟩, rfl⟩
  case shr =>
    split_ifs at h with hc
    injection h with h
    obtain ⟨rfl, rfl⟩ := Prod.mk.inj h
    obtain ⟨hp, q', e1, e2, e3, hf⟩ := sh _ rfl hc
    rw [e1]; simp only [e2, e3]
    have := (shifts hp q' (z := 0) hf hc).2
    exact ⟨_, this.1, this.2, ⟨_, rfl⟩, rfl⟩
  case eq =>
    rw [hu]; simp only [cl, cr]
    injection h with h
    obtain ⟨rfl, rfl⟩ := Prod.mk.inj h
    refine ⟨_, rfl, ?_⟩
    have := holds_immInt (decide (conv (a.common b) x = conv (a.common b) y))
    rw [C.1]
    simpa using this
  case ne =>
    rw [hu]; simp only [cl, cr]
    injection h with h
    obtain ⟨rfl, rfl⟩ := Prod.mk.inj h
    refine ⟨_, rfl, ?_⟩
    have := holds_immInt (decide (conv (a.common b) x ≠ conv (a.common b) y))
    rw [C.2.1]
    simpa using this
  case ge =>
    rw [hu]; simp only [cl, cr]
    injection h with h
    obtain ⟨rfl, rfl⟩ := Prod.mk.inj h
    refine ⟨_, rfl, ?_⟩
    have := holds_immInt (decide (conv (a.common b) y ≤ conv (a.common b) x))
    rw [C.2.2.1]
    simpa using this
  case gt =>
    rw [hu]; simp only [cl, cr]
    injection h with h
    obtain ⟨rfl, rfl⟩ := Prod.mk.inj h
    refine ⟨_, rfl, ?_⟩
    have := holds_immInt (decide (conv (a.common b) y < conv (a.common b) x))
    rw [C.2.2.2]
    simpa using this

/-- **C22**: `~`. -/
theorem C22_complement (a : Basic) (x : Int) (l : Imm) (hl : Holds a x l) :
    ∃ i, complement l = .const i ∧ Holds (Spec.complement a x).1 (Spec.complement a x).2 i := by
  have hia := fits_isInt hl.1
  obtain ⟨_, ⟨q1, e1⟩, _⟩ := id hl
  obtain ⟨q', e⟩ := promote_eq hia q1
  have hp : isOpTy a.promote := promote_cases hia
  have hf := promote_fits hia hl.1
  have hc := castOperand_eq q' hl hp.isInt.1
  rw [conv_self hf] at hc
  have hi : l.ty.isInteger = true := by rw [e1]; exact isInteger_tyOf hia q1
  unfold complement
  rw [hi, show promoteInteger l.ty = _ from e1 ▸ e]
  simp only [Bool.not_true, Bool.false_eq_true, if_false, hc]
  rw [imm_eq hp.isInt.1 hp.isInt.2]
  refine ⟨_, rfl, ?_, ⟨q', rfl⟩, ?_⟩
  · exact fits_ofBits hp.isInt.1 hp.isInt.2 _
  · simp only [Spec.complement]
    rw [BitVec.setWidth_not (width_le _), setWidth_ofInt _ (width_le _)]

/-- **C22**: unary minus. -/
theorem C22_negate (a : Basic) (x : Int) (l : Imm) (t : Basic) (z : Int) (hl : Holds a x l)
    (h : Spec.negate a x = some (t, z)) : ∃ i, negate l = .const i ∧ Holds t z i := by
  apply C22_folding .sub .int a 0 x _ _ t z (holds_immInt false) hl
  have hia := fits_isInt hl.1
  have hf := promote_fits hia hl.1
  have hc : Basic.int.common a = a.promote := by
    rcases isInt_cases hia with h | h | h | h | h | h | h | h | h <;> subst h <;> rfl
  have h0 : Spec.conv a.promote 0 = 0 := by
    rcases isInt_cases hia with h | h | h | h | h | h | h | h | h <;> subst h <;> decide
  simp only [Spec.binary, hc, h0, conv_self hf, Int.zero_sub]
  exact h

/-- `-1 < 0u` is false, `7 / -2`, `-7 % 3`, `0xFFFFFFFFu + 1`, `~(unsigned char) 0`, `-8 >> 1`. -/
example : Spec.binary .gt .uint .int 0 (-1) = some (.int, 0) ∧ Spec.binary .div .int .int 7 (-2) = some (.int, -3) ∧
    Spec.binary .mod .int .int (-7) 3 = some (.int, -1) ∧ Spec.binary .add .uint .int 4294967295 1 = some (.uint, 0) ∧
    Spec.complement .uchar 0 = (.int, -1) ∧ Spec.binary .shr .int .long (-8) 1 = some (.int, -4) ∧
    Spec.binary .mul .int .int 65536 65536 = none ∧ Spec.binary .mul .uint .int 65537 65537 = some (.uint, 131073) := by
  decide +kernel

example : Holds .int (-7) ⟨{ kind := .int }, -7⟩ ∧ binary .mod ⟨{ kind := .int }, -7⟩ ⟨{ kind := .int }, 3⟩ =
    .const ⟨{ kind := .int }, -1⟩ :=
  ⟨⟨⟨_, _, rfl, by decide⟩, ⟨{}, rfl⟩, by decide⟩, by decide +kernel⟩

/-- The second clause of **C22**: folding never makes the compiler itself execute undefined behaviour. -/
def FoldingSafe : Prop :=
  ∀ (op : Op) (a b : Basic) (x y : Int) (l r : Imm), Holds a x l → Holds b y r → binary op l r ≠ .ub

/-- **C22 violated**: `(-9223372036854775807L - 1) / -1` traps in the compiler. -/
theorem C22_long_min_violated : ¬ FoldingSafe := by
  intro h
  exact h .div .long .int (-2 ^ 63) (-1) ⟨{ kind := .long }, BitVec.ofInt 64 (-2 ^ 63)⟩ ⟨{ kind := .int }, -1⟩
    ⟨⟨_, _, rfl, by decide⟩, ⟨{}, rfl⟩, rfl⟩ ⟨⟨_, _, rfl, by decide⟩, ⟨{}, rfl⟩, by decide⟩ (by decide +kernel)

/-- **C22 violated**: `1 << 64` is executed by the compiler. -/
theorem C22_shift_count_violated : ¬ FoldingSafe := by
  intro h
  exact h .shl .int .int 1 64 ⟨{ kind := .int }, 1⟩ ⟨{ kind := .int }, 64⟩
    ⟨⟨_, _, rfl, by decide⟩, ⟨{}, rfl⟩, by decide⟩ ⟨⟨_, _, rfl, by decide⟩, ⟨{}, rfl⟩, by decide⟩ (by decide +kernel)

/-- **C22 violated**: so is `9223372036854775807 + 1`. -/
theorem C22_long_overflow_violated : ¬ FoldingSafe := by
  intro h
  exact h .add .long .int (2 ^ 63 - 1) 1 ⟨{ kind := .long }, BitVec.ofInt 64 (2 ^ 63 - 1)⟩ ⟨{ kind := .int }, 1⟩
    ⟨⟨_, _, rfl, by decide⟩, ⟨{}, rfl⟩, rfl⟩ ⟨⟨_, _, rfl, by decide⟩, ⟨{}, rfl⟩, by decide⟩ (by decide +kernel)

/-- **C22** partial (second clause): no undefined behaviour is executed for operators other than shifts when the operands
have a common type other than `long`.  Missing: `long` and shifts, where the clause fails (see above). -/
theorem C22_safe_partial (op : Op) (a b : Basic) (x y : Int) (l r : Imm) (hl : Holds a x l) (hr : Holds b y r)
    (hop : op ≠ .shl ∧ op ≠ .shr) (hc : a.common b ≠ .long) : binary op l r ≠ .ub := by
  obtain ⟨ht, fx, fy, il, ir, hu, cl, cr⟩ := binary_common hl hr
  have z0 := ofInt_eq_zero fy
  have hst : ∀ n, immSigned (tyOf (a.common b) {}) n ≠ .ub := by
    intro n; unfold immSigned; split_ifs <;> try simp
    split <;> simp
  have hut : ∀ n, immUnsigned (tyOf (a.common b) {}) n ≠ .ub := by
    intro n; unfold immUnsigned; split_ifs <;> simp
  have key : ∀ o, o ≠ .shl → o ≠ .shr → (o = .mul ∨ o = .div ∨ o = .mod ∨ o = .add ∨ o = .sub ∨ o = .and ∨ o = .or ∨ o = .xor) →
      ¬ ((o = .div ∨ o = .mod) ∧ BitVec.ofInt 64 (Spec.conv (a.common b) y) = 0) →
      finish o (tyOf (a.common b) {}) (BitVec.ofInt 64 (Spec.conv (a.common b) x)) (BitVec.ofInt 64 (Spec.conv (a.common b) y)) ≠ .ub := by
    intro o h1 h2 h3 h4
    cases hs : (a.common b).isSigned with
    | true =>
      have hint : a.common b = .int := by
        rcases ht with h | h | h | h
        · exact h
        · rw [h] at hs; cases hs
        · exact absurd h hc
        · rw [h] at hs; cases hs
      rw [finish_signed ht hs]
      have ex := toInt_fits ht hs fx
      have ey := toInt_fits ht hs fy
      generalize Spec.conv (a.common b) x = X at *
      generalize Spec.conv (a.common b) y = Y at *
      obtain ⟨lo, hi, e, p1, p2⟩ := fx
      obtain ⟨lo', hi', e', p3, p4⟩ := fy
      rw [hint] at e e'
      simp only [Basic.range, Option.some.injEq, Prod.mk.injEq] at e e'
      have hsome : ∀ n : Int, -2 ^ 63 ≤ n → n < 2 ^ 63 → hostLong n = some (BitVec.ofInt 64 n) := by
        intro n a b; unfold hostLong; rw [if_pos ⟨a, b⟩]
      have hmul : -2 ^ 63 ≤ X * Y ∧ X * Y < 2 ^ 63 := by
        have : (X * Y).natAbs ≤ 2 ^ 31 * 2 ^ 31 := by
          rw [Int.natAbs_mul]; exact Nat.mul_le_mul (by omega) (by omega)
        omega
      have hdiv : -2 ^ 63 ≤ X.tdiv Y ∧ X.tdiv Y < 2 ^ 63 := by
        have : (X.tdiv Y).natAbs ≤ X.natAbs := by rw [Int.natAbs_tdiv]; exact Nat.div_le_self _ _
        omega
      have hmod : -2 ^ 63 ≤ X.tmod Y ∧ X.tmod Y < 2 ^ 63 := by
        have : (X.tmod Y).natAbs ≤ X.natAbs := by rw [Int.natAbs_tmod]; exact Nat.mod_le _ _
        omega
      rcases h3 with rfl | rfl | rfl | rfl | rfl | rfl | rfl | rfl
      · simp only [signedOp, ex, ey, hsome _ hmul.1 hmul.2]; exact hst _
      · simp only [signedOp, ex, ey, hsome _ hdiv.1 hdiv.2]
        rw [if_neg (fun h => h4 ⟨Or.inl rfl, h⟩)]; exact hst _
      · simp only [signedOp, ex, ey, hsome _ hdiv.1 hdiv.2, hsome _ hmod.1 hmod.2]
        rw [if_neg (by rintro (h | h); exacts [h4 ⟨Or.inr rfl, h⟩, by simp at h])]; exact hst _
      · simp only [signedOp, ex, ey, hsome (X + Y) (by omega) (by omega)]; exact hst _
      · simp only [signedOp, ex, ey, hsome (X - Y) (by omega) (by omega)]; exact hst _
      all_goals simp only [signedOp]; exact hst _
    | false =>
      rw [finish_unsigned ht hs]
      rcases h3 with rfl | rfl | rfl | rfl | rfl | rfl | rfl | rfl
      · simp only [unsignedOp]; exact hut _
      · simp only [unsignedOp]; rw [if_neg (fun h => h4 ⟨Or.inl rfl, h⟩)]; exact hut _
      · simp only [unsignedOp]; rw [if_neg (fun h => h4 ⟨Or.inr rfl, h⟩)]; exact hut _
      all_goals simp only [unsignedOp]; exact hut _
  unfold binary
  rw [il, ir]
  simp only [Bool.not_true, Bool.or_self, Bool.false_eq_true, if_false]
  cases op <;> simp only [hu, cl, cr]
  case shl => exact absurd rfl hop.1
  case shr => exact absurd rfl hop.2
  case eq => simp
  case ne => simp
  case ge => simp
  case gt => simp
  all_goals
    split
    · intro h; cases h
    · rename_i h0
      exact key _ (by decide) (by decide) (by decide) (by simpa using h0)

/-- `INT_MIN / -1` and `2147483647 + 1` are folded without undefined behaviour in the compiler. -/
example : binary .div ⟨{ kind := .int }, BitVec.ofInt 64 (-2147483648)⟩ ⟨{ kind := .int }, -1⟩ ≠ .ub ∧
    binary .add ⟨{ kind := .int }, 2147483647⟩ ⟨{ kind := .int }, 1⟩ = .const ⟨{ kind := .int }, BitVec.ofInt 64 (-2147483648)⟩ := by
  decide +kernel

end Verif.Fold
