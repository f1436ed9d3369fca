import Verif.LongDouble.Lemmas

/-!
# C57: constants of type `long double`

The full property is: a constant of type `long double` has, wherever it is used, the value
that was computed for it, to the bit; a literal has the value C gives to it; and
a minus sign changes the sign.
-/

namespace Verif.LongDouble

/-- **C57 (partial).**  Any number of constants are put in the pool, one after the other, in
a pool with whatever constants of before.  Then no assertion fails, the indices of before
remain good, and through each new index one reads a value that compares equal to the one put
in; identical to it, to the bit, if it is not a zero, or if all zeros have the same
sign.  Left out are NaN (`C57_nan_violated`) and zeros of both signs
(`C57_zero_violated`). -/
theorem C57_pool_partial (p : Pool) (xs : List LD) (hp : ∀ x ∈ p ++ xs, x.Proper)
    (hn : ∀ x ∈ p ++ xs, x.isNaN = false) :
    ∃ is p', puts p xs = some (is, p') ∧ is.length = xs.length
      ∧ (∀ i v, get p i = some v → get p' i = some v)
      ∧ ∀ (k : Nat) (x : LD), xs[k]? = some x → ∃ (i : Nat) (y : LD), is[k]? = some i ∧ get p' i = some y
        ∧ (y = x ∨ (y.isZero ∧ x.isZero))
        ∧ ((∃ s, ∀ z ∈ p ++ xs, z.isZero → z.sign = s) → y = x) := by
  obtain ⟨is, q, h1, h2, _, h4⟩ := puts_spec xs p fun x hx => hn x (by simp [hx])
  refine ⟨is, p ++ q, h1, h2, ?_, ?_⟩
  · intro i v h
    exact (List.getElem?_append_left (List.getElem?_eq_some_iff.mp h).1).trans h
  · intro k x hk
    have hx : x ∈ xs := List.mem_of_getElem? hk
    obtain ⟨i, y, g1, g2, g3, g4⟩ := h4 k x hk
    have hy : y ∈ p ++ xs := List.mem_append.mpr g4
    have hx' : x ∈ p ++ xs := by simp [hx]
    have hc := (ceq_iff (hp y hy) (hp x hx') (hn y hy) (hn x hx')).mp g3
    refine ⟨i, y, g1, g2, hc, ?_⟩
    rintro ⟨s, hs⟩
    rcases hc with h | ⟨hy0, hx0⟩
    · exact h
    · have e1 := hs y hy hy0
      have e2 := hs x hx' hx0
      simp only [LD.isZero, decide_eq_true_eq] at hy0 hx0
      obtain ⟨a, b, c⟩ := x
      obtain ⟨a', b', c'⟩ := y
      simp only [LD.mk.injEq]
      exact ⟨e1.trans e2.symm, BitVec.eq_of_toNat_eq (hy0.1.trans hx0.1.symm),
        BitVec.eq_of_toNat_eq (hy0.2.trans hx0.2.symm)⟩

def one : LD := ⟨false, 16383, 0x8000000000000000⟩
def half : LD := ⟨false, 16382, 0x8000000000000000⟩
def zero : LD := ⟨false, 0, 0⟩
def inf : LD := ⟨true, 32767, 0x8000000000000000⟩
def nan : LD := ⟨true, 32767, 0xc000000000000000⟩

/-- The hypotheses of the theorem hold for a pool with a zero, and new constants with a zero
again; it is found again. -/
example : (∀ x ∈ [one, zero] ++ [half, zero, one, inf], x.Proper ∧ x.isNaN = false)
    ∧ puts [one, zero] [half, zero, one, inf] = some ([2, 1, 0, 3], [one, zero, half, inf]) := by
  decide +kernel

/-- **C57 violated: the sign of zero.**  `put_long_double` searches with `==`, so `-0.0L` is
found at the index of `0.0L`: with `0.0L` in the program, the constant
`(long double) -0.0` is positive. -/
theorem C57_zero_violated :
    zero.Proper ∧ zero.negated.Proper ∧ ∃ p, puts [] [zero, zero.negated] = some ([0, 0], p)
      ∧ get p 0 = some zero ∧ zero ≠ zero.negated := by
  refine ⟨by decide +kernel, by decide +kernel, [zero], by decide +kernel, rfl, by decide +kernel⟩

/-- **C57 violated: NaN.**  The assertion after the insertion compares the value with itself,
so lacc aborts on `0.0L / 0.0L`, whatever is in the pool. -/
theorem C57_nan_violated (p : Pool) : nan.Proper ∧ put p nan = none := by
  refine ⟨by decide +kernel, ?_⟩
  have hn : nan.isNaN = true := by decide +kernel
  have hf : find nan p 0 = none := by
    cases h : find nan p 0 with
    | none => rfl
    | some i =>
      obtain ⟨_, x, _, _, hc⟩ := find_some h
      simp [ceq, hn] at hc
  simp [put, hf, get, ceq, hn]

/-! ### Literals -/

/-- **C57 (partial): literals.**  A literal with suffix `L` whose exact value `n / d` has at
most 53 significant bits, that is `s * 2 ^ e` with `2 ^ 52 ≤ s < 2 ^ 53`, has that value:
the 64 bit significand is `s` followed by 11 zeros.  Bounds of the exponent are not
modelled (`strtod` reports a range error, which is diagnosed: C65).  Literals with more
bits are cut (`C57_literal_violated`). -/
theorem C57_literal_partial (n d s : Nat) (e : Int) (hd : 0 < d) (h1 : 2 ^ 52 ≤ s) (h2 : s < 2 ^ 53)
    (hv : n * (scaled s e).2 = (scaled s e).1 * d) :
    literal n d = (s * 2 ^ 11, e - 11) := by
  simp only [literal, round_exact (p := 53) (by omega) hd h1 h2 hv]

/-- `1.25L`, as `125 / 100`. -/
example : literal 125 100 = (0xa000000000000000, -63) := by
  refine C57_literal_partial 125 100 (5 * 2 ^ 50) (-52) (by omega) (by omega) (by omega) ?_
  decide +kernel

/-- **C57 violated: literals with more than 53 bits.**  `0.1L` goes through `strtod` and has
the value of `0.1`, which is hundreds of units of the last place away from what C99 6.4.4.2
permits; the nearest value would do. -/
theorem C57_literal_violated :
    ¬ Acceptable 1 10 (literal 1 10).1 (literal 1 10).2
      ∧ Acceptable 1 10 0xcccccccccccccccd (-67) := by
  decide +kernel

/-! ### Unary minus -/

/-- `minus` is the subtraction of a machine, as far as that is exact. -/
def Subtracts (minus : LD → LD → LD) : Prop :=
  ∀ a b, a.Proper → b.Proper → a.isFinite → b.isFinite → (∃ r, LD.IsDifference a b r) →
    LD.IsDifference a b (minus a b)

theorem not_nan {a : LD} (h : a.isFinite) : a.isNaN = false := by
  simp only [LD.isFinite, decide_eq_true_eq] at h
  simp [LD.isNaN, h]

theorem negated_number (x : LD) : x.negated.number = - x.number := by
  obtain ⟨s, e, g⟩ := x
  cases s <;> simp [LD.negated, LD.number]

/-- **C57 (partial): unary minus.**  `-x` is compiled and folded as `0 - x`.  With the
subtraction of a processor, this is `x` with the other sign for all finite values but
zero (`C57_negative_zero_violated`). -/
theorem C57_negative_partial (minus : LD → LD → LD) (hm : Subtracts minus) (x : LD) (hx : x.Proper)
    (hf : x.isFinite) (h0 : x.isZero = false) : neg minus x = x.negated := by
  have hz : zero.Proper := by decide +kernel
  have hzn : zero.number = 0 := by decide +kernel
  have hn : x.negated.Proper := hx
  have hnz : x.negated.isZero = false := h0
  have hd : LD.IsDifference zero x x.negated :=
    ⟨hn, hf, by rw [negated_number, hzn]; omega, by rw [hnz]; simp⟩
  have h := hm zero x hz hx (by decide +kernel) hf ⟨_, hd⟩
  have heq : ceq (minus zero x) x.negated = true := by
    simp only [ceq, not_nan h.finite, not_nan (show x.negated.isFinite from hf), Bool.not_false,
      Bool.true_and, decide_eq_true_eq]
    rw [h.number, hd.number]
  rcases (ceq_iff h.proper hn (not_nan h.finite) (not_nan (show x.negated.isFinite from hf))).mp heq with h | h
  · exact h
  · rw [hnz] at h; simp at h

/-- There is such a machine. -/
example : ∃ minus, Subtracts minus := by
  classical
  refine ⟨fun a b => if h : ∃ r, LD.IsDifference a b r then h.choose else a, ?_⟩
  intro a b _ _ _ _ h
  simp only [dif_pos h]
  exact h.choose_spec

example : half.Proper ∧ half.isFinite ∧ half.isZero = false := by decide +kernel

/-- **C57 violated: the negative of zero.**  With the subtraction of any processor,
`-0.0L` is `0.0L`, in constants and at run time, while the negative of a float or double zero
has its sign. -/
theorem C57_negative_zero_violated (minus : LD → LD → LD) (hm : Subtracts minus) :
    neg minus zero = zero ∧ zero ≠ zero.negated := by
  refine ⟨?_, by decide +kernel⟩
  have hz : zero.Proper := by decide +kernel
  have hd : LD.IsDifference zero zero zero :=
    ⟨hz, by decide +kernel, by decide +kernel, by decide +kernel⟩
  have h := hm zero zero hz hz (by decide +kernel) (by decide +kernel) ⟨_, hd⟩
  have h0 : (minus zero zero).isZero := (number_zero h.proper).mp (by rw [h.number]; decide +kernel)
  have hs := h.zero h0
  have hs' : (minus zero zero).sign = false := by rw [hs]; decide +kernel
  show minus zero zero = zero
  simp only [LD.isZero, decide_eq_true_eq] at h0
  generalize minus zero zero = r at *
  obtain ⟨a, b, c⟩ := r
  simp only [zero, LD.mk.injEq]
  exact ⟨hs', BitVec.eq_of_toNat_eq h0.1, BitVec.eq_of_toNat_eq h0.2⟩

end Verif.LongDouble
