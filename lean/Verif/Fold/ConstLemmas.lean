import Verif.Fold.ConstExpr
import Verif.Props.C22

namespace Verif.Fold
open Verif.Types Verif.Types.Spec
open Verif.Fold.Spec (fits conv typeOf value total decided wellTyped)

theorem reprTy_eq (b : Basic) : reprTy b = tyOf b {} := by cases b <;> rfl

theorem modelOp_eq (op : Spec.Op) : modelOp op = opOf op := by cases op <;> rfl

theorem zero_iff {a : Basic} {n : Int} {i : Imm} (h : Holds a n i) : i.v = 0 ↔ n = 0 := by
  rw [h.2.2]; exact ofInt_eq_zero h.1

theorem conv_zero {t : Basic} : conv t 0 = 0 := by
  unfold conv
  split_ifs with h1 h2
  · rfl
  · exact absurd rfl h2
  · simp
  · simp

/-- Comparing with the constant 0. -/
theorem binary_ne_zero {a : Basic} {n : Int} {i : Imm} (h : Holds a n i) :
    ∃ j, binary .ne i (immInt false) = .const j ∧ Holds .int (if n = 0 then 0 else 1) j := by
  have hia := fits_isInt h.1
  have hz : conv (a.common .int) n = n := by
    apply conv_self
    have hf := h.1
    obtain ⟨lo, hi, e, h1⟩ := hf
    rcases isInt_cases hia with h | h | h | h | h | h | h | h | h <;> subst h <;> simp [Basic.range] at e <;>
      exact ⟨_, _, rfl, by omega⟩
  apply C22_folding .ne a .int n 0 _ _ _ _ h (holds_immInt false)
  simp only [Spec.binary, hz, conv_zero]

theorem binary_eq_zero {a : Basic} {n : Int} {i : Imm} (h : Holds a n i) :
    ∃ j, binary .eq (immInt false) i = .const j ∧ Holds .int (if n = 0 then 1 else 0) j := by
  have hia := fits_isInt h.1
  have hz : conv (Basic.int.common a) n = n := by
    apply conv_self
    have hf := h.1
    obtain ⟨lo, hi, e, h1⟩ := hf
    rcases isInt_cases hia with h | h | h | h | h | h | h | h | h <;> subst h <;> simp [Basic.range] at e <;>
      exact ⟨_, _, rfl, by omega⟩
  apply C22_folding .eq .int a 0 n _ _ _ _ (holds_immInt false) h
  simp only [Spec.binary, hz, conv_zero]
  congr 3
  simp [eq_comm]

theorem binary_type {op : Spec.Op} {l r : Expr} {x y : Int} {t : Basic} {z : Int}
    (h : Spec.binary op (typeOf l) (typeOf r) x y = some (t, z)) : t = typeOf (.bin op l r) := by
  cases op <;> simp only [Spec.binary, typeOf] at h ⊢
  case mul => obtain ⟨w, _, e⟩ := Option.map_eq_some_iff.1 h; exact (Prod.mk.inj e).1.symm
  case add => obtain ⟨w, _, e⟩ := Option.map_eq_some_iff.1 h; exact (Prod.mk.inj e).1.symm
  case sub => obtain ⟨w, _, e⟩ := Option.map_eq_some_iff.1 h; exact (Prod.mk.inj e).1.symm
  case div =>
    split_ifs at h
    obtain ⟨w, _, e⟩ := Option.map_eq_some_iff.1 h; exact (Prod.mk.inj e).1.symm
  case mod =>
    split_ifs at h
    injection h with h; exact (Prod.mk.inj h).1.symm
  case shl =>
    split_ifs at h
    obtain ⟨w, _, e⟩ := Option.map_eq_some_iff.1 h; exact (Prod.mk.inj e).1.symm
  case shr =>
    split_ifs at h
    injection h with h; exact (Prod.mk.inj h).1.symm
  all_goals injection h with h; exact (Prod.mk.inj h).1.symm

/-- Every total expression is folded to its value; the current block changes unless the expression is `decided`. -/
theorem parse_total : ∀ e, wellTyped e → total e → ∃ i z s, parse e = .value i s ∧ value e = some z ∧
    Holds (typeOf e) z i ∧ (s = true ↔ decided e)
  | .lit b n, hw, _ => by
    refine ⟨_, n, true, rfl, rfl, ⟨hw, ⟨{}, by simp [reprTy_eq, typeOf]⟩, rfl⟩, by simp [decided]⟩
  | .cast b e, hw, ht => by
    obtain ⟨i, z, s, h1, h2, h3, h4⟩ := parse_total e hw.2 ht
    obtain ⟨j, hj, hh, _⟩ := C23_conversion _ b z i {} h3 hw.1
    refine ⟨j, conv b z, s, ?_, ?_, hh, h4⟩
    · simp only [parse, h1, Res.eval, reprTy_eq, hj, Res.ofOut]
    · simp only [value, h2, Option.map]
  | .neg e, hw, ht => by
    obtain ⟨i, z, s, h1, h2, h3, h4⟩ := parse_total e hw ht.1
    have hv := ht.2
    simp only [value, h2, Option.bind] at hv
    cases hn : Spec.negate (typeOf e) z with
    | none => simp [hn] at hv
    | some p =>
      obtain ⟨t, w⟩ := p
      obtain ⟨j, hj, hh⟩ := C22_negate _ _ _ _ _ h3 hn
      have ht : t = (typeOf e).promote := by
        obtain ⟨w, _, e⟩ := Option.map_eq_some_iff.1 hn; exact (Prod.mk.inj e).1.symm
      subst ht
      refine ⟨j, w, s, ?_, ?_, hh, h4⟩
      · simp only [parse, h1, Res.eval, hj, Res.ofOut]
      · simp only [value, h2, Option.bind, hn, Option.map]
  | .compl e, hw, ht => by
    obtain ⟨i, z, s, h1, h2, h3, h4⟩ := parse_total e hw ht
    obtain ⟨j, hj, hh⟩ := C22_complement _ _ _ h3
    refine ⟨j, _, s, ?_, ?_, hh, h4⟩
    · simp only [parse, h1, Res.eval, hj, Res.ofOut]
    · simp only [value, h2, Option.map]
  | .not e, hw, ht => by
    obtain ⟨i, z, s, h1, h2, h3, h4⟩ := parse_total e hw ht
    obtain ⟨j, hj, hh⟩ := binary_eq_zero h3
    refine ⟨j, _, s, ?_, ?_, hh, h4⟩
    · simp only [parse, h1, Res.eval, hj, Res.ofOut]
    · simp only [value, h2, Option.map]
  | .plus e, hw, ht => by
    obtain ⟨i, z, s, h1, h2, h3, h4⟩ := parse_total e hw ht
    have hia := fits_isInt h3.1
    obtain ⟨_, ⟨q, e1⟩, _⟩ := id h3
    obtain ⟨q', e2⟩ := promote_eq hia q
    have hp : isOpTy (typeOf e).promote := promote_cases hia
    obtain ⟨j, hj, hh, _⟩ := C23_conversion _ (typeOf e).promote z i q' h3 hp.isInt.1
    rw [conv_self (promote_fits hia h3.1)] at hh
    have hu : unaryPlus i = .const j := by
      unfold unaryPlus
      rw [e1, isInteger_tyOf hia, e2]
      exact hj
    refine ⟨j, z, s, ?_, ?_, hh, h4⟩
    · simp only [parse, h1, Res.eval, hu, Res.ofOut]
    · simp only [value, h2]
  | .bin op l r, hw, ht => by
    obtain ⟨i, z, s, h1, h2, h3, h4⟩ := parse_total l hw.1 ht.1
    obtain ⟨i', z', s', h1', h2', h3', h4'⟩ := parse_total r hw.2 ht.2.1
    have hv := ht.2.2
    simp only [value, h2, h2', Option.bind] at hv
    cases hn : Spec.binary op (typeOf l) (typeOf r) z z' with
    | none => simp [hn] at hv
    | some p =>
      obtain ⟨t, w⟩ := p
      obtain ⟨j, hj, hh⟩ := C22_folding op _ _ _ _ _ _ _ _ h3 h3' hn
      have ht := binary_type hn
      subst ht
      refine ⟨j, w, s && s', ?_, ?_, hh, ?_⟩
      · simp only [parse, h1, h1', Res.eval, modelOp_eq, hj, Res.ofOut]
      · simp only [value, h2, h2', Option.bind, hn, Option.map]
      · simp [decided, h4, h4']
  | .and l r, hw, ht => by
    obtain ⟨i, z, s, h1, h2, h3, h4⟩ := parse_total l hw.1 ht.1
    obtain ⟨i', z', s', h1', h2', h3', h4'⟩ := parse_total r hw.2 ht.2
    have hz := zero_iff h3
    by_cases h0 : z = 0
    · have hv : i.v = 0 := hz.2 h0
      have hp : parse (.and l r) = .value (immInt false) (s && s') := by
        simp only [parse, h1, h1', logical, hv]
        cases s' <;> simp
      refine ⟨_, 0, _, hp, by simp [value, h2, h0], holds_immInt false, ?_⟩
      simp [decided, h4, h4', h2, h0]
    · have hv : i.v ≠ 0 := fun h => h0 (hz.1 h)
      obtain ⟨j, hj, hh⟩ := binary_ne_zero h3'
      have hp : parse (.and l r) = .value j false := by
        simp only [parse, h1, h1', logical, Res.eval, hj, Res.ofOut]
        rw [if_neg (by simpa using hv)]
      refine ⟨_, _, _, hp, by simp [value, h2, h0, h2'], hh, ?_⟩
      simp [decided, h2, h0]
  | .or l r, hw, ht => by
    obtain ⟨i, z, s, h1, h2, h3, h4⟩ := parse_total l hw.1 ht.1
    obtain ⟨i', z', s', h1', h2', h3', h4'⟩ := parse_total r hw.2 ht.2
    have hz := zero_iff h3
    by_cases h0 : z = 0
    · have hv : i.v = 0 := hz.2 h0
      obtain ⟨j, hj, hh⟩ := binary_ne_zero h3'
      have hp : parse (.or l r) = .value j false := by
        simp only [parse, h1, h1', logical, Res.eval, hj, Res.ofOut]
        rw [if_neg (by simpa using hv)]
      refine ⟨_, _, _, hp, by simp [value, h2, h0, h2'], hh, ?_⟩
      simp [decided, h2, h0]
    · have hv : i.v ≠ 0 := fun h => h0 (hz.1 h)
      have hp : parse (.or l r) = .value (immInt true) (s && s') := by
        simp only [parse, h1, h1', logical]
        rw [if_pos (by simpa using hv)]
        cases s' <;> simp
      refine ⟨_, 1, _, hp, by simp [value, h2, h0], holds_immInt true, ?_⟩
      simp [decided, h4, h4', h2, h0]
  | .cond c l r, hw, ht => by
    obtain ⟨ic, zc, sc, c1, c2, c3, c4⟩ := parse_total c hw.1 ht.1
    obtain ⟨i, z, s, h1, h2, h3, h4⟩ := parse_total l hw.2.1 ht.2.1
    obtain ⟨i', z', s', h1', h2', h3', h4'⟩ := parse_total r hw.2.2 ht.2.2
    have hz := zero_iff c3
    obtain ⟨ht, -, -, -, -, hu, -, -⟩ := binary_common h3 h3'
    by_cases h0 : zc = 0
    · have hv : ic.v = 0 := hz.2 h0
      obtain ⟨j, hj, hh, _⟩ := C23_conversion _ ((typeOf l).common (typeOf r)) z' i' {} h3' ht.isInt.1
      refine ⟨j, _, sc && s', ?_, ?_, hh, ?_⟩
      · simp only [parse, c1, h1, h1', conditional, Res.eval, hu]
        rw [if_neg (by simpa using hv), hj]; rfl
      · simp [value, c2, h0, h2']
      · simp [decided, c4, h4', c2, h0]
    · have hv : ic.v ≠ 0 := fun h => h0 (hz.1 h)
      obtain ⟨j, hj, hh, _⟩ := C23_conversion _ ((typeOf l).common (typeOf r)) z i {} h3 ht.isInt.1
      refine ⟨j, _, sc && s, ?_, ?_, hh, ?_⟩
      · simp only [parse, c1, h1, h1', conditional, Res.eval, hu]
        rw [if_pos hv, hj]; rfl
      · simp [value, c2, h0, h2]
      · simp [decided, c4, h4, c2, h0]

end Verif.Fold
