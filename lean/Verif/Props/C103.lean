import Verif.Assign.Spec

/-!
# C103: assignments and conditional expressions have the types C demands

In full: an assignment (also of an argument, an initializer or a value returned) compiles without a diagnostic
if and only if the types satisfy the constraints of C; a conditional expression is accepted if and only if C allows the types of its operands, and has the
type C says.

Proved: every assignment C allows compiles without a diagnostic (`C103_allowed`), and the others
do not, but for three cases (`C103_diagnosed_partial`); conditional expressions have the type C says, but for null
pointer constants cast to `void *`, structures with different qualifiers and `restrict` with `void *` (`C103_conditional_partial`),
and others are refused (`C103_refused_partial`).  Each exception is needed, as the `_violated` theorems show.
-/

namespace Verif.Assign

theorem setQuals_setQuals (t : Ty) (q p : Quals) : (t.setQuals q).setQuals p = t.setQuals p := by
  cases t <;> rfl

theorem own_eq (t : Ty) : t.own = t.quals := by cases t <;> rfl

theorem withOwn_eq (t : Ty) (q : Quals) : t.withOwn q = t.setQuals q := by cases t <;> rfl

theorem isInteger_iff {t : Ty} : IsInteger t ↔ t.isInteger = true := by
  constructor
  · intro h; cases h <;> rfl
  · intro h; cases t <;> simp [Ty.isInteger] at h <;> constructor

theorem isArithmetic_iff {t : Ty} : IsArithmetic t ↔ t.isArithmetic = true := by
  constructor
  · intro h
    cases h with
    | integer h => cases h <;> rfl
    | flt => rfl
  · intro h
    cases t <;> simp [Ty.isArithmetic] at h
    case flt => exact .flt
    all_goals exact .integer (by constructor)

theorem isObject_iff {t : Ty} : IsObject t ↔ t.isObject = true := by
  cases t <;> simp [IsObject, Ty.isObject]

theorem isVoid_iff {t : Ty} : t.isVoid = true ↔ ∃ q, t = .void q := by
  cases t <;> simp [Ty.isVoid]

theorem same_iff (l r : Ty) : Same l r ↔ l.unqualified = r.unqualified := by
  constructor
  · rintro ⟨q, p, h⟩
    rw [withOwn_eq, withOwn_eq] at h
    have := congrArg (Ty.setQuals {}) h
    simpa [setQuals_setQuals, Ty.unqualified] using this
  · intro h; exact ⟨{}, {}, by rw [withOwn_eq, withOwn_eq]; exact h⟩

theorem isCompatible_refl (t : Ty) : isCompatible t t = true := by
  induction t <;> simp_all [isCompatible]

theorem compatUnq_of_same {l r : Ty} (h : Same l r) : compatUnq l r = true := by
  rw [same_iff] at h
  unfold compatUnq
  rw [h]; exact isCompatible_refl _

theorem hasQualifiers_of {l r : Ty} (h : l.own.Has r.own) : hasQualifiers l r = true := by
  rw [own_eq, own_eq] at h
  obtain ⟨h1, h2, _⟩ := h
  unfold hasQualifiers
  cases e : r.quals.const <;> cases f : r.quals.volatile <;> simp_all

theorem isNullptr_of {v : Val} (h : NullConstant v) : isNullptr v = true := by
  cases h with
  | int h => simp [isNullptr, isInteger_iff.1 h]
  | ptr => rfl

/-- What C allows compiles without a diagnostic. -/
theorem C103_allowed (t : Ty) (v : Val) (h : Assignable t v) : assign t v = .ok := by
  cases h with
  | arith h1 h2 =>
    rw [isArithmetic_iff] at h1 h2
    cases t <;> simp [Ty.isArithmetic] at h1 <;>
      (obtain ⟨ty, z⟩ := v; cases ty <;> simp [Ty.isArithmetic] at h2 <;> rfl)
  | record => simp [assign, compatUnq, Ty.unqualified, Ty.setQuals, isCompatible]
  | pointer hs hq => simp [assign, assignPointer, compatUnq_of_same hs, hasQualifiers_of hq]
  | @fromVoid _ _ k l _ h1 hq =>
    have : hasQualifiers l (.void k) = true := hasQualifiers_of hq
    simp [assign, assignPointer, isObject_iff.1 h1, Ty.isVoid, this]
  | @toVoid _ _ k r _ h1 hq =>
    have : hasQualifiers (.void k) r = true := hasQualifiers_of hq
    simp [assign, assignPointer, isObject_iff.1 h1, Ty.isVoid, this]
  | null hn =>
    have := isNullptr_of hn
    cases hn with
    | int h =>
      rename_i ty
      rw [isInteger_iff] at h
      cases ty <;> simp [Ty.isInteger] at h <;> simp [assign, assignPointer, this]
    | ptr => simp [assign, assignPointer, this]
  | bool => rfl

/-- Integers at the same place have the same signedness. -/
def Signs : Ty → Ty → Prop
  | .int _ u _, .int _ w _ => u = w
  | .ptr _ t, .ptr _ r => Signs t r
  | _, _ => True

theorem eq_of_isCompatible : ∀ {l r : Ty}, isCompatible l r = true → Signs l r → l = r := by
  intro l
  induction l with
  | ptr q t ih =>
    intro r h hs
    cases r <;> simp [isCompatible] at h
    obtain ⟨rfl, h⟩ := h
    rw [ih h hs]
  | _ =>
    intro r h hs
    cases r <;> simp_all [isCompatible, Signs]

theorem signs_unq {l r : Ty} (h : Signs l r) : Signs l.unqualified r.unqualified := by
  cases l <;> cases r <;> simp_all [Signs, Ty.unqualified, Ty.setQuals]

/-- The exceptions: pointers to integers that differ in signedness only, a type with `restrict` behind a pointer to one without, and
zero constants of a pointer type other than `void *`. -/
def PlainPointers (t : Ty) (v : Val) : Prop :=
  match t, v.ty with
  | .ptr _ l, .ptr _ r => Signs l r ∧ (r.own.restrict = true → l.own.restrict = true) ∧
      (v.zero = true → r = .void {})
  | _, _ => True

/-- What C does not allow is diagnosed. -/
theorem C103_diagnosed_partial (t : Ty) (v : Val) (hp : PlainPointers t v) (h : assign t v = .ok) :
    Assignable t v := by
  obtain ⟨ty, z⟩ := v
  cases t with
  | void q => simp [assign] at h
  | fn i => simp [assign] at h
  | bool q =>
    cases ty <;> simp [assign] at h
    case ptr => exact .bool
    all_goals exact .arith (isArithmetic_iff.2 rfl) (isArithmetic_iff.2 rfl)
  | int q u s =>
    simp only [assign] at h
    split at h
    · rename_i ha; exact .arith (isArithmetic_iff.2 rfl) (isArithmetic_iff.2 ha)
    · cases h
  | flt q s =>
    simp only [assign] at h
    split at h
    · rename_i ha; exact .arith (isArithmetic_iff.2 rfl) (isArithmetic_iff.2 ha)
    · cases h
  | record q i =>
    cases ty <;> simp [assign, compatUnq, Ty.unqualified, Ty.setQuals, isCompatible] at h
    subst h; exact .record
  | ptr q l =>
    simp only [assign, assignPointer] at h
    cases ty with
    | ptr p r =>
      obtain ⟨h1, h2, h3⟩ := hp
      simp only at h1 h2 h3
      simp only at h
      split at h
      · rename_i hc
        have hq : hasQualifiers l r = true → l.own.Has r.own := by
          intro hh
          rw [own_eq, own_eq] at h2 ⊢
          unfold hasQualifiers at hh
          refine ⟨?_, ?_, h2⟩
          · intro e; simp [e] at hh; exact hh.1
          · intro e; simp [e] at hh; exact hh.2
        simp only [Bool.or_eq_true, Bool.and_eq_true] at hc
        rcases hc with ((⟨a, b⟩ | ⟨⟨a, b⟩, c⟩) | ⟨⟨a, b⟩, c⟩) | a
        · exact .pointer ((same_iff _ _).2 (eq_of_isCompatible a (signs_unq h1))) (hq b)
        · obtain ⟨k, rfl⟩ := isVoid_iff.1 b
          exact .fromVoid (isObject_iff.2 a) (hq c)
        · obtain ⟨k, rfl⟩ := isVoid_iff.1 a
          exact .toVoid (isObject_iff.2 b) (hq c)
        · have hz : z = true := by simp [isNullptr] at a; exact a
          subst hz
          have := h3 rfl
          subst this
          exact .null .ptr
      · cases h
    | bool p =>
      simp only at h
      split at h
      · rename_i hn
        have hz : z = true := by simp [isNullptr, Ty.isInteger] at hn; exact hn
        subst hz; exact .null (.int (isInteger_iff.2 rfl))
      · cases h
    | int p u s =>
      simp only at h
      split at h
      · rename_i hn
        have hz : z = true := by simp [isNullptr, Ty.isInteger] at hn; exact hn
        subst hz; exact .null (.int (isInteger_iff.2 rfl))
      · cases h
    | _ => simp at h

/-- Types but for their own qualifiers. -/
def Cond.unq : Cond → Cond
  | .usual => .usual
  | .ty t => .ty t.unqualified

/-- The exceptions: null pointer constants of a pointer type, structures with different qualifiers, and a pointer to a type with `restrict` with a pointer to
`void`.  (Only pointers have `restrict`.) -/
def PlainOperands (a b : Val) : Prop :=
  (∀ q, a ≠ ⟨.ptr q (.void {}), true⟩) ∧ (∀ q, b ≠ ⟨.ptr q (.void {}), true⟩) ∧
  (∀ q p i, a.ty = .record q i → b.ty = .record p i → q = p) ∧
  ∀ q p l r, a.ty = .ptr q l → b.ty = .ptr p r → l.own.restrict = true ∨ r.own.restrict = true →
    (∃ k t, l = .ptr k t) ∧ ∃ k t, r = .ptr k t

theorem applyQuals_both {l r : Ty} (h : r.own.restrict = true → ∃ k t, l = .ptr k t) :
    applyQuals l r = some (l.withOwn (l.own.both r.own)) := by
  rw [own_eq] at h
  rw [withOwn_eq, own_eq, own_eq, applyQuals, if_neg]
  · rfl
  · intro hr
    simp only [Bool.and_eq_true] at hr
    obtain ⟨k, t, rfl⟩ := h hr.1
    simp [Ty.isPointer] at hr

theorem both_comm (a b : Quals) : a.both b = b.both a := by
  simp [Quals.both, Bool.or_comm]

theorem condPointer_eq {l r : Ty} (t u : Ty) (h : r.own.restrict = true → ∃ k t, l = .ptr k t) :
    (condPointer l r t u).map Cond.unq = some (.ty (.ptr {} (l.withOwn (l.own.both r.own)))) := by
  simp only [condPointer, applyQuals_both h]
  rw [applyQuals_both (fun _ => ⟨_, _, rfl⟩)]
  simp only [Ty.withOwn]
  rw [applyQuals_both (fun _ => ⟨_, _, rfl⟩)]
  rfl

theorem cond_ptr {l r : Ty} (q p : Quals) (y z : Bool)
    (h : l.own.restrict = true ∨ r.own.restrict = true → (∃ k t, l = .ptr k t) ∧ ∃ k t, r = .ptr k t) :
    (condType ⟨.ptr q l, y⟩ ⟨.ptr p r, z⟩).map Cond.unq =
      if (compatUnq l r || l.isVoid) = true then some (.ty (.ptr {} (l.withOwn (l.own.both r.own))))
      else if r.isVoid = true then some (.ty (.ptr {} (r.withOwn (r.own.both l.own))))
      else none := by
  have e : (Ty.ptr q l).isArithmetic = false := rfl
  simp only [condType, e, Bool.false_and, Bool.false_eq_true, if_false, isPtr]
  by_cases hc : (compatUnq l r || l.isVoid) = true
  · rw [if_pos hc, if_pos hc, condPointer_eq _ _ (fun e => (h (.inr e)).1)]
  · rw [if_neg hc, if_neg hc]
    by_cases hv : r.isVoid = true
    · rw [if_pos hv, if_pos hv, condPointer_eq _ _ (fun e => (h (.inl e)).2)]
    · rw [if_neg hv, if_neg hv]; rfl

theorem no_restrict {l : Ty} (h : l.own.restrict = true → False) : l.own.restrict = false := by
  cases e : l.own.restrict <;> simp_all

/-- Conditional expressions have the types C says. -/
theorem C103_conditional_partial (a b : Val) (c : Cond) (hp : PlainOperands a b) (h : CondType a b c) :
    (condType a b).map Cond.unq = some c.unq := by
  obtain ⟨h1, h2, h3, h4⟩ := hp
  cases h with
  | arith ha hb => simp [condType, isArithmetic_iff.1 ha, isArithmetic_iff.1 hb]
  | record =>
    have := h3 _ _ _ rfl rfl
    subst this
    simp [condType, Ty.isArithmetic, isPtr, Ty.isVoid, Cond.unq, Ty.unqualified, Ty.setQuals]
  | void => simp [condType, Ty.isArithmetic, isPtr, Ty.isVoid, Cond.unq, Ty.unqualified, Ty.setQuals]
  | pointer hs =>
    rw [cond_ptr _ _ _ _ (h4 _ _ _ _ rfl rfl), if_pos (by simp [compatUnq_of_same hs])]; rfl
  | nullRight hn =>
    have := isNullptr_of hn
    cases hn with
    | int h =>
      rename_i ty
      rw [isInteger_iff] at h
      cases ty <;> simp [Ty.isInteger] at h <;>
        simp [condType, Ty.isArithmetic, isPtr, this, Cond.unq, Ty.unqualified, Ty.setQuals]
    | ptr => exact absurd rfl (h2 _)
  | nullLeft hn =>
    have := isNullptr_of hn
    cases hn with
    | int h =>
      rename_i ty
      rw [isInteger_iff] at h
      cases ty <;> simp [Ty.isInteger] at h <;>
        simp [condType, Ty.isArithmetic, isPtr, this, Cond.unq, Ty.unqualified, Ty.setQuals]
    | ptr => exact absurd rfl (h1 _)
  | @voidLeft q p k r y z _ ho =>
    have h4 := h4 _ _ _ _ rfl rfl
    rw [cond_ptr _ _ _ _ h4, if_pos (by simp [Ty.isVoid])]
    have hr : ((Ty.void k).own.both r.own).restrict = false := by
      cases e : ((Ty.void k).own.both r.own).restrict with
      | false => rfl
      | true =>
        obtain ⟨⟨_, _, e⟩, _⟩ := h4 (by simpa [Quals.both] using e)
        cases e
    simp [Cond.unq, Ty.unqualified, Ty.setQuals, Ty.withOwn, Quals.both, Ty.own] at hr ⊢
    simp [hr]
  | @voidRight q p k l y z _ ho =>
    have h4 := h4 _ _ _ _ rfl rfl
    rw [cond_ptr _ _ _ _ h4]
    have hr : (l.own.both (Ty.void k).own).restrict = false := by
      cases e : (l.own.both (Ty.void k).own).restrict with
      | false => rfl
      | true =>
        obtain ⟨_, ⟨_, _, e⟩⟩ := h4 (by simpa [Quals.both] using e)
        cases e
    by_cases hc : (compatUnq l (.void k) || l.isVoid) = true
    · have hv : ∃ j, l = .void j := by
        cases l <;> simp [compatUnq, Ty.unqualified, Ty.setQuals, isCompatible, Ty.isVoid] at hc ⊢
      obtain ⟨j, rfl⟩ := hv
      rw [if_pos hc]
      simp [Cond.unq, Ty.unqualified, Ty.setQuals, Ty.withOwn, Quals.both, Ty.own] at hr ⊢
      simp [hr]
    · rw [if_neg hc, if_pos (show (Ty.void k).isVoid = true from rfl), both_comm]
      simp [Cond.unq, Ty.unqualified, Ty.setQuals, Ty.withOwn, Quals.both, Ty.own] at hr ⊢
      simp [hr]

/-- The exceptions: pointers to integers that differ in signedness only, and a pointer to a function with a pointer to `void`. -/
def PlainPair (a b : Val) : Prop :=
  match a.ty, b.ty with
  | .ptr _ l, .ptr _ r => Signs l r ∧ (IsObject l ∧ IsObject r ∨ ∀ q, l ≠ .void q ∧ r ≠ .void q)
  | _, _ => True

/-- What C does not allow is refused. -/
theorem C103_refused_partial (a b : Val) (hp : PlainPair a b) (c : Cond) (h : condType a b = some c) :
    ∃ d, CondType a b d := by
  obtain ⟨t, y⟩ := a
  obtain ⟨u, z⟩ := b
  by_cases har : (t.isArithmetic && u.isArithmetic) = true
  · simp only [Bool.and_eq_true] at har
    exact ⟨_, .arith (isArithmetic_iff.2 har.1) (isArithmetic_iff.2 har.2)⟩
  · simp only [condType] at h
    rw [if_neg har] at h
    cases t with
    | ptr q l =>
      cases u with
      | ptr p r =>
        simp only [isPtr] at h
        simp only [PlainPair] at hp
        obtain ⟨hs, hp⟩ := hp
        by_cases hc : compatUnq l r = true
        · exact ⟨_, .pointer ((same_iff _ _).2 (eq_of_isCompatible hc (signs_unq hs)))⟩
        · by_cases hv : l.isVoid = true
          · obtain ⟨k, rfl⟩ := isVoid_iff.1 hv
            have ho : IsObject r := by
              rcases hp with hp | hp
              · exact hp.2
              · exact absurd rfl (hp k).1
            by_cases hn : NullConstant ⟨.ptr q (.void k), y⟩
            · exact ⟨_, .nullLeft hn⟩
            · exact ⟨_, .voidLeft hn ho⟩
          · by_cases hw : r.isVoid = true
            · obtain ⟨k, rfl⟩ := isVoid_iff.1 hw
              have ho : IsObject l := by
                rcases hp with hp | hp
                · exact hp.1
                · exact absurd rfl (hp k).2
              by_cases hn : NullConstant ⟨.ptr p (.void k), z⟩
              · exact ⟨_, .nullRight hn⟩
              · exact ⟨_, .voidRight hn ho⟩
            · simp [hc, hv, hw] at h
      | bool p =>
        simp only [isPtr] at h
        split at h
        · rename_i hn
          have hz : z = true := by simp [isNullptr, Ty.isInteger] at hn; exact hn
          subst hz; exact ⟨_, .nullRight (.int (isInteger_iff.2 rfl))⟩
        · cases h
      | int p w s =>
        simp only [isPtr] at h
        split at h
        · rename_i hn
          have hz : z = true := by simp [isNullptr, Ty.isInteger] at hn; exact hn
          subst hz; exact ⟨_, .nullRight (.int (isInteger_iff.2 rfl))⟩
        · cases h
      | _ => simp [isPtr, isNullptr, Ty.isInteger] at h
    | _ =>
      cases u with
      | ptr p r =>
        simp [isPtr, isNullptr, Ty.isInteger] at h <;>
          (obtain ⟨hz, _⟩ := h; subst hz; exact ⟨_, .nullLeft (.int (isInteger_iff.2 rfl))⟩)
      | _ =>
        simp [isPtr, Ty.isVoid, Ty.isArithmetic] at h har <;> first
          | exact ⟨_, .void⟩
          | (obtain ⟨⟨_, hi⟩, _⟩ := h; subst hi; exact ⟨_, .record⟩)

/-! ## Examples and witnesses -/

def int : Ty := .int {} false 4
def uint : Ty := .int {} true 4
def constInt : Ty := .int { const := true } false 4
def pInt : Ty := .ptr {} int
def pVoid : Ty := .ptr {} (.void {})
def null : Val := ⟨pVoid, true⟩

/-- `const int *p = q;` with `int *q` -/
example : Assignable (.ptr {} constInt) ⟨pInt, false⟩ :=
  .pointer ⟨{}, {}, rfl⟩ ⟨fun _ => rfl, nofun, nofun⟩

/-- `int *p = q;` with `const int *q` gives a warning, `struct S s = 1;` an error. -/
example : assign pInt ⟨.ptr {} constInt, false⟩ = .warning ∧
    PlainPointers pInt ⟨.ptr {} constInt, false⟩ := ⟨by decide, rfl, nofun, nofun⟩
example : assign (.record {} 1) ⟨int, false⟩ = .error := by decide

/-- `c ? p : q` with `const int *p` and `volatile void *q` -/
example : CondType ⟨.ptr {} constInt, false⟩ ⟨.ptr {} (.void { volatile := true }), false⟩
    (.ty (.ptr {} (.void { const := true, volatile := true }))) :=
  .voidRight nofun nofun
example : PlainOperands ⟨.ptr {} constInt, false⟩ ⟨.ptr {} (.void { volatile := true }), false⟩ :=
  ⟨by simp, by simp, by simp, by
    intro q p l r h1 h2 h
    cases h1; cases h2; rcases h with h | h <;> cases h⟩
example : PlainPair ⟨pInt, false⟩ ⟨pVoid, false⟩ := ⟨trivial, .inl ⟨nofun, nofun⟩⟩
example : condType ⟨pInt, false⟩ ⟨.ptr {} (.flt {} 4), false⟩ = none := by decide

/-- `int *p = u;` with `unsigned *u` is not diagnosed. -/
theorem C103_signedness_violated :
    assign pInt ⟨.ptr {} uint, false⟩ = .ok ∧ ¬ Assignable pInt ⟨.ptr {} uint, false⟩ := by
  refine ⟨by decide, fun h => ?_⟩
  cases h with
  | arith h _ => rw [isArithmetic_iff] at h; cases h
  | pointer h _ => rw [same_iff] at h; revert h; decide
  | null h => cases h

/-- `int **p = q;` with `int *restrict *q` is not diagnosed. -/
theorem C103_restrict_violated :
    assign (.ptr {} pInt) ⟨.ptr {} (.ptr { restrict := true } int), false⟩ = .ok ∧
    ¬ Assignable (.ptr {} pInt) ⟨.ptr {} (.ptr { restrict := true } int), false⟩ := by
  refine ⟨by decide, fun h => ?_⟩
  cases h with
  | arith h _ => rw [isArithmetic_iff] at h; cases h
  | pointer _ h => exact absurd (h.2.2 rfl) (by decide)
  | null h => cases h

/-- `int *p = (float *) 0;` is not diagnosed. -/
theorem C103_zero_violated :
    assign pInt ⟨.ptr {} (.flt {} 4), true⟩ = .ok ∧ ¬ Assignable pInt ⟨.ptr {} (.flt {} 4), true⟩ := by
  refine ⟨by decide, fun h => ?_⟩
  cases h with
  | arith h _ => rw [isArithmetic_iff] at h; cases h
  | pointer h _ => rw [same_iff] at h; revert h; decide
  | null h => cases h with
    | int h => rw [isInteger_iff] at h; cases h

/-- `c ? p : (void *) 0` with `int *p` has type `void *` in place of `int *`. -/
theorem C103_null_violated :
    CondType ⟨pInt, false⟩ null (.ty pInt) ∧ condType ⟨pInt, false⟩ null = some (.ty pVoid) :=
  ⟨.nullRight .ptr, by decide⟩

/-- `c ? s : t` with `const struct S s` and `struct S t` is refused. -/
theorem C103_qualified_violated :
    CondType ⟨.record { const := true } 1, false⟩ ⟨.record {} 1, false⟩ (.ty (.record {} 1)) ∧
    condType ⟨.record { const := true } 1, false⟩ ⟨.record {} 1, false⟩ = none :=
  ⟨.record, by decide⟩

/-- `c ? p : q` with `void *p` and `int *restrict *q` is refused. -/
theorem C103_restricted_violated :
    CondType ⟨pVoid, false⟩ ⟨.ptr {} (.ptr { restrict := true } int), false⟩ (.ty pVoid) ∧
    condType ⟨pVoid, false⟩ ⟨.ptr {} (.ptr { restrict := true } int), false⟩ = none :=
  ⟨.voidLeft nofun nofun, by decide⟩

/-- `c ? f : p` with a pointer to a function and a `void *p` is accepted. -/
theorem C103_function_violated :
    (condType ⟨.ptr {} (.fn 1), false⟩ ⟨pVoid, false⟩).isSome ∧
    ∀ t, ¬ CondType ⟨.ptr {} (.fn 1), false⟩ ⟨pVoid, false⟩ t := by
  refine ⟨by decide, fun t h => ?_⟩
  cases h with
  | arith h _ => rw [isArithmetic_iff] at h; cases h
  | pointer h => rw [same_iff] at h; revert h; decide
  | nullRight h => cases h
  | nullLeft h => cases h
  | voidRight _ h => exact absurd rfl (h 1)

end Verif.Assign
