import Verif.Assign.OperatorsSpec
import Verif.Props.C103

/-!
# C104: operands of addition, subtraction and comparisons are those C allows

In full: `a + b`, `a - b`, `a < b` (and `>`, `<=`, `>=`) and `a == b` (and `!=`) compile without a diagnostic if and only if C allows the types of
the operands, and have the type C says.

Proved in full for addition (`C104_add`, `C104_add_refused`) and for what C allows of subtraction and of relations
(`C104_sub`, `C104_relation`).  What C does not allow of these is refused, but for differences of
pointers to different types, signedness and pointers to functions (`C104_sub_refused_partial`, `C104_relation_refused_partial`).  Equality
is as C says, but for pointers to incomplete types and to functions with pointers to `void`, and signedness
(`C104_equal_partial`, `C104_equal_diagnosed_partial`).  The `_violated` theorems show that the exceptions are needed.
-/

namespace Verif.Assign

/-- Numbers have a size, and structures have one if they are complete. -/
def Sized (sz : Nat → Nat) (known : Nat → Prop) : Ty → Prop
  | .int _ _ s | .flt _ s => s ≠ 0
  | .record _ i => sz i ≠ 0 ↔ known i
  | _ => True

def Target (p : Ty → Prop) (t : Ty) : Prop :=
  match t with
  | .ptr _ u => p u
  | _ => True

def Typed.unq : Typed → Typed
  | .bad => .bad
  | .warn c => .warn c.unq
  | .good c => .good c.unq

theorem sizeOf_iff {sz : Nat → Nat} {known : Nat → Prop} {t : Ty} (h : Sized sz known t) :
    sizeOf sz t ≠ 0 ↔ Complete known t := by
  cases t <;> simp_all [sizeOf, Complete, Sized]

theorem isPointer_iff {t : Ty} : t.isPointer = true ↔ ∃ q u, t = .ptr q u := by
  cases t <;> simp [Ty.isPointer]

theorem integer_arith {t : Ty} (h : t.isInteger = true) : t.isArithmetic = true := by
  cases t <;> simp_all [Ty.isInteger, Ty.isArithmetic]

theorem arith_not_pointer {t : Ty} (h : t.isArithmetic = true) : t.isPointer = false := by
  cases t <;> simp_all [Ty.isPointer, Ty.isArithmetic]

/-! ## Addition and subtraction -/

/-- Sums that C allows have the type C says. -/
theorem C104_add (sz : Nat → Nat) (known : Nat → Prop) (a b : Ty) (c : Cond)
    (ha : Target (Sized sz known) a) (hb : Target (Sized sz known) b) (h : AddType known a b c) :
    (addTypes sz a b).unq = .good c.unq := by
  cases h with
  | arith h1 h2 =>
    rw [isArithmetic_iff] at h1 h2
    simp [addTypes, arith_not_pointer h2, h1, h2, Typed.unq]
  | left hc hi =>
    rw [isInteger_iff] at hi
    have := (sizeOf_iff ha).2 hc
    have hn : ∀ q t, Ty.isInteger (.ptr q t) = false := fun _ _ => rfl
    simp [addTypes, hn, Ty.isArithmetic, Ty.isPointer, hi, pointerInteger, this, Typed.unq, Cond.unq,
      Ty.unqualified, Ty.setQuals]
  | right hc hi =>
    rw [isInteger_iff] at hi
    have := (sizeOf_iff hb).2 hc
    simp [addTypes, Ty.isArithmetic, Ty.isPointer, hi, pointerInteger, this, Typed.unq, Cond.unq,
      Ty.unqualified, Ty.setQuals]

/-- Others are refused. -/
theorem C104_add_refused (sz : Nat → Nat) (known : Nat → Prop) (a b : Ty)
    (ha : Target (Sized sz known) a) (hb : Target (Sized sz known) b) (h : ∀ c, ¬ AddType known a b c) :
    addTypes sz a b = .bad := by
  have hn : ¬ (a.isArithmetic = true ∧ b.isArithmetic = true) := fun e =>
    h _ (.arith (isArithmetic_iff.2 e.1) (isArithmetic_iff.2 e.2))
  unfold addTypes
  by_cases hs : (a.isInteger && b.isPointer) = true
  · simp only [hs, if_true]
    simp only [Bool.and_eq_true] at hs
    obtain ⟨q, t, rfl⟩ := isPointer_iff.1 hs.2
    by_cases hz : sizeOf sz t = 0
    · simp [Ty.isArithmetic, pointerInteger, hz]
    · exact absurd (.right ((sizeOf_iff hb).1 hz) (isInteger_iff.2 hs.1)) (h _)
  · simp only [hs, Bool.false_eq_true, if_false]
    rw [if_neg (by simpa using hn)]
    by_cases hp : (a.isPointer && b.isInteger) = true
    · rw [if_pos hp]
      simp only [Bool.and_eq_true] at hp
      obtain ⟨q, t, rfl⟩ := isPointer_iff.1 hp.1
      by_cases hz : sizeOf sz t = 0
      · simp [pointerInteger, hz]
      · exact absurd (.left ((sizeOf_iff ha).1 hz) (isInteger_iff.2 hp.2)) (h _)
    · rw [if_neg hp]

theorem sizeOf_same {sz : Nat → Nat} {t u : Ty} (h : Same t u) : sizeOf sz t = sizeOf sz u := by
  obtain ⟨q, p, h⟩ := h
  cases t <;> cases u <;> simp_all [Ty.withOwn, sizeOf]

/-- Differences that C allows have the type C says. -/
theorem C104_sub (sz : Nat → Nat) (known : Nat → Prop) (a b : Ty) (c : Cond)
    (ha : Target (Sized sz known) a) (hb : Target (Sized sz known) b) (h : SubType known a b c) :
    (subTypes sz a b).unq = .good c.unq := by
  cases h with
  | arith h1 h2 =>
    rw [isArithmetic_iff] at h1 h2
    simp [subTypes, h1, h2, Typed.unq]
  | integer hc hi =>
    rw [isInteger_iff] at hi
    have := (sizeOf_iff ha).2 hc
    simp [subTypes, Ty.isArithmetic, Ty.isPointer, hi, pointerInteger, this, Typed.unq, Cond.unq,
      Ty.unqualified, Ty.setQuals]
  | @pointer q p t u hc hd hs =>
    have h0 := (sizeOf_iff hb).2 hd
    have he := sizeOf_same (sz := sz) hs
    simp only [subTypes, Ty.isArithmetic, Ty.isPointer, Ty.isInteger, Bool.and_false, Bool.false_eq_true, if_false]
    by_cases h1 : sizeOf sz u > 1
    · rw [if_pos h1]; rfl
    · rw [if_neg h1, if_neg (by simp [h0, he])]; rfl

/-- Others are refused, unless they are of pointers to different types. -/
theorem C104_sub_refused_partial (sz : Nat → Nat) (known : Nat → Prop) (a b : Ty)
    (ha : Target (Sized sz known) a) (hb : Target (Sized sz known) b)
    (hp : ∀ q p t u, a = .ptr q t → b = .ptr p u → Same t u)
    (h : ∀ c, ¬ SubType known a b c) : subTypes sz a b = .bad := by
  have hn : ¬ (a.isArithmetic = true ∧ b.isArithmetic = true) := fun e =>
    h _ (.arith (isArithmetic_iff.2 e.1) (isArithmetic_iff.2 e.2))
  unfold subTypes
  rw [if_neg (by simpa using hn)]
  by_cases hi : (a.isPointer && b.isInteger) = true
  · rw [if_pos hi]
    simp only [Bool.and_eq_true] at hi
    obtain ⟨q, t, rfl⟩ := isPointer_iff.1 hi.1
    by_cases hz : sizeOf sz t = 0
    · simp [pointerInteger, hz]
    · exact absurd (.integer ((sizeOf_iff ha).1 hz) (isInteger_iff.2 hi.2)) (h _)
  · rw [if_neg hi]
    split
    · rename_i q t p u
      have hs := hp _ _ _ _ rfl rfl
      by_cases hz : sizeOf sz u = 0
      · simp [hz]
      · have hy : sizeOf sz t ≠ 0 := by rw [sizeOf_same hs]; exact hz
        exact absurd (.pointer ((sizeOf_iff ha).1 hy) ((sizeOf_iff hb).1 hz) hs) (h _)
    · rfl

/-! ## Relations -/

theorem Same.symm {t u : Ty} (h : Same t u) : Same u t := by
  obtain ⟨q, p, h⟩ := h; exact ⟨p, q, h.symm⟩

theorem same_object {t u : Ty} (h : Same t u) (ho : IsObject t) : IsObject u := by
  obtain ⟨q, p, h⟩ := h
  intro i e
  subst e
  cases t <;> simp [Ty.withOwn] at h
  exact ho _ rfl

theorem Ordered.symm {a b : Ty} (h : Ordered a b) : Ordered b a := by
  cases h with
  | arith h1 h2 => exact .arith h2 h1
  | pointer hs ho => exact .pointer hs.symm (same_object hs ho)

theorem commonCompare_of {a b : Ty} (h : Ordered a b) : commonCompare a b = .good (.ty intTy) := by
  cases h with
  | arith h1 h2 => simp [commonCompare, isArithmetic_iff.1 h1, isArithmetic_iff.1 h2]
  | pointer hs ho => simp [commonCompare, Ty.isArithmetic, compatUnq_of_same hs]

/-- Relations that C allows are of type `int`. -/
theorem C104_relation (op : Rel) (a b : Ty) (h : Ordered a b) :
    relationTypes op a b = .good (.ty (.int {} false 4)) := by
  cases op
  · exact commonCompare_of h.symm
  · exact commonCompare_of h
  · exact commonCompare_of h.symm
  · exact commonCompare_of h

/-- The exceptions: pointers to integers that differ in signedness only, and pointers to functions. -/
def PlainTargets (a b : Ty) : Prop :=
  ∀ q p t u, a = .ptr q t → b = .ptr p u → Signs t u ∧ IsObject t ∧ IsObject u

theorem Signs.symm : ∀ {t u : Ty}, Signs t u → Signs u t := by
  intro t
  induction t with
  | ptr q t ih => intro u h; cases u <;> simp_all [Signs]
  | _ => intro u h; cases u <;> simp_all [Signs]

theorem commonCompare_bad {a b : Ty} (hp : PlainTargets a b) (h : ¬ Ordered a b) : commonCompare a b = .bad := by
  have hn : ¬ (a.isArithmetic = true ∧ b.isArithmetic = true) := fun e =>
    h (.arith (isArithmetic_iff.2 e.1) (isArithmetic_iff.2 e.2))
  unfold commonCompare
  rw [if_neg (by simpa using hn)]
  split
  · rename_i q t p u
    obtain ⟨hs, ho, _⟩ := hp _ _ _ _ rfl rfl
    by_cases hc : compatUnq t u = true
    · exact absurd (.pointer ((same_iff _ _).2 (eq_of_isCompatible hc (signs_unq hs))) ho) h
    · rw [if_neg hc]
  · rfl

/-- Others are refused. -/
theorem C104_relation_refused_partial (op : Rel) (a b : Ty) (hp : PlainTargets a b) (h : ¬ Ordered a b) :
    relationTypes op a b = .bad := by
  have hp' : PlainTargets b a := fun q p t u e1 e2 =>
    have ⟨h1, h2, h3⟩ := hp _ _ _ _ e2 e1
    ⟨h1.symm, h3, h2⟩
  have h' : ¬ Ordered b a := fun e => h e.symm
  cases op
  · exact commonCompare_bad hp' h'
  · exact commonCompare_bad hp h
  · exact commonCompare_bad hp' h'
  · exact commonCompare_bad hp h

/-! ## Equality -/

theorem Comparable.symm {a b : Val} (h : Comparable a b) : Comparable b a := by
  cases h with
  | arith h1 h2 => exact .arith h2 h1
  | pointer hs => exact .pointer hs.symm
  | voidLeft ho => exact .voidRight ho
  | voidRight ho => exact .voidLeft ho
  | nullLeft hn => exact .nullRight hn
  | nullRight hn => exact .nullLeft hn

/-- The exceptions: a pointer to `void` with a pointer to an incomplete type other than `void`, or to a function. -/
def PlainVoid (known : Nat → Prop) (a b : Ty) : Prop :=
  ∀ q p t u k, a = .ptr q t → b = .ptr p u →
    (t = .void k → (∃ j, u = .void j) ∨ Complete known u) ∧ (u = .void k → (∃ j, t = .void j) ∨ Complete known t)

theorem compat_void {t u : Ty} (h1 : t.isVoid = true) (h2 : u.isVoid = true) : compatUnq t u = true := by
  cases t <;> simp [Ty.isVoid] at h1
  cases u <;> simp [Ty.isVoid] at h2
  rfl

theorem equal_pointers {sz : Nat → Nat} {known : Nat → Prop} {q p : Quals} {t u : Ty} {y z : Bool}
    (ht : Sized sz known t) (hu : Sized sz known u) (hp : PlainVoid known (.ptr q t) (.ptr p u))
    (h : Comparable ⟨.ptr q t, y⟩ ⟨.ptr p u, z⟩) :
    compatUnq t u = true ∨ (t.isVoid = true ∧ sizeOf sz u ≠ 0) ∨ (u.isVoid = true ∧ sizeOf sz t ≠ 0) := by
  have left : ∀ k, t = .void k →
      compatUnq t u = true ∨ (t.isVoid = true ∧ sizeOf sz u ≠ 0) ∨ (u.isVoid = true ∧ sizeOf sz t ≠ 0) := by
    intro k e
    have hv : t.isVoid = true := by rw [e]; rfl
    rcases (hp _ _ _ _ k rfl rfl).1 e with h | h
    · exact .inl (compat_void hv (isVoid_iff.2 h))
    · exact .inr (.inl ⟨hv, (sizeOf_iff hu).2 h⟩)
  have right : ∀ k, u = .void k →
      compatUnq t u = true ∨ (t.isVoid = true ∧ sizeOf sz u ≠ 0) ∨ (u.isVoid = true ∧ sizeOf sz t ≠ 0) := by
    intro k e
    have hv : u.isVoid = true := by rw [e]; rfl
    rcases (hp _ _ _ _ k rfl rfl).2 e with h | h
    · exact .inl (compat_void (isVoid_iff.2 h) hv)
    · exact .inr (.inr ⟨hv, (sizeOf_iff ht).2 h⟩)
  cases h with
  | arith h1 _ => rw [isArithmetic_iff] at h1; cases h1
  | pointer hs => exact .inl (compatUnq_of_same hs)
  | voidLeft _ => exact left _ rfl
  | voidRight _ => exact right _ rfl
  | nullLeft hn =>
    cases hn with
    | int h => rw [isInteger_iff] at h; cases h
    | ptr => exact left _ rfl
  | nullRight hn =>
    cases hn with
    | int h => rw [isInteger_iff] at h; cases h
    | ptr => exact right _ rfl

theorem equalOrdered_pointers {sz : Nat → Nat} {q p : Quals} {t u : Ty} {y z : Bool}
    (h : compatUnq t u = true ∨ (t.isVoid = true ∧ sizeOf sz u ≠ 0) ∨ (u.isVoid = true ∧ sizeOf sz t ≠ 0)) :
    equalOrdered sz ⟨.ptr q t, y⟩ ⟨.ptr p u, z⟩ = .good (.ty intTy) := by
  simp only [equalOrdered, Ty.isArithmetic, Bool.false_and, Bool.false_eq_true, if_false]
  rw [if_neg]
  rcases h with h | ⟨h1, h2⟩ | ⟨h1, h2⟩ <;> simp_all

/-- Comparisons that C allows are of type `int` and are compiled without a diagnostic. -/
theorem C104_equal_partial (sz : Nat → Nat) (known : Nat → Prop) (a b : Val)
    (ha : Target (Sized sz known) a.ty) (hb : Target (Sized sz known) b.ty) (hp : PlainVoid known a.ty b.ty)
    (h : Comparable a b) : equalTypes sz a b = .good (.ty (.int {} false 4)) := by
  obtain ⟨ta, y⟩ := a
  obtain ⟨tb, z⟩ := b
  by_cases hpa : ta.isPointer = true
  · obtain ⟨q, t, rfl⟩ := isPointer_iff.1 hpa
    by_cases hpb : tb.isPointer = true
    · obtain ⟨p, u, rfl⟩ := isPointer_iff.1 hpb
      have hp' : PlainVoid known (.ptr p u) (.ptr q t) := fun a b c d k e1 e2 =>
        have ⟨h1, h2⟩ := hp _ _ _ _ k e2 e1
        ⟨h2, h1⟩
      unfold equalTypes
      by_cases hx : exchanged (.ptr q t) (.ptr p u) = true
      · rw [if_pos hx]; exact equalOrdered_pointers (equal_pointers hb ha hp' h.symm)
      · rw [if_neg hx]; exact equalOrdered_pointers (equal_pointers ha hb hp h)
    · have hn : isNullptr ⟨tb, z⟩ = true := by
        cases h with
        | arith h1 _ => rw [isArithmetic_iff] at h1; cases h1
        | pointer _ => exact absurd rfl hpb
        | voidLeft _ => exact absurd rfl hpb
        | voidRight _ => exact absurd rfl hpb
        | nullLeft _ => exact absurd rfl hpb
        | nullRight hn => exact isNullptr_of hn
      cases tb <;> simp [Ty.isPointer] at hpb <;>
        simp [equalTypes, exchanged, equalOrdered, Ty.isArithmetic, hn, intTy]
  · by_cases hpb : tb.isPointer = true
    · obtain ⟨p, u, rfl⟩ := isPointer_iff.1 hpb
      have hn : isNullptr ⟨ta, y⟩ = true := by
        cases h with
        | arith _ h1 => rw [isArithmetic_iff] at h1; cases h1
        | pointer _ => exact absurd rfl hpa
        | voidLeft _ => exact absurd rfl hpa
        | voidRight _ => exact absurd rfl hpa
        | nullLeft hn => exact isNullptr_of hn
        | nullRight _ => exact absurd rfl hpa
      cases ta <;> simp [Ty.isPointer] at hpa <;>
        simp [equalTypes, exchanged, equalOrdered, Ty.isArithmetic, hn, intTy]
    · cases h with
      | arith h1 h2 =>
        rw [isArithmetic_iff] at h1 h2
        cases tb <;> simp [Ty.isPointer] at hpb <;>
          simp_all [equalTypes, exchanged, equalOrdered, intTy, Ty.isArithmetic]
      | pointer _ => exact absurd rfl hpa
      | voidLeft _ => exact absurd rfl hpa
      | voidRight _ => exact absurd rfl hpa
      | nullLeft _ => exact absurd rfl hpb
      | nullRight _ => exact absurd rfl hpa

/-- Pointers to integers do not differ in signedness only. -/
def PlainSigns (a b : Ty) : Prop := ∀ q p t u, a = .ptr q t → b = .ptr p u → Signs t u

theorem equalOrdered_good {sz : Nat → Nat} {a b : Val} {c : Cond} (hs : PlainSigns a.ty b.ty)
    (h : equalOrdered sz a b = .good c) : Comparable a b := by
  obtain ⟨ta, y⟩ := a
  obtain ⟨tb, z⟩ := b
  unfold equalOrdered at h
  by_cases har : (ta.isArithmetic && tb.isArithmetic) = true
  · simp only [Bool.and_eq_true] at har
    exact .arith (isArithmetic_iff.2 har.1) (isArithmetic_iff.2 har.2)
  · rw [if_neg har] at h
    cases ta with
    | ptr q t =>
      by_cases hpb : tb.isPointer = true
      · obtain ⟨p, u, rfl⟩ := isPointer_iff.1 hpb
        simp only at h
        by_cases hc : compatUnq t u = true
        · exact .pointer ((same_iff _ _).2 (eq_of_isCompatible hc (signs_unq (hs _ _ _ _ rfl rfl))))
        · by_cases h1 : t.isVoid = true ∧ sizeOf sz u ≠ 0
          · obtain ⟨k, rfl⟩ := isVoid_iff.1 h1.1
            exact .voidLeft fun i e => by subst e; exact h1.2 rfl
          · by_cases h2 : u.isVoid = true ∧ sizeOf sz t ≠ 0
            · obtain ⟨k, rfl⟩ := isVoid_iff.1 h2.1
              exact .voidRight fun i e => by subst e; exact h2.2 rfl
            · rw [if_pos] at h
              · cases h
              · simp only [Bool.and_eq_true, Bool.not_eq_true', Bool.and_eq_false_iff, decide_eq_false_iff_not]
                refine ⟨⟨by simpa using hc, ?_⟩, ?_⟩
                · by_cases hv : t.isVoid = true
                  · exact .inr fun e => h1 ⟨hv, e⟩
                  · exact .inl (by simpa using hv)
                · by_cases hv : u.isVoid = true
                  · exact .inr fun e => h2 ⟨hv, e⟩
                  · exact .inl (by simpa using hv)
      · have hn : isNullptr ⟨tb, z⟩ = true := by
          by_cases hn : isNullptr ⟨tb, z⟩ = true
          · exact hn
          · cases tb <;> simp [Ty.isPointer] at hpb <;> simp [hn] at h
        have : NullConstant ⟨tb, z⟩ := by
          cases tb <;> simp [Ty.isPointer] at hpb <;> simp [isNullptr, Ty.isInteger] at hn <;>
            (subst hn; exact .int (isInteger_iff.2 rfl))
        exact .nullRight this
    | _ => cases h

/-- What C does not allow is diagnosed. -/
theorem C104_equal_diagnosed_partial (sz : Nat → Nat) (a b : Val) (c : Cond) (hs : PlainSigns a.ty b.ty)
    (h : equalTypes sz a b = .good c) : Comparable a b := by
  unfold equalTypes at h
  split at h
  · exact (equalOrdered_good (fun q p t u e1 e2 => (hs _ _ _ _ e2 e1).symm) h).symm
  · exact equalOrdered_good hs h

/-! ## Examples and witnesses -/

/-- Structure 1 has 12 bytes, others are incomplete. -/
def sz1 : Nat → Nat := fun i => if i = 1 then 12 else 0
def known1 : Nat → Prop := (· = 1)

def pS : Ty := .ptr {} (.record {} 1)
def pOpaque : Ty := .ptr {} (.record {} 2)
def pChar : Ty := .ptr {} (.int {} false 1)
def pUint : Ty := .ptr {} uint
def pFn : Ty := .ptr {} (.fn 1)

example : Target (Sized sz1 known1) pS ∧ Target (Sized sz1 known1) pOpaque ∧ Target (Sized sz1 known1) int :=
  ⟨by simp [Target, pS, Sized, sz1, known1], by simp [Target, pOpaque, Sized, sz1, known1], trivial⟩
example : AddType known1 int pS (.ty pS) := .right rfl .int
example : addTypes sz1 int pS = .good (.ty pS) := by decide
example : ∀ c, ¬ AddType known1 pOpaque int c := by
  intro c h
  cases h with
  | arith h _ => rw [isArithmetic_iff] at h; cases h
  | left h _ => exact absurd h (by simp [Complete, known1])
example : addTypes sz1 pOpaque int = .bad ∧ addTypes sz1 pS pS = .bad := by decide
example : SubType known1 pS pS (.ty (.int {} false 8)) := .pointer rfl rfl ⟨{}, {}, rfl⟩
example : subTypes sz1 pS pS = .good (.ty longTy) ∧ subTypes sz1 pOpaque pOpaque = .bad ∧
    subTypes sz1 int pS = .bad := by decide
/-- `p - q` for pointers to an incomplete type meets the hypotheses of `C104_sub_refused_partial`. -/
example : (∀ c, ¬ SubType known1 pOpaque pOpaque c) ∧
    ∀ q p t u, pOpaque = .ptr q t → pOpaque = .ptr p u → Same t u := by
  refine ⟨fun c h => ?_, ?_⟩
  · cases h with
    | arith h _ => rw [isArithmetic_iff] at h; cases h
    | integer _ h => rw [isInteger_iff] at h; cases h
    | pointer h _ _ => exact absurd h (by simp [Complete, known1])
  · intro q p t u h1 h2
    cases h1; cases h2
    exact ⟨{}, {}, rfl⟩
example : Ordered (.ptr {} constInt) pInt := .pointer ⟨{}, {}, rfl⟩ nofun
example : PlainTargets pInt pS ∧ relationTypes .lt pInt pS = .bad := by
  refine ⟨?_, by decide⟩
  intro q p t u h1 h2
  cases h1; cases h2
  exact ⟨trivial, nofun, nofun⟩
example : Comparable ⟨pS, false⟩ null := .nullRight .ptr
example : PlainVoid known1 pS pVoid ∧ equalTypes sz1 ⟨pS, false⟩ null = .good (.ty int) := by
  refine ⟨?_, by decide⟩
  intro q p t u k h1 h2
  cases h1; cases h2
  exact ⟨nofun, fun _ => .inr rfl⟩
example : equalTypes sz1 ⟨int, true⟩ ⟨pS, false⟩ = .good (.ty int) ∧
    equalTypes sz1 ⟨int, false⟩ ⟨pS, false⟩ = .warn (.ty int) := by decide
example : PlainSigns pS pVoid := by
  intro q p t u h1 h2
  cases h1; cases h2; trivial

/-- `q - p` with `char *q` and `int *p` is compiled, and `p - q` is refused. -/
theorem C104_difference_violated :
    subTypes sz1 pChar pInt = .good (.ty longTy) ∧ (∀ c, ¬ SubType known1 pChar pInt c) ∧
    subTypes sz1 pInt pChar = .bad := by
  refine ⟨by decide, fun c h => ?_, by decide⟩
  cases h with
  | arith h _ => rw [isArithmetic_iff] at h; cases h
  | integer _ h => rw [isInteger_iff] at h; cases h
  | pointer _ _ h => rw [same_iff] at h; revert h; decide

/-- `f < g` with pointers to functions is compiled. -/
theorem C104_functions_violated :
    relationTypes .lt pFn pFn = .good (.ty int) ∧ ¬ Ordered pFn pFn := by
  refine ⟨by decide, fun h => ?_⟩
  cases h with
  | arith h _ => rw [isArithmetic_iff] at h; cases h
  | pointer _ h => exact h 1 rfl

/-- `p < u` and `p == u` with `int *p` and `unsigned *u` give no diagnostic. -/
theorem C104_signedness_violated :
    relationTypes .lt pInt pUint = .good (.ty int) ∧ ¬ Ordered pInt pUint ∧
    equalTypes sz1 ⟨pInt, false⟩ ⟨pUint, false⟩ = .good (.ty int) ∧ ¬ Comparable ⟨pInt, false⟩ ⟨pUint, false⟩ := by
  refine ⟨by decide, fun h => ?_, by decide, fun h => ?_⟩
  · cases h with
    | arith h _ => rw [isArithmetic_iff] at h; cases h
    | pointer h _ => rw [same_iff] at h; revert h; decide
  · cases h with
    | arith h _ => rw [isArithmetic_iff] at h; cases h
    | pointer h => rw [same_iff] at h; revert h; decide
    | nullLeft h => cases h
    | nullRight h => cases h

/-- `p == NULL` gives a warning for a pointer to an incomplete structure and for a pointer to a function. -/
theorem C104_incomplete_violated :
    Comparable ⟨pOpaque, false⟩ null ∧ equalTypes sz1 ⟨pOpaque, false⟩ null = .warn (.ty int) ∧
    Comparable ⟨pFn, false⟩ null ∧ equalTypes sz1 ⟨pFn, false⟩ null = .warn (.ty int) :=
  ⟨.nullRight .ptr, by decide, .nullRight .ptr, by decide⟩

end Verif.Assign
