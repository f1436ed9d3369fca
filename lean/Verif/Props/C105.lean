import Verif.Assign.ArithSpec
import Verif.Props.C104

/-!
# C105: operands of the other operators and of casts are those C allows

In full: an expression with `*`, `/`, `%`, `&`, `|`, `^`, `<<`, `>>`, a unary operator or a cast compiles if and only if C allows the types of the
operands, and then has the type C says.

Proved in full for binary operators (`C105_binary`, `C105_binary_refused`) and unary ones
(`C105_unary`, `C105_unary_refused`).  All casts that C allows compile (`C105_cast`); others are refused, but for
floating numbers to pointers and pointers to `long double` (`C105_cast_refused_partial`, `C105_cast_violated`).
-/

namespace Verif.Assign

theorem promote_of {a t : Ty} (h : Promoted a t) : (promote a).unqualified = t := by
  cases h with
  | bool => rfl
  | small h => simp [promote, sizeOf, h, intTy, Ty.unqualified, Ty.setQuals]
  | same h => simp [promote, sizeOf, Nat.not_lt.2 h, Ty.unqualified, Ty.setQuals]

theorem promoted_integer {a t : Ty} (h : Promoted a t) : a.isInteger = true := by
  cases h <;> rfl

theorem promoted_exists {a : Ty} (h : a.isInteger = true) : ∃ t, Promoted a t := by
  cases a <;> simp [Ty.isInteger] at h
  case bool => exact ⟨_, .bool⟩
  case int q u s =>
    by_cases hs : s < 4
    · exact ⟨_, .small hs⟩
    · exact ⟨_, .same (Nat.not_lt.1 hs)⟩

theorem integer_real {a : Ty} (h : a.isInteger = true) : isReal a = false := by
  cases a <;> simp_all [Ty.isInteger, isReal]

theorem arith_real {a : Ty} (h : a.isArithmetic = true) (hr : isReal a = false) : a.isInteger = true := by
  cases a <;> simp_all [Ty.isInteger, isReal, Ty.isArithmetic]

/-- Binary operators with operands C allows have the type C says. -/
theorem C105_binary (op : Bin) (a b : Ty) (c : Cond) (h : BinType op a b c) :
    (binTypes op a b).unq = .good c.unq := by
  cases h with
  | mul h1 h2 | div h1 h2 =>
    simp [binTypes, isArithmetic_iff.1 h1, isArithmetic_iff.1 h2, Typed.unq]
  | mod h1 h2 =>
    rw [isInteger_iff] at h1 h2
    simp [binTypes, integer_arith h1, integer_arith h2, usualInteger, integer_real h1, integer_real h2, Typed.unq]
  | and h1 h2 | or h1 h2 | xor h1 h2 =>
    simp [binTypes, isInteger_iff.1 h1, isInteger_iff.1 h2, Typed.unq]
  | shl h1 h2 | shr h1 h2 =>
    have := promote_of h1
    simp only [binTypes, promoted_integer h1, isInteger_iff.1 h2, Typed.unq, Cond.unq]
    subst this
    simp [Typed.unq, Cond.unq, Ty.unqualified, setQuals_setQuals]

/-- Others are refused. -/
theorem C105_binary_refused (op : Bin) (a b : Ty) (h : ∀ c, ¬ BinType op a b c) : binTypes op a b = .bad := by
  have ints : (∀ (e : IsInteger a) (f : IsInteger b), False) → (!a.isInteger || !b.isInteger) = true := by
    intro hn
    by_contra hc
    simp at hc
    exact hn (isInteger_iff.2 hc.1) (isInteger_iff.2 hc.2)
  have ariths : (∀ (e : IsArithmetic a) (f : IsArithmetic b), False) →
      (!a.isArithmetic || !b.isArithmetic) = true := by
    intro hn
    by_contra hc
    simp at hc
    exact hn (isArithmetic_iff.2 hc.1) (isArithmetic_iff.2 hc.2)
  cases op with
  | mul => exact if_pos (ariths fun e f => h _ (.mul e f))
  | div => exact if_pos (ariths fun e f => h _ (.div e f))
  | mod =>
    simp only [binTypes]
    by_cases har : (a.isArithmetic && b.isArithmetic) = true
    · rw [if_pos har]
      by_cases hu : usualInteger a b = true
      · simp [usualInteger] at hu
        simp only [Bool.and_eq_true] at har
        exact absurd (.mod (isInteger_iff.2 (arith_real har.1 hu.1)) (isInteger_iff.2 (arith_real har.2 hu.2))) (h _)
      · rw [if_neg hu]
    · rw [if_neg har]
  | and => exact if_pos (ints fun e f => h _ (.and e f))
  | or => exact if_pos (ints fun e f => h _ (.or e f))
  | xor => exact if_pos (ints fun e f => h _ (.xor e f))
  | shl => exact if_pos (ints fun e f => have ⟨_, ht⟩ := promoted_exists (isInteger_iff.1 e); h _ (.shl ht f))
  | shr => exact if_pos (ints fun e f => have ⟨_, ht⟩ := promoted_exists (isInteger_iff.1 e); h _ (.shr ht f))

theorem usualWithInt_of {a t : Ty} (h : Promoted a t) : usualWithInt a = t := by
  cases h with
  | bool => rfl
  | small h =>
    simp [usualWithInt, isReal, promote, sizeOf, h, intTy, Ty.unqualified, Ty.setQuals]
  | same h =>
    simp [usualWithInt, isReal, promote, sizeOf, Nat.not_lt.2 h, Ty.unqualified, Ty.setQuals]

/-- Unary operators with an operand C allows have the type C says. -/
theorem C105_unary (sz : Nat → Nat) (op : Un) (v : Val) (t : Ty) (h : UnType op v.ty t) :
    (unTypes sz op v).unq = .good (.ty t) := by
  obtain ⟨a, z⟩ := v
  simp only at h
  cases h with
  | plus hp =>
    have hi := promoted_integer hp
    simp [unTypes, integer_arith hi, hi, Typed.unq, Cond.unq, promote_of hp]
  | plusFloat => rfl
  | minus hp =>
    have hi := promoted_integer hp
    have hu : t.unqualified = t := by cases hp <;> rfl
    cases a <;> simp [Ty.isInteger] at hi <;>
      simp [unTypes, negTypes, Ty.isArithmetic, Typed.unq, Cond.unq, usualWithInt_of hp, hu]
  | @minusFloat q s =>
    simp only [unTypes, negTypes, Ty.isArithmetic, Bool.not_true, Bool.false_eq_true, if_false]
    by_cases hs : (s = 4 || s = 8) = true
    · rw [if_pos (by simpa using hs)]; rfl
    · rw [if_neg (by simpa using hs)]; rfl
  | compl hp =>
    have hi := promoted_integer hp
    simp [unTypes, hi, Typed.unq, Cond.unq, promote_of hp]
  | not ha =>
    rw [isArithmetic_iff] at ha
    cases a <;> simp [Ty.isArithmetic] at ha <;> rfl
  | notPointer => rfl

/-- Others are refused. -/
theorem C105_unary_refused (sz : Nat → Nat) (op : Un) (v : Val) (h : ∀ t, ¬ UnType op v.ty t) :
    unTypes sz op v = .bad := by
  obtain ⟨a, z⟩ := v
  simp only at h
  cases op with
  | plus =>
    cases a with
    | bool q => exact absurd (.plus .bool) (h _)
    | int q u s => have ⟨_, ht⟩ := promoted_exists (a := .int q u s) rfl; exact absurd (.plus ht) (h _)
    | flt q s => exact absurd .plusFloat (h _)
    | _ => rfl
  | minus =>
    cases a with
    | bool q => exact absurd (.minus .bool) (h _)
    | int q u s => have ⟨_, ht⟩ := promoted_exists (a := .int q u s) rfl; exact absurd (.minus ht) (h _)
    | flt q s => exact absurd .minusFloat (h _)
    | _ => rfl
  | compl =>
    cases a with
    | bool q => exact absurd (.compl .bool) (h _)
    | int q u s => have ⟨_, ht⟩ := promoted_exists (a := .int q u s) rfl; exact absurd (.compl ht) (h _)
    | _ => rfl
  | not =>
    cases a with
    | bool q => exact absurd (.not (isArithmetic_iff.2 rfl)) (h _)
    | int q u s => exact absurd (.not (isArithmetic_iff.2 rfl)) (h _)
    | flt q s => exact absurd (.not (isArithmetic_iff.2 rfl)) (h _)
    | ptr q t => exact absurd .notPointer (h _)
    | _ => rfl

/-- Casts that C allows compile. -/
theorem C105_cast (target t : Ty) (h : Castable target t) : castTypes target t = .ok := by
  cases h with
  | void => rfl
  | arith h1 h2 =>
    rw [isArithmetic_iff] at h1 h2
    simp [castTypes, isScalar, h1, h2, arith_not_pointer h2]
  | pointers => rfl
  | toPointer h1 =>
    rw [isInteger_iff] at h1
    have h2 := integer_arith h1
    simp [castTypes, isScalar, h2, arith_not_pointer h2, Ty.isPointer]
  | fromPointer h1 =>
    rw [isInteger_iff] at h1
    cases target <;> simp [Ty.isInteger] at h1 <;> rfl

/-- The exceptions: a floating number to a pointer, and a pointer to a floating type that is not `float` or `double`. -/
def PlainCast (target t : Ty) : Prop :=
  (∀ q u p s, target = .ptr q u → t ≠ .flt p s) ∧ ∀ q u p s, t = .ptr q u → target = .flt p s → s = 4 ∨ s = 8

/-- Others are refused. -/
theorem C105_cast_refused_partial (target t : Ty) (hp : PlainCast target t) (h : ¬ Castable target t) :
    castTypes target t = .error := by
  obtain ⟨h1, h2⟩ := hp
  have ar : target.isArithmetic = true → t.isArithmetic = true → False := fun e f =>
    h (.arith (isArithmetic_iff.2 e) (isArithmetic_iff.2 f))
  cases target with
  | void q => exact absurd .void h
  | ptr q u =>
    cases t with
    | ptr p w => exact absurd .pointers h
    | bool p => exact absurd (.toPointer .bool) h
    | int p w s => exact absurd (.toPointer .int) h
    | flt p s => exact absurd rfl (h1 _ _ _ _ rfl)
    | _ => rfl
  | bool q =>
    cases t with
    | ptr p w => exact absurd (.fromPointer .bool) h
    | bool p => exact (ar rfl rfl).elim
    | int p w s => exact (ar rfl rfl).elim
    | flt p s => exact (ar rfl rfl).elim
    | _ => rfl
  | int q w s =>
    cases t with
    | ptr p w => exact absurd (.fromPointer .int) h
    | bool p => exact (ar rfl rfl).elim
    | int p w s => exact (ar rfl rfl).elim
    | flt p s => exact (ar rfl rfl).elim
    | _ => rfl
  | flt q s =>
    cases t with
    | ptr p w =>
      rcases h2 _ _ _ _ rfl rfl with e | e <;> (subst e; rfl)
    | bool p => exact (ar rfl rfl).elim
    | int p w s => exact (ar rfl rfl).elim
    | flt p s => exact (ar rfl rfl).elim
    | _ => rfl
  | record q i => cases t <;> rfl
  | fn i => cases t <;> rfl

/-! ## Examples and witnesses -/

def shortTy : Ty := .int {} true 2
def doubleTy : Ty := .flt {} 8

example : BinType .mul shortTy doubleTy .usual := .mul (.integer .int) .flt
example : BinType .shl shortTy (.int {} false 8) (.ty int) := .shl (.small (by decide)) .int
example : ∀ c, ¬ BinType .mod doubleTy int c := by
  intro c h
  cases h with
  | mod h _ => rw [isInteger_iff] at h; cases h
example : binTypes .mod doubleTy int = .bad ∧ binTypes .shl shortTy longTy = .good (.ty int) := by decide
example : UnType .minus shortTy int ∧ UnType .not pS int := ⟨.minus (.small (by decide)), .notPointer⟩
example : unTypes sz1 .minus ⟨shortTy, false⟩ = .good (.ty int) ∧ unTypes sz1 .not ⟨pFn, false⟩ = .good (.ty int) := by
  decide
example : ∀ t, ¬ UnType .compl doubleTy t := by
  intro t h
  cases h with
  | compl h => cases h
example : unTypes sz1 .not ⟨.record {} 1, false⟩ = .bad := by decide
example : Castable pS (.int {} false 8) := .toPointer .int
example : ¬ Castable doubleTy pS ∧ PlainCast doubleTy pS ∧ castTypes doubleTy pS = .error := by
  refine ⟨fun h => ?_, ⟨nofun, ?_⟩, by decide⟩
  · cases h with
    | arith _ h => rw [isArithmetic_iff] at h; cases h
    | fromPointer h => rw [isInteger_iff] at h; cases h
  · intro q u p s _ h
    cases h; exact .inr rfl

/-- `(int *) 1.0` and `(long double) p` compile. -/
theorem C105_cast_violated :
    castTypes pInt doubleTy = .ok ∧ ¬ Castable pInt doubleTy ∧
    castTypes (.flt {} 16) pInt = .ok ∧ ¬ Castable (.flt {} 16) pInt := by
  refine ⟨by decide, fun h => ?_, by decide, fun h => ?_⟩
  · cases h with
    | arith h _ => rw [isArithmetic_iff] at h; cases h
    | toPointer h => rw [isInteger_iff] at h; cases h
  · cases h with
    | arith _ h => rw [isArithmetic_iff] at h; cases h
    | fromPointer h => rw [isInteger_iff] at h; cases h

end Verif.Assign
