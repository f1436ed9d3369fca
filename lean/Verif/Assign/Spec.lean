import Verif.Assign.Model

/-!
# Constraints of C for assignments and conditional expressions

C99 6.5.16.1 and 6.5.15.  Compatible types are the same type here, but for qualifiers where C says so.  A null pointer constant is an integer
constant that is zero, or such a constant cast to `void *`.
-/

namespace Verif.Assign

/-- The qualifiers of a type itself, and the type with others; functions have none. -/
def Ty.own : Ty → Quals
  | .void q | .bool q | .int q _ _ | .flt q _ | .record q _ | .ptr q _ => q
  | .fn _ => {}

def Ty.withOwn (q : Quals) : Ty → Ty
  | .void _ => .void q
  | .bool _ => .bool q
  | .int _ u s => .int q u s
  | .flt _ s => .flt q s
  | .record _ i => .record q i
  | .fn i => .fn i
  | .ptr _ t => .ptr q t

/-- Compatible, without their own qualifiers. -/
def Same (l r : Ty) : Prop := ∃ q p, l.withOwn q = r.withOwn p

inductive IsInteger : Ty → Prop
  | bool {q : Quals} : IsInteger (.bool q)
  | int {q : Quals} {u : Bool} {s : Nat} : IsInteger (.int q u s)

inductive IsArithmetic : Ty → Prop
  | integer {t : Ty} : IsInteger t → IsArithmetic t
  | flt {q : Quals} {s : Nat} : IsArithmetic (.flt q s)

/-- An object type, or an incomplete one such as `void`. -/
def IsObject (t : Ty) : Prop := ∀ i, t ≠ .fn i

/-- `a` has all the qualifiers of `b`. -/
def Quals.Has (a b : Quals) : Prop :=
  (b.const = true → a.const = true) ∧ (b.volatile = true → a.volatile = true) ∧
  (b.restrict = true → a.restrict = true)

def Quals.both (a b : Quals) : Quals :=
  ⟨a.const || b.const, a.volatile || b.volatile, a.restrict || b.restrict⟩

inductive NullConstant : Val → Prop
  | int {t : Ty} : IsInteger t → NullConstant ⟨t, true⟩
  | ptr {q : Quals} : NullConstant ⟨.ptr q (.void {}), true⟩

inductive Assignable : Ty → Val → Prop
  | arith {t : Ty} {v : Val} : IsArithmetic t → IsArithmetic v.ty → Assignable t v
  | record {q p : Quals} {i : Nat} {z : Bool} : Assignable (.record q i) ⟨.record p i, z⟩
  | pointer {q p : Quals} {l r : Ty} {z : Bool} : Same l r → l.own.Has r.own →
      Assignable (.ptr q l) ⟨.ptr p r, z⟩
  | fromVoid {q p k : Quals} {l : Ty} {z : Bool} : IsObject l → l.own.Has k →
      Assignable (.ptr q l) ⟨.ptr p (.void k), z⟩
  | toVoid {q p k : Quals} {r : Ty} {z : Bool} : IsObject r → k.Has r.own →
      Assignable (.ptr q (.void k)) ⟨.ptr p r, z⟩
  | null {q : Quals} {l : Ty} {v : Val} : NullConstant v → Assignable (.ptr q l) v
  | bool {q p : Quals} {t : Ty} {z : Bool} : Assignable (.bool q) ⟨.ptr p t, z⟩

/-- The types of conditional expressions, which are not qualified.  There is no `restrict void`. -/
inductive CondType : Val → Val → Cond → Prop
  | arith {a b : Val} : IsArithmetic a.ty → IsArithmetic b.ty → CondType a b .usual
  | record {q p : Quals} {i : Nat} {y z : Bool} : CondType ⟨.record q i, y⟩ ⟨.record p i, z⟩ (.ty (.record {} i))
  | void {q p : Quals} {y z : Bool} : CondType ⟨.void q, y⟩ ⟨.void p, z⟩ (.ty (.void {}))
  | pointer {q p : Quals} {l r : Ty} {y z : Bool} : Same l r →
      CondType ⟨.ptr q l, y⟩ ⟨.ptr p r, z⟩ (.ty (.ptr {} (l.withOwn (l.own.both r.own))))
  | nullRight {q : Quals} {l : Ty} {y : Bool} {b : Val} : NullConstant b →
      CondType ⟨.ptr q l, y⟩ b (.ty (.ptr {} l))
  | nullLeft {p : Quals} {r : Ty} {z : Bool} {a : Val} : NullConstant a →
      CondType a ⟨.ptr p r, z⟩ (.ty (.ptr {} r))
  | voidLeft {q p k : Quals} {r : Ty} {y z : Bool} : ¬ NullConstant ⟨.ptr q (.void k), y⟩ → IsObject r →
      CondType ⟨.ptr q (.void k), y⟩ ⟨.ptr p r, z⟩ (.ty (.ptr {} (.void { k.both r.own with restrict := false })))
  | voidRight {q p k : Quals} {l : Ty} {y z : Bool} : ¬ NullConstant ⟨.ptr p (.void k), z⟩ → IsObject l →
      CondType ⟨.ptr q l, y⟩ ⟨.ptr p (.void k), z⟩ (.ty (.ptr {} (.void { l.own.both k with restrict := false })))

end Verif.Assign
