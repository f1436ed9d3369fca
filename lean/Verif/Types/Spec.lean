import Verif.Types.Model

/-!
# C types, compatibility (C99 6.2.7) and arithmetic conversions (C99 6.3.1.8)

Independent of the representation in typetree.c; only the names of qualifiers are shared.  `char` stands for `char` and
`signed char`, `long` for `long` and `long long`, which the representation does not distinguish.
-/

namespace Verif.Types.Spec

/-- Arithmetic types. -/
inductive Basic
  | bool | char | uchar | short | ushort | int | uint | long | ulong | float | double | ldouble
  deriving DecidableEq, Repr

mutual
  /-- Types.  Structs, unions are identified by a number that stands for the declaration; array lengths are `none` if
  unspecified; `oldFunc` is a function type without prototype. -/
  inductive CTy
    | void (q : Quals)
    | basic (b : Basic) (q : Quals)
    | ptr (q : Quals) (t : CTy)
    | array (n : Option Nat) (t : CTy)
    | func (ret : CTy) (ps : Params) (vararg : Bool)
    | oldFunc (ret : CTy)
    | tagged (isUnion : Bool) (id : Int) (q : Quals)
  inductive Params
    | nil
    | cons (p : CTy) (ps : Params)
end

/-- Top level qualifiers removed. -/
def CTy.unq : CTy → CTy
  | .void _ => .void {}
  | .basic b _ => .basic b {}
  | .ptr _ t => .ptr {} t
  | .tagged u i _ => .tagged u i {}
  | t => t

/-- Is the type its own default argument promotion? -/
def CTy.promoted : CTy → Bool
  | .basic .bool _ | .basic .char _ | .basic .uchar _ | .basic .short _ | .basic .ushort _ | .basic .float _ => false
  | _ => true

def Params.allPromoted : Params → Bool
  | .nil => true
  | .cons p ps => p.promoted && ps.allPromoted

mutual
  /-- Compatible types, 6.2.7 with 6.7.3p9, 6.7.5.1p2, 6.7.5.2p6 and 6.7.5.3p15: two prototyped functions use the
  ellipsis alike; beside one without prototype the other has no ellipsis and parameters not changed by promotion. -/
  inductive Compatible : CTy → CTy → Prop
    | void {q : Quals} : Compatible (.void q) (.void q)
    | basic {b : Basic} {q : Quals} : Compatible (.basic b q) (.basic b q)
    | ptr {q : Quals} {t t' : CTy} : Compatible t t' → Compatible (.ptr q t) (.ptr q t')
    | array {n n' : Option Nat} {t t' : CTy} : (n = none ∨ n' = none ∨ n = n') → Compatible t t' →
        Compatible (.array n t) (.array n' t')
    | func {r r' : CTy} {ps ps' : Params} {v : Bool} : Compatible r r' → CompatibleParams ps ps' →
        Compatible (.func r ps v) (.func r' ps' v)
    | old {r r' : CTy} : Compatible r r' → Compatible (.oldFunc r) (.oldFunc r')
    | oldLeft {r r' : CTy} {ps : Params} : Compatible r r' → ps.allPromoted = true →
        Compatible (.oldFunc r) (.func r' ps false)
    | oldRight {r r' : CTy} {ps : Params} : Compatible r r' → ps.allPromoted = true →
        Compatible (.func r ps false) (.oldFunc r')
    | tagged {u : Bool} {i : Int} {q : Quals} : Compatible (.tagged u i q) (.tagged u i q)
  /-- The same number of parameters, compatible after removing qualifiers. -/
  inductive CompatibleParams : Params → Params → Prop
    | nil : CompatibleParams .nil .nil
    | cons {p p' : CTy} {ps ps' : Params} : Compatible p.unq p'.unq → CompatibleParams ps ps' →
        CompatibleParams (.cons p ps) (.cons p' ps')
end

/-- Signed version. -/
def Basic.signed : Basic → Basic
  | .uchar => .char
  | .ushort => .short
  | .uint => .int
  | .ulong => .long
  | b => b

mutual
  /-- The type with signedness and ellipses forgotten. -/
  def CTy.erase : CTy → CTy
    | .basic b q => .basic b.signed q
    | .ptr q t => .ptr q t.erase
    | .array n t => .array n t.erase
    | .func r ps _ => .func r.erase ps.erase false
    | .oldFunc r => .oldFunc r.erase
    | t => t
  def Params.erase : Params → Params
    | .nil => .nil
    | .cons p ps => .cons p.erase ps.erase
end

mutual
  /-- All function types have prototypes. -/
  def CTy.prototyped : CTy → Bool
    | .ptr _ t => t.prototyped
    | .array _ t => t.prototyped
    | .func r ps _ => r.prototyped && ps.prototyped
    | .oldFunc _ => false
    | _ => true
  def Params.prototyped : Params → Bool
    | .nil => true
    | .cons p ps => p.prototyped && ps.prototyped
end

/-- No arrays of unspecified length and no functions: compatible types are then equal. -/
def CTy.rigid : CTy → Bool
  | .ptr _ t => t.rigid
  | .array n t => n.isSome && t.rigid
  | .func _ _ _ => false
  | .oldFunc _ => false
  | _ => true

mutual
  /-- All function types return rigid types. -/
  def CTy.rigidReturns : CTy → Bool
    | .ptr _ t => t.rigidReturns
    | .array _ t => t.rigidReturns
    | .func r ps _ => r.rigid && ps.rigidReturns
    | .oldFunc r => r.rigid
    | _ => true
  def Params.rigidReturns : Params → Bool
    | .nil => true
    | .cons p ps => p.rigidReturns && ps.rigidReturns
end

mutual
  /-- Declarations of structs and unions the type mentions. -/
  def CTy.tags : CTy → List Int
    | .ptr _ t => t.tags
    | .array _ t => t.tags
    | .func r ps _ => r.tags ++ ps.tags
    | .oldFunc r => r.tags
    | .tagged _ i _ => [i]
    | _ => []
  def Params.tags : Params → List Int
    | .nil => []
    | .cons p ps => p.tags ++ ps.tags
end

/-! ## Arithmetic conversions -/

/-- Range of an integer type on LP64; `none` for floating types. -/
def Basic.range : Basic → Option (Int × Int)
  | .bool => some (0, 1)
  | .char => some (-2 ^ 7, 2 ^ 7 - 1)
  | .uchar => some (0, 2 ^ 8 - 1)
  | .short => some (-2 ^ 15, 2 ^ 15 - 1)
  | .ushort => some (0, 2 ^ 16 - 1)
  | .int => some (-2 ^ 31, 2 ^ 31 - 1)
  | .uint => some (0, 2 ^ 32 - 1)
  | .long => some (-2 ^ 63, 2 ^ 63 - 1)
  | .ulong => some (0, 2 ^ 64 - 1)
  | _ => none

/-- Integer conversion rank, 6.3.1.1. -/
def Basic.rank : Basic → Nat
  | .bool => 0
  | .char | .uchar => 1
  | .short | .ushort => 2
  | .int | .uint => 3
  | .long | .ulong => 4
  | _ => 5

def Basic.isSigned (b : Basic) : Bool :=
  match b.range with
  | some (lo, _) => decide (lo < 0)
  | none => true

/-- Can `a` represent all values of `b`? -/
def Basic.covers (a b : Basic) : Bool :=
  match a.range, b.range with
  | some (lo, hi), some (lo', hi') => decide (lo ≤ lo' ∧ hi' ≤ hi)
  | _, _ => false

def Basic.isFloating (b : Basic) : Bool := b.range.isNone

/-- Integer promotions, 6.3.1.1p2. -/
def Basic.promote (b : Basic) : Basic :=
  if b.rank ≤ Basic.int.rank then
    if Basic.int.covers b then .int else .uint
  else b

/-- The unsigned type corresponding to a signed type. -/
def Basic.unsigned : Basic → Basic
  | .char => .uchar
  | .short => .ushort
  | .int => .uint
  | .long => .ulong
  | b => b

/-- The usual arithmetic conversions, 6.3.1.8p1, rule by rule. -/
def Basic.common (a b : Basic) : Basic :=
  if a = .ldouble ∨ b = .ldouble then .ldouble
  else if a = .double ∨ b = .double then .double
  else if a = .float ∨ b = .float then .float
  else
    let a := a.promote
    let b := b.promote
    if a = b then a
    else if a.isSigned = b.isSigned then (if a.rank < b.rank then b else a)
    else
      let u := if a.isSigned then b else a
      let s := if a.isSigned then a else b
      if s.rank ≤ u.rank then u
      else if s.covers u then s
      else s.unsigned

/-- Default argument promotions, 6.5.2.2p6. -/
def Basic.argPromote (b : Basic) : Basic := if b = .float then .double else if b.isFloating then b else b.promote

end Verif.Types.Spec
