import Verif.Expr.Spec
import Verif.Props.C22

/-!
# What statements with two operands mean

The language between the parser and the back end, with numbers instead of bytes.
-/

namespace Verif.Expr

open Verif.Types (Ty)
open Verif.Types.Spec (Basic)
open Verif.Fold (tyOf isInt isOpTy Holds)
open Verif.Fold.Spec (conv fits)

/-- The numbers that variables have, and those that temporaries have been assigned, with their type. -/
structure Env where
  vars : Nat → Int
  tmps : Nat → Option (Basic × Int)

/-- There are `n` temporaries, and `N` variables. -/
def IVar.At (Γ : Nat → Basic) (N n : Nat) (σ : Env) (b : Basic) (x : Int) : IVar → Prop
  | .imm i => i.v = BitVec.ofInt 64 x
  | .obj i _ => i < N ∧ Γ i = b ∧ σ.vars i = x
  | .tmp k _ => k < n ∧ σ.tmps k = some (b, x)

structure VHolds (Γ : Nat → Basic) (N n : Nat) (σ : Env) (v : IVar) (b : Basic) (x : Int) : Prop where
  ty : v.ty = tyOf b {}
  fits : fits b x
  at_ : v.At Γ N n σ b x

/-- The type and the number of an expression. -/
inductive EHolds (Γ : Nat → Basic) (N n : Nat) (σ : Env) : IExp → Basic → Int → Prop
  | same {v b x} (h : VHolds Γ N n σ v b x) : EHolds Γ N n σ (.cast (tyOf b {}) v) b x
  | conv {v a b y} (h : VHolds Γ N n σ v a y) (hi : ∀ i, v ≠ .imm i) (hb : isInt b) (hb' : b ≠ .bool) (ha : a ≠ b) :
    EHolds Γ N n σ (.cast (tyOf b {}) v) b (conv b y)
  | not {v b y} (h : VHolds Γ N n σ v b y) (hb : isOpTy b) : EHolds Γ N n σ (.not (tyOf b {}) v) b (Fold.Spec.conv b (-1 - y))
  | arith {op o l r a b y z x} (ho : arithOp op = some o) (hb : isOpTy b) (hl : VHolds Γ N n σ l b y) (hr : VHolds Γ N n σ r a z)
    (ha : o = .shl ∨ o = .shr ∨ a = b) (hm : Arith.meaning (size b) b.isSigned y z o = some x) : EHolds Γ N n σ (.bin op (tyOf b {}) l r) b x
  | rel {op o l r a y z} (ho : compareOp op = some o) (ha : isOpTy a) (hl : VHolds Γ N n σ l a y) (hr : VHolds Γ N n σ r a z) :
    EHolds Γ N n σ (.bin op intTy l r) .int (if o.holds (some (compare y z)) then 1 else 0)

/-- What is assigned: the result of a comparison may be of type `_Bool` too. -/
def AHolds (Γ : Nat → Basic) (N n : Nat) (σ : Env) (e : IExp) (b : Basic) (x : Int) : Prop :=
  EHolds Γ N n σ e b x ∨
    b = .bool ∧ ∃ op o l r, e = .bin op (tyOf .bool {}) l r ∧ compareOp op = some o ∧ EHolds Γ N n σ (.bin op intTy l r) .int x

def Env.setVar (σ : Env) (i : Nat) (x : Int) : Env := { σ with vars := put σ.vars i x }

def Env.setTmp (σ : Env) (k : Nat) (b : Basic) (x : Int) : Env :=
  { σ with tmps := fun j => if j = k then some (b, x) else σ.tmps j }

/-- Statements are executed; there are `M` temporaries. -/
inductive Does (Γ : Nat → Basic) (N M : Nat) : Env → List Stmt → Env → Prop
  | nil {σ} : Does Γ N M σ [] σ
  | var {σ σ' i e x r} (hi : i < N) (h : AHolds Γ N M σ e (Γ i) x) (hr : Does Γ N M (σ.setVar i x) r σ') :
    Does Γ N M σ (⟨.obj i (tyOf (Γ i) {}), e⟩ :: r) σ'
  | tmp {σ σ' k b e x r} (hk : k < M) (h : AHolds Γ N k σ e b x) (hr : Does Γ N M (σ.setTmp k b x) r σ') :
    Does Γ N M σ (⟨.tmp k (tyOf b {}), e⟩ :: r) σ'

end Verif.Expr
