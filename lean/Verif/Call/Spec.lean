import Verif.Call.Model
import Verif.Expr.Ir

/-!
# What calls mean

C99 6.5.2.2.  Functions are given by what they answer: from the world, and their arguments with their types, to a result and
another world, or nothing if they do not return.  They do not change the variables that are used here.
-/

namespace Verif.Call

open Verif.Types.Spec (Basic)
open Verif.Fold (tyOf)
open Verif.Fold.Spec (conv fits)
open Verif.Expr (IVar Env VHolds put specOp)

/-- What a function returns. -/
inductive Ans
  | int (x : Int)
  | void
  | fn (f : Nat)
  deriving DecidableEq, Repr

/-- All functions. -/
abbrev Functions (S : Type) := Nat → List (Basic × Int) → S → Option (Ans × S)

/-- Values of expressions: an integer of a type, nothing, a function. -/
inductive Val
  | int (b : Basic) (x : Int)
  | void
  | fn (f : Nat)
  deriving DecidableEq, Repr

/-- The value of a call, by the type of the function: an integer that does not fit is converted, and a function of another type than was
announced is not called. -/
def Ans.val (W : Decls) : Ret → Ans → Option Val
  | .int b, .int x => some (.int b (conv b x))
  | .void, .void => some .void
  | .fn k, .fn f => if W.type f = k then some (.fn f) else none
  | _, _ => none

def Val.num : Val → Option (Basic × Int)
  | .int b x => some (b, x)
  | _ => none

def Val.function : Val → Option Nat
  | .fn f => some f
  | _ => none

variable {S : Type} (W : Decls) (F : Functions S) (ρ : Nat → Int)

mutual
/-- Value of an expression, from left to right, and the world then. -/
def CE.value : CE → S → Option (Val × S)
  | .const b n, w => some (.int b n, w)
  | .var i, w => some (.int (W.vars i) (ρ i), w)
  | .name f, w => some (.fn f, w)
  | .neg e, w => do
    let (v, w) ← e.value w
    let (b, x) ← v.num
    let (t, z) ← Fold.Spec.negate b x
    some (.int t z, w)
  | .compl e, w => do
    let (v, w) ← e.value w
    let (b, x) ← v.num
    some (.int (Fold.Spec.complement b x).1 (Fold.Spec.complement b x).2, w)
  | .plus e, w => do
    let (v, w) ← e.value w
    let (b, x) ← v.num
    some (.int b.promote x, w)
  | .lnot e, w => do
    let (v, w) ← e.value w
    let (_, x) ← v.num
    some (.int .int (if x = 0 then 1 else 0), w)
  | .cast t e, w => do
    let (v, w) ← e.value w
    let (_, x) ← v.num
    some (.int t (conv t x), w)
  | .bin op l r, w => do
    let (v, w) ← l.value w
    let (a, x) ← v.num
    let (v, w) ← r.value w
    let (b, y) ← v.num
    let (t, z) ← Fold.Spec.binary (specOp op) a b x y
    some (.int t z, w)
  | .rel op l r, w => do
    let (v, w) ← l.value w
    let (a, x) ← v.num
    let (v, w) ← r.value w
    let (b, y) ← v.num
    some (.int .int (if op.holds (some (compare (conv (a.common b) x) (conv (a.common b) y))) then 1 else 0), w)
  | .comma l r, w => do
    let (_, w) ← l.value w
    r.value w
  | .call f a, w => do
    let (v, w) ← f.value w
    let f ← v.function
    let (xs, w) ← a.values (W.sig (W.type f)).params (W.sig (W.type f)).more w
    let (y, w) ← F f xs w
    let v ← y.val W (W.sig (W.type f)).ret
    some (v, w)

/-- The arguments, converted to the types of the parameters, or promoted if they are after those. -/
def Args.values : Args → List Basic → Bool → S → Option (List (Basic × Int) × S)
  | .nil, [], _, w => some ([], w)
  | .nil, _ :: _, _, _ => none
  | .cons e r, [], more, w =>
    if more then do
      let (v, w) ← e.value w
      let (b, x) ← v.num
      let (xs, w) ← r.values [] more w
      some ((b.promote, x) :: xs, w)
    else none
  | .cons e r, b :: ps, more, w => do
    let (v, w) ← e.value w
    let (_, x) ← v.num
    let (xs, w) ← r.values ps more w
    some ((b, conv b x) :: xs, w)
end

/-- Variables and the world after a statement. -/
def Stm.exec : Stm → S → Option ((Nat → Int) × S)
  | .assign i e, w => do
    let (v, w) ← e.value W F ρ w
    let (_, x) ← v.num
    some (put ρ i (conv (W.vars i) x), w)
  | .update op i e, w => do
    let (v, w) ← e.value W F ρ w
    let (b, y) ← v.num
    let (_, z) ← Fold.Spec.binary (specOp op) (W.vars i) b (ρ i) y
    some (put ρ i (conv (W.vars i) z), w)
  | .exp e, w => do
    let (_, w) ← e.value W F ρ w
    some (ρ, w)

def exec : (Nat → Int) → List Stm → S → Option ((Nat → Int) × S)
  | ρ, [], w => some (ρ, w)
  | ρ, s :: r, w => do
    let (ρ, w) ← s.exec W F ρ w
    exec ρ r w

/-! ## Programs that the theorems are about -/

/-- What is called comes from another call. -/
def CE.isCall : CE → Bool
  | .call _ _ => true
  | .comma _ r => r.isCall
  | _ => false

mutual
/-- Constants are of their type, there are `N` variables, no cast is to `_Bool` (see C86), and functions that are called are not the result
of another call. -/
def CE.Ok (N : Nat) : CE → Prop
  | .const b n => fits b n
  | .var i => i < N
  | .name _ => True
  | .neg e | .compl e | .plus e | .lnot e => e.Ok N
  | .cast b e => b.isFloating = false ∧ b ≠ .bool ∧ e.Ok N
  | .bin _ l r | .rel _ l r | .comma l r => l.Ok N ∧ r.Ok N
  | .call f a => f.Ok N ∧ f.isCall = false ∧ a.Ok N

def Args.Ok (N : Nat) : Args → Prop
  | .nil => True
  | .cons e r => e.Ok N ∧ r.Ok N
end

def Stm.Ok (N : Nat) : Stm → Prop
  | .assign i e | .update _ i e => i < N ∧ e.Ok N
  | .exp e => e.Ok N

/-- Parameters and results are integers. -/
structure Decls.Good : Prop where
  params : ∀ k, ∀ b ∈ (W.sig k).params, b.isFloating = false
  ret : ∀ k b, (W.sig k).ret = .int b → b.isFloating = false

/-! ## What statements mean -/

/-- Numbers, pointers to functions in temporaries, the parameters that have been pushed for the next call (`func_args`, compile.c:35), and
the world. -/
structure State (S : Type) where
  σ : Env
  fns : Nat → Option Nat
  pending : List IVar
  w : S

/-- The function that is called. -/
def Callee.At (W : Decls) (n : Nat) (s : State S) (f : Nat) : Callee → Prop
  | .name g => g = f
  | .tmp k t => k < n ∧ s.fns k = some f ∧ W.type f = t

/-- Variables that have these types and numbers. -/
def Holding (W : Decls) (N n : Nat) (σ : Env) (vs : List IVar) (xs : List (Basic × Int)) : Prop :=
  List.Forall₂ (fun v x => VHolds W.vars N n σ v x.1 x.2) vs xs

/-- The result of a call is assigned: the value is of the type of the target. -/
inductive Lands (W : Decls) (N M : Nat) (s : State S) : Target → Val → State S → Prop
  | none {v} : Lands W N M s .none v s
  | obj {i x} (hi : i < N) : Lands W N M s (.var (.obj i (tyOf (W.vars i) {}))) (.int (W.vars i) x) { s with σ := s.σ.setVar i x }
  | tmp {k b x} (hk : k < M) : Lands W N M s (.var (.tmp k (tyOf b {}))) (.int b x) { s with σ := s.σ.setTmp k b x }
  | fn {k f} (hk : k < M) : Lands W N M s (.fn k) (.fn f) { s with fns := fun j => if j = k then some f else s.fns j }

/-- Statements are executed, of which a call has all the parameters that were pushed since the one before; see compile_call,
compile.c:2163-2216, and 3038-3041. -/
inductive Runs (W : Decls) (F : Functions S) (N M : Nat) : State S → List CStmt → State S → Prop
  | nil {s} : Runs W F N M s [] s
  | plain {s σ' x r s'} (h : Expr.Does W.vars N M s.σ [x] σ') (hr : Runs W F N M { s with σ := σ' } r s') :
    Runs W F N M s (.plain x :: r) s'
  | param {s v r s'} (hr : Runs W F N M { s with pending := s.pending ++ [v] } r s') : Runs W F N M s (.param v :: r) s'
  | call {s t c f xs y w v s1 r s'} (hc : c.At W M s f) (ha : Holding W N M s.σ s.pending xs) (hf : F f xs s.w = some (y, w))
    (hv : y.val W (W.sig (W.type f)).ret = some v) (ht : Lands W N M { s with pending := [], w := w } t v s1) (hr : Runs W F N M s1 r s') :
    Runs W F N M s (.call t c :: r) s'

end Verif.Call
