import Verif.Expr.Model
import Verif.Fold.Spec
import Verif.Arith.Spec

/-!
# What integer expressions and assignments mean

C99 6.3.1, 6.5.  Nothing here is about the machine, but for the last part.
-/

namespace Verif.Expr

open Verif.Abi (M Place BP isTempInt)
open Verif.Conv (CM Val)
open Verif.Types.Spec (Basic)
open Verif.Fold (Holds tyOf)
open Verif.Fold.Spec (conv result fits)
open Verif.Compare (Rel)

def specOp : Arith.Op → Fold.Spec.Op
  | .add => .add
  | .sub => .sub
  | .mul => .mul
  | .div => .div
  | .mod => .mod
  | .and => .and
  | .or => .or
  | .xor => .xor
  | .shl => .shl
  | .shr => .shr

/-- Type and value of an expression, where variables have types `Γ` and values `ρ`; none if C does not define it. -/
def Exp.value (Γ : Nat → Basic) (ρ : Nat → Int) : Exp → Option (Basic × Int)
  | .const b n => some (b, n)
  | .var i => some (Γ i, ρ i)
  | .neg e => do
    let (b, x) ← e.value Γ ρ
    Fold.Spec.negate b x
  | .compl e => do
    let (b, x) ← e.value Γ ρ
    some (Fold.Spec.complement b x)
  | .plus e => do
    let (b, x) ← e.value Γ ρ
    some (b.promote, x)
  | .lnot e => do
    let (_, x) ← e.value Γ ρ
    some (.int, if x = 0 then 1 else 0)
  | .cast t e => do
    let (_, x) ← e.value Γ ρ
    some (t, conv t x)
  | .bin op l r => do
    let (a, x) ← l.value Γ ρ
    let (b, y) ← r.value Γ ρ
    Fold.Spec.binary (specOp op) a b x y
  | .rel op l r => do
    let (a, x) ← l.value Γ ρ
    let (b, y) ← r.value Γ ρ
    some (.int, if op.holds (some (compare (conv (a.common b) x) (conv (a.common b) y))) then 1 else 0)

def put (ρ : Nat → Int) (i : Nat) (x : Int) : Nat → Int := fun j => if j = i then x else ρ j

/-- The values of variables after a statement. -/
def Stm.exec (Γ : Nat → Basic) (ρ : Nat → Int) : Stm → Option (Nat → Int)
  | .assign i e => do
    let (_, x) ← e.value Γ ρ
    some (put ρ i (conv (Γ i) x))
  | .update op i e => do
    let (b, y) ← e.value Γ ρ
    let (_, z) ← Fold.Spec.binary (specOp op) (Γ i) b (ρ i) y
    some (put ρ i (conv (Γ i) z))
  | .pre up i => do
    let (_, z) ← Fold.Spec.binary (if up then .add else .sub) (Γ i) .int (ρ i) 1
    some (put ρ i (conv (Γ i) z))
  | .post up i => do
    let (_, z) ← Fold.Spec.binary (if up then .add else .sub) (Γ i) .int (ρ i) 1
    some (put ρ i (conv (Γ i) z))

def exec (Γ : Nat → Basic) : (Nat → Int) → List Stm → Option (Nat → Int)
  | ρ, [] => some ρ
  | ρ, s :: r => (s.exec Γ ρ).bind (exec Γ · r)

/-! ## Programs that the theorems are about -/

/-- Constants are of their type, there are `N` variables, and no cast is to `_Bool` (see C86). -/
def Exp.Ok (N : Nat) : Exp → Prop
  | .const b n => fits b n
  | .var i => i < N
  | .neg e | .compl e | .plus e | .lnot e => e.Ok N
  | .cast b e => b.isFloating = false ∧ b ≠ .bool ∧ e.Ok N
  | .bin _ l r | .rel _ l r => l.Ok N ∧ r.Ok N

def Stm.Ok (N : Nat) : Stm → Prop
  | .assign i e | .update _ i e => i < N ∧ e.Ok N
  | .pre _ i | .post _ i => i < N

/-! ## What is in memory -/

/-- The address of what is not in a register; `bp` is what `%rbp` has. -/
def home (bp : Int) : Place → Int
  | .frame o => bp + o
  | .global a => a
  | .temp _ => 0

/-- `n` and `m` bytes that have nothing in common. -/
def Apart (a : Int) (n : Nat) (b : Int) (m : Nat) : Prop := a + n ≤ b ∨ b + m ≤ a

/-- Bytes of an integer type. -/
def size (b : Basic) : Nat := if b = .bool then 1 else Fold.Spec.width b / 8

/-- Where things may be: variables in memory, temporaries, of which there are `M`, in registers that are not shared, or in
memory; nothing overlaps. -/
structure Layout.Good (L : Layout) (Γ : Nat → Basic) (N M : Nat) (bp : Int) : Prop where
  var : ∀ i < N, ∀ r, L.var i ≠ .temp r
  tmp : ∀ k < M, (∃ r, L.tmp k = .temp r ∧ isTempInt r) ∨ ∃ o, L.tmp k = .frame o
  regs : ∀ k < M, ∀ k' < M, ∀ r, L.tmp k = .temp r → L.tmp k' = .temp r → k = k'
  vars : ∀ i < N, ∀ j < N, i ≠ j → Apart (home bp (L.var i)) (size (Γ i)) (home bp (L.var j)) (size (Γ j))
  tmps : ∀ k < M, ∀ k' < M, ∀ o o', k ≠ k' → L.tmp k = .frame o → L.tmp k' = .frame o' → Apart (bp + o) 8 (bp + o') 8
  both : ∀ i < N, ∀ k < M, ∀ o, L.tmp k = .frame o → Apart (home bp (L.var i)) (size (Γ i)) (bp + o) 8

/-- A variable has a value. -/
def Stores (L : Layout) (Γ : Nat → Basic) (s : M) (i : Nat) (x : Int) : Prop :=
  (⟨size (Γ i), (Γ i).isSigned, none, .place (L.var i)⟩ : Val).value s = x

/-- All variables have values of their types. -/
def Rep (L : Layout) (Γ : Nat → Basic) (N : Nat) (s : M) (ρ : Nat → Int) : Prop :=
  ∀ i < N, Stores L Γ s i (ρ i) ∧ fits (Γ i) (ρ i)

/-- Nothing is different but variables, temporaries and scratch registers. -/
structure Untouched (L : Layout) (Γ : Nat → Basic) (N M : Nat) (bp : Int) (s t : CM) : Prop where
  same : t = { s with m := t.m }
  reg : ∀ r, r ∉ Arith.scratch → (∀ k < M, L.tmp k ≠ .temp r) → t.m.reg r = s.m.reg r
  mem : ∀ x, (∀ i < N, x < home bp (L.var i) ∨ home bp (L.var i) + size (Γ i) ≤ x) →
    (∀ k < M, ∀ o, L.tmp k = .frame o → x < bp + o ∨ bp + o + 8 ≤ x) → t.m.mem x = s.m.mem x

end Verif.Expr
