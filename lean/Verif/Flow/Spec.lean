import Verif.Flow.Model
import Verif.Expr.Spec
import Verif.Cfg.Spec

/-!
# What functions mean, and how code with jumps runs
-/

namespace Verif.Flow

open Verif.Types.Spec (Basic)
open Verif.Fold.Spec (conv fits)
open Verif.Cfg (Expr Stmt Cont SState sstepWith)
open Verif.Expr (XM put)

/-! ## The source -/

/-- The values of variables afterwards, and the value: of an assignment that of the variable (C99 6.5.16), of `x++` the old
one (6.5.2.4). -/
def Src.run (Γ : Nat → Basic) (ρ : Nat → Int) : Src → Option ((Nat → Int) × Int)
  | .pure e => (e.value Γ ρ).map fun r => (ρ, r.2)
  | .stm s => (s.exec Γ ρ).map fun ρ' => (ρ', match s with
    | .post _ i => ρ i
    | .assign i _ | .update _ i _ | .pre _ i => ρ' i)
  | .hole _ => none

/-- An assignment of the value `x`. -/
def Src.put (Γ : Nat → Basic) (x : Int) (ρ : Nat → Int) : Src → Option ((Nat → Int) × Int)
  | .hole i => some (Expr.put ρ i (conv (Γ i) x), conv (Γ i) x)
  | _ => none

/-- Expressions (C99 6.5.13-6.5.17); none if the behaviour is not defined. -/
def value (Γ : Nat → Basic) : Expr Leaf → (Nat → Int) → Option ((Nat → Int) × Int)
  | .imm n, ρ => some (ρ, n)
  | .prim _ _ p, ρ => p.src.run Γ ρ
  | .app _ p e, ρ => (value Γ e ρ).bind fun r => p.src.put Γ r.2 r.1
  | .not e, ρ => (value Γ e ρ).map fun r => (r.1, if r.2 = 0 then 1 else 0)
  | .and a b, ρ => (value Γ a ρ).bind fun r => if r.2 = 0 then some (r.1, 0) else (value Γ b r.1).map fun q => (q.1, if q.2 = 0 then 0 else 1)
  | .or a b, ρ => (value Γ a ρ).bind fun r => if r.2 ≠ 0 then some (r.1, 1) else (value Γ b r.1).map fun q => (q.1, if q.2 = 0 then 0 else 1)
  | .cond c a b, ρ => (value Γ c ρ).bind fun r => if r.2 ≠ 0 then value Γ a r.1 else value Γ b r.1
  | .comma a b, ρ => (value Γ a ρ).bind fun r => value Γ b r.1

/-- `n` steps of the abstract machine of `Verif/Cfg/Spec.lean`. -/
def Run (Γ : Nat → Basic) (body : Stmt Leaf) : Nat → SState Leaf (Nat → Int) → SState Leaf (Nat → Int) → Prop
  | 0, s, t => s = t
  | n + 1, s, t => ∃ m, sstepWith (value Γ) body s = some m ∧ Run Γ body n m t

/-- Started with values `ρ` the function ends with values `ρ'` and returns `r`. -/
def Ends (Γ : Nat → Basic) (body : Stmt Leaf) (ρ ρ' : Nat → Int) (r : Option Int) : Prop :=
  ∃ n, Run Γ body n (.exec body .stop ρ) (.done ρ' r)

/-! ## The machine -/

/-- Where a label is. -/
def target (prog : List MIns) (n : Nat) : Option Nat := prog.findIdx? fun i => i == .label n

/-- One instruction, but not `ret`; none: there is none, an invalid operation, a jump to nowhere, or one where the flags are not known. -/
def mstep (enc : Nat → Option ℚ → List UInt8) (prog : List MIns) (s : Nat × XM) : Option (Nat × XM) :=
  match prog[s.1]? with
  | none | some .ret => none
  | some (.label _) => some (s.1 + 1, s.2)
  | some (.x i) => (Expr.step enc s.2 i).map (s.1 + 1, ·)
  | some (.jcc c n) => s.2.2.bind fun f => if c.eval f then (target prog n).map (·, s.2) else some (s.1 + 1, s.2)
  | some (.jmp n) => (target prog n).map (·, s.2)

def Steps (enc : Nat → Option ℚ → List UInt8) (prog : List MIns) : Nat → Nat × XM → Nat × XM → Prop
  | 0, s, t => s = t
  | n + 1, s, t => ∃ m, mstep enc prog s = some m ∧ Steps enc prog n m t

/-- From the beginning to a `ret`. -/
def Returns (enc : Nat → Option ℚ → List UInt8) (prog : List MIns) (s t : XM) : Prop :=
  ∃ n pc, Steps enc prog n (0, s) (pc, t) ∧ prog[pc]? = some .ret

end Verif.Flow
