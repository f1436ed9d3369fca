import Verif.Linear.Model
import Verif.Compare.Spec

/-!
# Execution of a graph and of a line of code
-/

namespace Verif.Linear

open Verif.Compare

variable {M F α τ : Type}

/-! The graph: what the test says in C. -/

/-- Whether the test holds: C11 6.5.8, 6.5.9; 6.8.4.1 (compares unequal to zero). -/
def Test.holds (o : Order F) (zero : F) (m : M) : Test M F → Bool
  | .int _ k op _ _ l r => op.holds (some (intCmp (k == .signed) (l m) (r m)))
  | .intTruth _ _ v => decide (v m ≠ 0)
  | .real _ op l r => op.holds (o.cmp (l m) (r m))
  | .realTruth _ v => !(o.cmp (v m) zero == some .eq)

/-- What statements and tests mean: the effect of a statement, whether a test holds (in the graph), and the flags after its
comparison (in the line of code). -/
structure Sem (α τ M : Type) where
  exec : α → M → M
  holds : τ → M → Bool
  flags : τ → M → Flags

/-- The statements of a block, in order. -/
def after (se : Sem α τ M) (G : Nat → Block α τ) (b : Nat) (m : M) : M := (G b).stmts.foldl (fun m f => se.exec f m) m

/-- Where control goes after block `b` was entered in state `m`; `none`: the function returns. -/
def next (se : Sem α τ M) (G : Nat → Block α τ) (b : Nat) (m : M) : Option (Nat × M) :=
  match (G b).j1 with
  | some y => (if se.holds (G b).test (after se G b m) then some y else (G b).j0).map (·, after se G b m)
  | none => (G b).j0.map (·, after se G b m)

/-- `n` blocks are executed, from block `b` entered in state `m` to block `b'` entered in state `m'`. -/
def Walk (se : Sem α τ M) (G : Nat → Block α τ) : Nat → Nat → M → Nat → M → Prop
  | 0, b, m, b', m' => b = b' ∧ m = m'
  | n + 1, b, m, b', m' => ∃ c k, next se G b m = some (c, k) ∧ Walk se G n c k b' m'

/-- The function returns from block `b'` in state `m'`. -/
def Leaves (se : Sem α τ M) (G : Nat → Block α τ) (b : Nat) (m : M) (b' : Nat) (m' : M) : Prop :=
  ∃ n k, Walk se G n b m b' k ∧ next se G b' k = none ∧ after se G b' k = m'

/-! The line of code. -/

/-- The flags are unknown (`none`) after a statement. -/
structure S (M : Type) where
  pc : Nat
  mem : M
  flags : Option Flags

/-- What happens next: on to another state, a return from block `b`, or nothing sensible (past the end of the code, a jump to a
label that is not there, a conditional jump with unknown flags). -/
inductive Out (M : Type)
  | go (s : S M)
  | done (b : Nat) (m : M)
  | stuck

def isLabel (n : Nat) : Item α τ → Bool
  | .label k => k == n
  | _ => false

/-- Position of a label. -/
def find (code : List (Item α τ)) (n : Nat) : Option Nat := code.findIdx? (isLabel n)

/-- Flags after the instruction that compares (`CMP`, `UCOMIS`); `par` is the parity flag of `CMP`.  A floating point number is
the source of a comparison with zero, compile.c:3265. -/
def Test.flags (o : Order F) (zero : F) (par : M → Bool) (m : M) : Test M F → Flags
  | .int w k op lf rf l r =>
    let c := (intCompare k op (w == 64) lf rf).1
    cmpFlags (pick (l m) (r m) c.dst) (pick (l m) (r m) c.src) (par m)
  | .intTruth _ _ v => cmpFlags (v m) 0 (par m)
  | .real _ op l r =>
    let c := (sseCompare op).1
    ucomisFlags (o.cmp (pick (l m) (r m) c.dst) (pick (l m) (r m) c.src))
  | .realTruth _ v => ucomisFlags (o.cmp zero (v m))

/-- Statements that are functions on states, and the tests above. -/
def sem (o : Order F) (zero : F) (par : M → Bool) : Sem (M → M) (Test M F) M :=
  ⟨fun f m => f m, fun t m => t.holds o zero m, fun t m => t.flags o zero par m⟩

def jump (code : List (Item α τ)) (n : Nat) (s : S M) : Out M :=
  match find code n with
  | some p => .go { s with pc := p }
  | none => .stuck

def step (se : Sem α τ M) (code : List (Item α τ)) (s : S M) : Out M :=
  match code[s.pc]? with
  | none => .stuck
  | some (.label _) => .go { s with pc := s.pc + 1 }
  | some (.stmt f) => .go ⟨s.pc + 1, se.exec f s.mem, none⟩
  | some (.test t) => .go ⟨s.pc + 1, s.mem, some (se.flags t s.mem)⟩
  | some (.jcc c n) =>
    match s.flags with
    | none => .stuck
    | some f => if c.eval f then jump code n s else .go { s with pc := s.pc + 1 }
  | some (.jmp n) => jump code n s
  | some (.ret b) => .done b s.mem

/-- `n` steps. -/
def Steps (se : Sem α τ M) (code : List (Item α τ)) : Nat → S M → S M → Prop
  | 0, s, t => s = t
  | n + 1, s, t => ∃ k, step se code s = .go k ∧ Steps se code n k t

/-- Started at the beginning, the code returns from block `b` in state `m'`. -/
def Finishes (se : Sem α τ M) (code : List (Item α τ)) (m : M) (b : Nat) (m' : M) : Prop :=
  ∃ n t, Steps se code n ⟨0, m, none⟩ t ∧ step se code t = .done b m'

/-- The tests covered: integers of the widths of the machine, `float` and `double`. -/
def Test.Ok : Test M F → Prop
  | .int w k _ _ _ _ _ => (w = 8 ∨ w = 16 ∨ w = 32 ∨ w = 64) ∧ k.isReal = false
  | .intTruth _ k _ => k.isReal = false
  | .real k _ _ _ => k = .sse
  | .realTruth k _ => k = .sse

/-- Blocks are numbered below `N`, and a block with a second successor has a first one. -/
def Closed (G : Nat → Block α τ) (N : Nat) : Prop :=
  ∀ i < N, (∀ t, (G i).j0 = some t ∨ (G i).j1 = some t → t < N) ∧ ((G i).j1.isSome = true → (G i).j0.isSome = true)

/-- Every test decides what the expression at the end of the block says. -/
def Faithful {σ : Type} [Cfg.Prim σ] (o : Order F) (zero : F) (g : Nat → Cfg.Block σ) (T : Nat → Test (Cfg.Mem σ) F) : Prop :=
  ∀ i, (T i).Ok ∧ ((g i).j1.isSome = true → ∀ m, (T i).holds o zero m = decide ((g i).expr.get m ≠ 0))

end Verif.Linear
