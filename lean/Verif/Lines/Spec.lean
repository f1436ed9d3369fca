import Verif.Lines.Model

/-!
# Presumed names and numbers

C99 6.10.4 and 6.10.2: the presumed name and number of each line.  `#line` counts for the lines of the
same file that follow; an included file has its own, and after it those of the file go on.
A logical line of several lines of text has the number of the last.
-/

namespace Verif.Lines

/-- `p` and `l` are the presumed name and number of the last line, `d` the number of conditionals whose lines
are left out. -/
def presumed (p : Path) (l d : Nat) : Items → List (Path × Nat)
  | .nil => []
  | .text n r => (if d = 0 then [(p, l + n)] else []) ++ presumed p (l + n) d r
  | .ifZero n r => (p, l + n) :: presumed p (l + n) (d + 1) r
  | .endif n r => (p, l + n) :: presumed p (l + n) (d - 1) r
  | .line n k q r =>
    (p, l + n) :: (if d = 0 then presumed (q.getD p) (k - 1) d r else presumed p (l + n) d r)
  | .incl n p' file r =>
    (p, l + n) :: ((if d = 0 then presumed p' 0 0 file else []) ++ presumed p (l + n) d r)

/-- Conditionals whose lines are left out, at the end of a file. -/
def openAt (d : Nat) : Items → Nat
  | .nil => d
  | .text _ r => openAt d r
  | .ifZero _ r => openAt (d + 1) r
  | .endif _ r => openAt (d - 1) r
  | .line _ _ _ r => openAt d r
  | .incl _ _ _ r => openAt d r

/-- In every included file the conditionals are closed. -/
def Closed (d : Nat) : Items → Prop
  | .nil => True
  | .text _ r => Closed d r
  | .ifZero _ r => Closed (d + 1) r
  | .endif _ r => Closed (d - 1) r
  | .line _ _ _ r => Closed d r
  | .incl _ _ file r => (d = 0 → openAt 0 file = 0 ∧ Closed 0 file) ∧ Closed d r

/-- In no file is there an `#include` behind a `#line`. -/
def NoLineBefore (seen : Bool) (d : Nat) : Items → Prop
  | .nil => True
  | .text _ r => NoLineBefore seen d r
  | .ifZero _ r => NoLineBefore seen (d + 1) r
  | .endif _ r => NoLineBefore seen (d - 1) r
  | .line _ _ _ r => NoLineBefore (seen || d == 0) d r
  | .incl _ _ file r =>
    (d = 0 → seen = false ∧ NoLineBefore false 0 file) ∧ NoLineBefore seen d r

/-- Rounds that are needed. -/
def rounds : Items → Nat
  | .nil => 1
  | .text _ r | .ifZero _ r | .endif _ r | .line _ _ _ r => rounds r + 1
  | .incl _ _ file r => rounds file + rounds r + 1

end Verif.Lines
