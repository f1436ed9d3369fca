import Mathlib.Tactic.ByContra
import Mathlib.Tactic.SplitIfs
import Mathlib.Tactic.Push
import Mathlib.Tactic.Use
import Mathlib.Tactic.IntervalCases
/-! Tactics used throughout; no definitions. -/
