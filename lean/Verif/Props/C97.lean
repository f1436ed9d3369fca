import Verif.Lines.Spec

/-!
# C97: lines have the names and numbers that C says

In full: every line of every file, included or not, has in diagnostics, `__FILE__` and
`__LINE__` the presumed name and number that C says, with any `#line` directives, and a file that ends within a conditional is diagnosed.

Proved where no file has an `#include` behind a `#line`, and conditionals are closed in included
files (`C97_lines_partial`).  Both are needed: `C97_include_violated`, `C97_conditional_violated`.
-/

namespace Verif.Lines

/-- The name and number of the last line read from the file on top. -/
def Cur (s : State) (f : Source) (p : Path) (l : Nat) : Prop :=
  (if s.stale then f.path else s.path) = p ∧ (if s.stale then f.line else s.line) = l

/-- Reading a file to its end, whatever is below it. -/
theorem run_file (st : List Source) : ∀ (its : Items) (s : State) (f : Source) (p : Path)
    (l : Nat) (seen : Bool), s.stack = f :: st → f.rest = its → Cur s f p l →
    (seen = false → p = f.path ∧ l = f.line) → Closed s.dead its → NoLineBefore seen s.dead its →
    ∃ k s' f', k < rounds its ∧ s'.stack = f' :: st ∧ f'.rest = .nil ∧
      s'.dead = openAt s.dead its ∧
      ∀ j, run (k + j) s = (presumed p l s.dead its ++ (run j s').1, (run j s').2)
  | .nil, s, f, p, l, seen, hs, hf, hc, hp, hcl, hn =>
    ⟨0, s, f, by simp [rounds], hs, hf, rfl, by simp [presumed]⟩
  | .text n r, s, f, p, l, seen, hs, hf, hc, hp, hcl, hn => by
    obtain ⟨k, s', f', hk, h1, h2, h3, h4⟩ := run_file st r
      ⟨⟨f.path, f.line + n, r⟩ :: st, p, l + n, false, s.dead⟩ ⟨f.path, f.line + n, r⟩ p (l + n) seen
      rfl rfl ⟨rfl, rfl⟩ (fun h => by obtain ⟨a, b⟩ := hp h; exact ⟨a, by simp [b]⟩) hcl hn
    refine ⟨k + 1, s', f', by simp only [rounds]; omega, h1, h2, by simpa [openAt] using h3, fun j => ?_⟩
    obtain ⟨c1, c2⟩ := hc
    rw [Nat.add_right_comm, run]
    by_cases hd : s.dead = 0
    · have : step s = .line p (l + n) ⟨⟨f.path, f.line + n, r⟩ :: st, p, l + n, false, s.dead⟩ := by
        simp [step, hs, hf, c1, c2, hd]
      simp only [this, h4 j]
      simp only [presumed, hd, if_true, List.cons_append, List.nil_append]
    · have : step s = .next ⟨⟨f.path, f.line + n, r⟩ :: st, p, l + n, false, s.dead⟩ := by
        simp [step, hs, hf, c1, c2, hd]
      simp only [this, h4 j]
      simp only [presumed, hd, if_false, List.nil_append]
  | .ifZero n r, s, f, p, l, seen, hs, hf, hc, hp, hcl, hn => by
    obtain ⟨k, s', f', hk, h1, h2, h3, h4⟩ := run_file st r
      ⟨⟨f.path, f.line + n, r⟩ :: st, p, l + n, false, s.dead + 1⟩ ⟨f.path, f.line + n, r⟩ p (l + n) seen
      rfl rfl ⟨rfl, rfl⟩ (fun h => by obtain ⟨a, b⟩ := hp h; exact ⟨a, by simp [b]⟩) hcl hn
    refine ⟨k + 1, s', f', by simp only [rounds]; omega, h1, h2, by simpa [openAt] using h3, fun j => ?_⟩
    obtain ⟨c1, c2⟩ := hc
    rw [Nat.add_right_comm, run]
    have : step s = .line p (l + n) ⟨⟨f.path, f.line + n, r⟩ :: st, p, l + n, false, s.dead + 1⟩ := by
      simp [step, hs, hf, c1, c2]
    simp only [this, h4 j]
    simp only [presumed, List.cons_append]
  | .endif n r, s, f, p, l, seen, hs, hf, hc, hp, hcl, hn => by
    obtain ⟨k, s', f', hk, h1, h2, h3, h4⟩ := run_file st r
      ⟨⟨f.path, f.line + n, r⟩ :: st, p, l + n, false, s.dead - 1⟩ ⟨f.path, f.line + n, r⟩ p (l + n) seen
      rfl rfl ⟨rfl, rfl⟩ (fun h => by obtain ⟨a, b⟩ := hp h; exact ⟨a, by simp [b]⟩) hcl hn
    refine ⟨k + 1, s', f', by simp only [rounds]; omega, h1, h2, by simpa [openAt] using h3, fun j => ?_⟩
    obtain ⟨c1, c2⟩ := hc
    rw [Nat.add_right_comm, run]
    have : step s = .line p (l + n) ⟨⟨f.path, f.line + n, r⟩ :: st, p, l + n, false, s.dead - 1⟩ := by
      simp [step, hs, hf, c1, c2]
    simp only [this, h4 j]
    simp only [presumed, List.cons_append]
  | .line n m q r, s, f, p, l, seen, hs, hf, hc, hp, hcl, hn => by
    obtain ⟨c1, c2⟩ := hc
    by_cases hd : s.dead = 0
    · have hn' : NoLineBefore true s.dead r := by simpa [NoLineBefore, hd] using hn
      obtain ⟨k, s', f', hk, h1, h2, h3, h4⟩ := run_file st r
        ⟨⟨f.path, f.line + n, r⟩ :: st, q.getD p, m - 1, false, s.dead⟩ ⟨f.path, f.line + n, r⟩
        (q.getD p) (m - 1) true rfl rfl ⟨rfl, rfl⟩ (fun h => by cases h) hcl hn'
      refine ⟨k + 1, s', f', by simp only [rounds]; omega, h1, h2, by simpa [openAt] using h3, fun j => ?_⟩
      rw [Nat.add_right_comm, run]
      have : step s = .line p (l + n)
          ⟨⟨f.path, f.line + n, r⟩ :: st, q.getD p, m - 1, false, s.dead⟩ := by
        simp [step, hs, hf, c1, c2, hd]
      simp only [this, h4 j]
      simp only [presumed, hd, if_true, List.cons_append]
    · have hb : (s.dead == 0) = false := by simp [hd]
      have hn' : NoLineBefore seen s.dead r := by simpa only [NoLineBefore, hb, Bool.or_false] using hn
      obtain ⟨k, s', f', hk, h1, h2, h3, h4⟩ := run_file st r
        ⟨⟨f.path, f.line + n, r⟩ :: st, p, l + n, false, s.dead⟩ ⟨f.path, f.line + n, r⟩
        p (l + n) seen rfl rfl ⟨rfl, rfl⟩
        (fun h => by obtain ⟨a, b⟩ := hp h; exact ⟨a, by simp [b]⟩) hcl hn'
      refine ⟨k + 1, s', f', by simp only [rounds]; omega, h1, h2, by simpa [openAt] using h3, fun j => ?_⟩
      rw [Nat.add_right_comm, run]
      have : step s = .line p (l + n)
          ⟨⟨f.path, f.line + n, r⟩ :: st, p, l + n, false, s.dead⟩ := by
        simp [step, hs, hf, c1, c2, hd]
      simp only [this, h4 j]
      simp only [presumed, hd, if_false, List.cons_append]
  | .incl n p' file r, s, f, p, l, seen, hs, hf, hc, hp, hcl, hn => by
    obtain ⟨c1, c2⟩ := hc
    by_cases hd : s.dead = 0
    · obtain ⟨⟨hcl0, hcl1⟩, hcl2⟩ : (openAt 0 file = 0 ∧ Closed 0 file) ∧ Closed s.dead r :=
        ⟨hcl.1 hd, hcl.2⟩
      obtain ⟨⟨hn0, hn1⟩, hn2⟩ : (seen = false ∧ NoLineBefore false 0 file) ∧
          NoLineBefore seen s.dead r := ⟨hn.1 hd, hn.2⟩
      obtain ⟨hp1, hp2⟩ := hp hn0
      obtain ⟨k, s1, f1, hk, h1, h2, h3, h4⟩ := run_file (⟨f.path, f.line + n, r⟩ :: st) file
        ⟨⟨p', 0, file⟩ :: ⟨f.path, f.line + n, r⟩ :: st, p', 0, false, 0⟩ ⟨p', 0, file⟩ p' 0 false
        rfl rfl ⟨rfl, rfl⟩ (fun _ => ⟨rfl, rfl⟩) hcl1 hn1
      have h3' : s1.dead = 0 := by rw [h3]; exact hcl0
      obtain ⟨k2, s2, f2, hk2, g1, g2, g3, g4⟩ := run_file st r
        ⟨⟨f.path, f.line + n, r⟩ :: st, if s1.stale then f1.path else s1.path,
          if s1.stale then f1.line else s1.line, true, 0⟩ ⟨f.path, f.line + n, r⟩
        p (l + n) seen rfl rfl ⟨by simp [hp1], by simp [hp2]⟩
        (fun _ => ⟨hp1, by simp [hp2]⟩) (by rw [hd] at hcl2; exact hcl2) (by rw [hd] at hn2; exact hn2)
      refine ⟨k + (k2 + 1) + 1, s2, f2, by simp only [rounds]; omega, g1, g2,
        by rw [g3, hd]; rfl, fun j => ?_⟩
      have e1 : step s = .line p (l + n)
          ⟨⟨p', 0, file⟩ :: ⟨f.path, f.line + n, r⟩ :: st, p', 0, false, 0⟩ := by
        simp [step, hs, hf, c1, c2, hd]
      have e2 : step s1 = .next ⟨⟨f.path, f.line + n, r⟩ :: st, if s1.stale then f1.path else s1.path,
          if s1.stale then f1.line else s1.line, true, 0⟩ := by
        simp [step, h1, h2, h3']
      have e3 : k + (k2 + 1) + 1 + j = (k + (k2 + 1 + j)) + 1 := by omega
      have e4 : k2 + 1 + j = (k2 + j) + 1 := by omega
      have e5 : run (k2 + j + 1) s1 = run (k2 + j)
          ⟨⟨f.path, f.line + n, r⟩ :: st, if s1.stale then f1.path else s1.path,
          if s1.stale then f1.line else s1.line, true, 0⟩ := by rw [run, e2]
      rw [e3, run, e1]
      simp only [h4, e4, e5, g4, presumed, hd, if_true, List.cons_append, List.append_assoc]
    · have hcl' : Closed s.dead r := hcl.2
      have hn' : NoLineBefore seen s.dead r := hn.2
      obtain ⟨k, s', f', hk, h1, h2, h3, h4⟩ := run_file st r
        ⟨⟨f.path, f.line + n, r⟩ :: st, p, l + n, false, s.dead⟩ ⟨f.path, f.line + n, r⟩
        p (l + n) seen rfl rfl ⟨rfl, rfl⟩
        (fun h => by obtain ⟨a, b⟩ := hp h; exact ⟨a, by simp [b]⟩) hcl' hn'
      refine ⟨k + 1, s', f', by simp only [rounds]; omega, h1, h2, by simpa [openAt] using h3, fun j => ?_⟩
      rw [Nat.add_right_comm, run]
      have : step s = .line p (l + n)
          ⟨⟨f.path, f.line + n, r⟩ :: st, p, l + n, false, s.dead⟩ := by
        simp [step, hs, hf, c1, c2, hd]
      simp only [this, h4 j]
      simp only [presumed, hd, if_false, List.cons_append, List.nil_append]

/-- All lines of a file and the files it includes are read to the end, each with its presumed
name and number. -/
theorem C97_lines_partial (p : Path) (file : Items) (hc : Closed 0 file)
    (hn : NoLineBefore false 0 file) {k : Nat} (hk : rounds file ≤ k) :
    run k (opened p file) = (presumed p 0 0 file, .eof) := by
  obtain ⟨m, s, f, hm, h1, h2, _, h4⟩ := run_file [] file (opened p file) ⟨p, 0, file⟩ p 0 false
    rfl rfl ⟨rfl, rfl⟩ (fun _ => ⟨rfl, rfl⟩) hc hn
  obtain ⟨j, rfl⟩ : ∃ j, k = m + (j + 1) := ⟨k - m - 1, by omega⟩
  have : run (j + 1) s = ([], .eof) := by simp [run, step, h1, h2]
  rw [h4, this]
  simp [opened]

/-- Two lines, an included file of a line, a spliced line and its own `#line`, and then a
`#line`, a line that is left out, and one that is not. -/
def ex : Items :=
  .text 1 (.incl 1 (str% "x.h") (.text 1 (.text 2 (.line 1 50 none (.text 1 .nil))))
    (.text 1 (.line 1 100 (some (str% "y.c")) (.text 1 (.ifZero 1 (.text 1 (.endif 1 (.text 1 .nil))))))))

example : run 100 (opened (str% "a.c") ex) = (presumed (str% "a.c") 0 0 ex, .eof) :=
  C97_lines_partial _ _ (by simp [Closed, openAt, ex]) (by simp [NoLineBefore, ex]) (by decide)

example : presumed (str% "a.c") 0 0 ex =
    [(str% "a.c", 1), (str% "a.c", 2), (str% "x.h", 1), (str% "x.h", 3), (str% "x.h", 4),
     (str% "x.h", 50), (str% "a.c", 3), (str% "a.c", 4), (str% "y.c", 100), (str% "y.c", 101),
     (str% "y.c", 103), (str% "y.c", 104)] := by decide

/-- `#line 100 "y.c"`, `#include "x.h"` and a line, which should be line 101 of y.c: it
is line 3 of a.c. -/
theorem C97_include_violated :
    let file := Items.line 1 100 (some (str% "y.c")) (.incl 1 (str% "x.h") .nil (.text 1 .nil))
    presumed (str% "a.c") 0 0 file = [(str% "a.c", 1), (str% "y.c", 100), (str% "y.c", 101)] ∧
    ∀ k, 10 ≤ k → run k (opened (str% "a.c") file) =
      ([(str% "a.c", 1), (str% "y.c", 100), (str% "a.c", 3)], .eof) := by
  refine ⟨by decide, fun k hk => ?_⟩
  obtain ⟨j, rfl⟩ : ∃ j, k = j + 10 := ⟨k - 10, by omega⟩
  simp [run, step, opened]

/-- An included file that ends behind an `#if 0` makes the compiler read through a null
pointer instead of a diagnostic. -/
theorem C97_conditional_violated :
    (run 10 (opened (str% "a.c") (.incl 1 (str% "x.h") (.ifZero 1 .nil) (.text 1 .nil)))).2 = .crash := by
  decide

end Verif.Lines
