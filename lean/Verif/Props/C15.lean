import Verif.Driver.ArgsLemmas
/-! # C15, C51, C52, C69: command line of the driver -/
namespace Verif.Driver
open Spec

/-! ## C15 -/

/-- For every table of well-formed options and every command line that does not contain the raw
bracket text of a rule, the calls made and the result are those of the meaning of the table: every
argument goes to the first option that it is an instance of, with its value; unknown options and missing
values are rejected.  Missing: arguments that are bracket text (see the violation). -/
theorem C15_dispatch_partial (ks : List Kind) (hk : ∀ k ∈ ks, Kind.Good k) (cb : Nat → Bytes → Int)
    (argv : List Bytes) (hr : ∀ a ∈ argv, ∀ k ∈ ks, NoRaw k a) :
    ∃ calls r, parseArgs (ks.map Kind.rule) cb (argv.length + 1) argv = some (calls, r) ∧
      Parses ks cb argv calls r :=
  parseArgs_spec ks hk cb _ argv (by omega) hr

/-- The table of the driver is such a table. -/
theorem driver_rules : driverKinds.map Kind.rule = driverRules := by decide +kernel

/-- Decision procedure for well-formed pieces. -/
def clearB : List Piece → Bool
  | [] => true
  | .lit s :: ps => !s.contains (chr% '[') && !s.contains (chr% '{') && clearB ps
  | .opt o :: ps => !o.contains (chr% '[') && !o.contains (chr% '{') && !o.contains (chr% ']') &&
      (match ps, o.head? with
       | .lit (c :: _) :: _, some d => c != chr% '[' && d != c
       | _, _ => false) && clearB ps
  | .alt ss :: ps => !ss.isEmpty && ss.all (fun s => !s.contains (chr% '[') && !s.contains (chr% '{') &&
      !s.contains (chr% '|') && !s.contains (chr% '}')) &&
      ss.all (fun a => ss.all fun b => !a.isPrefixOf b || a == b) && ss.all (fun s => !s.isEmpty) && clearB ps

theorem clearB_sound (ps : List Piece) (h : clearB ps = true) : Clear ps := by
  induction ps with
  | nil => trivial
  | cons p ps ih =>
    cases p with
    | lit s =>
      simp only [clearB, Bool.and_eq_true, Bool.not_eq_true', List.contains_eq_mem, decide_eq_false_iff_not] at h
      exact ⟨h.1.1, h.1.2, ih h.2⟩
    | opt o =>
      simp only [clearB, Bool.and_eq_true, Bool.not_eq_true', List.contains_eq_mem, decide_eq_false_iff_not] at h
      obtain ⟨⟨⟨⟨h1, h2⟩, h3⟩, h4⟩, h5⟩ := h
      refine ⟨h1, h2, h3, ?_, ih h5⟩
      split at h4
      · rename_i c s ps' d hd
        simp only [Bool.and_eq_true, bne_iff_ne, ne_eq] at h4
        exact ⟨c, s, ps', rfl, h4.1, d, hd, h4.2⟩
      · simp at h4
    | alt ss =>
      simp only [clearB, Bool.and_eq_true, List.all_eq_true, Bool.not_eq_true', List.contains_eq_mem,
        decide_eq_false_iff_not, Bool.or_eq_true, beq_iff_eq] at h
      obtain ⟨⟨⟨⟨h1, h2⟩, h3⟩, h4⟩, h5⟩ := h
      refine ⟨by simpa using h1, fun s hs => ?_, fun a ha b hb hp => ?_, fun s hs => by simpa using h4 s hs, ih h5⟩
      · obtain ⟨⟨⟨a, b⟩, c⟩, d⟩ := h2 s hs
        exact ⟨a, b, c, d⟩
      · rcases h3 a ha b hb with h | h
        · rw [← List.isPrefixOf_iff_prefix, h] at hp; simp at hp
        · exact h

def goodB : Kind → Bool
  | .exact ps => clearB ps && (match (spell ps).getLast? with
      | some c => c != chr% ':' && c != chr% '<' && c != chr% '='
      | none => false) && ps.all (fun p => p != .lit [])
  | .sep _ => true
  | .joinedLt _ => true
  | .joinedEq p => p.getLast? == some (chr% '=')

theorem goodB_sound (k : Kind) (h : goodB k = true) : Kind.Good k := by
  cases k with
  | exact ps =>
    simp only [goodB, Bool.and_eq_true, List.all_eq_true, bne_iff_ne] at h
    obtain ⟨⟨h1, h2⟩, h3⟩ := h
    refine ⟨⟨clearB_sound ps h1, ?_⟩, fun qs hq p hp => ?_⟩
    · split at h2
      · rename_i c hc
        simp only [Bool.and_eq_true, bne_iff_ne, ne_eq] at h2
        exact ⟨c, hc, h2.1.1, h2.1.2, h2.2⟩
      · simp at h2
    · simp only [Kind.exact.injEq] at hq
      subst hq
      exact h3 p hp
  | sep p => exact ⟨trivial, fun ps h => by simp at h⟩
  | joinedLt p => exact ⟨trivial, fun ps h => by simp at h⟩
  | joinedEq p => exact ⟨by simpa [goodB, Kind.WF] using h, fun ps h => by simp at h⟩

theorem driver_good : ∀ k ∈ driverKinds, Kind.Good k := by
  intro k hk
  apply goodB_sound
  have : driverKinds.all goodB = true := by decide +kernel
  exact List.all_eq_true.1 this k hk

theorem noRaw_of_chars {k : Kind} {arg : Bytes} (h1 : chr% '[' ∉ arg) (h2 : chr% '{' ∉ arg) : NoRaw k arg := by
  intro ps hps h
  clear hps
  induction h with
  | nil => exact .nil
  | lit _ ih => exact .lit (ih (fun h => h1 (by simp [h])) (fun h => h2 (by simp [h])))
  | optIn _ ih => exact .optIn (ih (fun h => h1 (by simp [h])) (fun h => h2 (by simp [h])))
  | optOut _ ih => exact .optOut (ih h1 h2)
  | alt hs _ ih => exact .alt hs (ih (fun h => h1 (by simp [h])) (fun h => h2 (by simp [h])))
  | optRaw _ _ => exact absurd (by simp) h1
  | altRaw _ _ => exact absurd (by simp) h2

/-- The hypotheses of `C15_dispatch_partial` are met by an ordinary command line, with this result. -/
example : (∀ a ∈ [str% "-c", str% "-Iinc", str% "-o", str% "x.o", str% "x.c"], ∀ k ∈ driverKinds, NoRaw k a) ∧
    parseArgs driverRules (fun _ _ => 0) 6 [str% "-c", str% "-Iinc", str% "-o", str% "x.o", str% "x.c"] =
      some ([(2, str% "-c"), (23, str% "inc"), (22, str% "x.o"), (45, str% "x.c")], 0) := by
  refine ⟨?_, by decide +kernel⟩
  intro a ha k _
  simp only [List.mem_cons, List.not_mem_nil, or_false] at ha
  rcases ha with rfl | rfl | rfl | rfl | rfl <;> exact noRaw_of_chars (by decide) (by decide)

/-- Strings of an exact option, as a list (no brackets). -/
def strings : List Piece → List Bytes
  | [] => [[]]
  | .lit s :: ps => (strings ps).map (s ++ ·)
  | .opt s :: ps => (strings ps).map (s ++ ·) ++ strings ps
  | .alt ss :: ps => ss.flatMap fun s => (strings ps).map (s ++ ·)

theorem mem_strings {ps : List Piece} {a : Bytes} (h : Lang false ps a) : a ∈ strings ps := by
  generalize hr : false = raw at h
  induction h with
  | nil => simp [strings]
  | lit _ ih => simp [strings, ih]
  | optIn _ ih => simp [strings, ih]
  | optOut _ ih => simp [strings, ih]
  | alt hs _ ih =>
    simp only [strings, List.mem_flatMap, List.mem_map]
    exact ⟨_, hs, _, ih, rfl⟩
  | optRaw h => simp_all
  | altRaw h => simp_all

/-- Prefix of an option with a value. -/
def prefixOf : Kind → Option Bytes
  | .exact _ => none
  | .sep p => some p
  | .joinedLt p => some p
  | .joinedEq p => some p

def exactOf : Kind → List Bytes
  | .exact ps => strings ps
  | _ => []

def isLt : Kind → Bool
  | .joinedLt _ => true
  | _ => false

/-- The later option can be told from the earlier one by its beginning. -/
def apart (earlier later : Kind) : Bool :=
  match prefixOf later, prefixOf earlier with
  | none, none => (exactOf later).all fun a => !(exactOf earlier).contains a
  | none, some q => (exactOf later).all fun a => !q.isPrefixOf a
  | some p, none => (exactOf earlier).all fun a => !p.isPrefixOf a || (a == p && isLt later)
  | some p, some q => !p.isPrefixOf q && !q.isPrefixOf p

theorem prefix_of_append {p q a : Bytes} (h : q <+: p ++ a) : p <+: q ∨ q <+: p := by
  rcases List.prefix_or_prefix_of_prefix h (List.prefix_append p a) with h | h
  · exact .inr h
  · exact .inl h

theorem takes_prefix {k : Kind} {arg : Bytes} {more : List Bytes} {p : Bytes} (hp : prefixOf k = some p)
    (h : (∃ t u, k.Takes arg more t u) ∨ k.Lacks arg more) : p <+: arg := by
  cases k with
  | exact ps => simp [prefixOf] at hp
  | sep q =>
    simp only [prefixOf, Option.some.injEq] at hp
    subst hp
    rcases h with ⟨t, u, ⟨_, h, _⟩ | ⟨h, _⟩⟩ | ⟨h, _⟩
    · exact ⟨t, h.symm⟩
    · exact ⟨[], by simp [h]⟩
    · exact ⟨[], by simp [h]⟩
  | joinedLt q =>
    simp only [prefixOf, Option.some.injEq] at hp
    subst hp
    rcases h with ⟨t, u, _, h, _⟩ | h
    · exact ⟨t, h.symm⟩
    · exact ⟨[], by simpa using (show arg = q from h).symm⟩
  | joinedEq q =>
    simp only [prefixOf, Option.some.injEq] at hp
    subst hp
    rcases h with ⟨t, u, _, h, _⟩ | h
    · exact ⟨t, h.symm⟩
    · exact ⟨[], by simpa using (show arg = q from h).symm⟩

theorem apart_sound {e l : Kind} (h : apart e l = true) {arg : Bytes} {more : List Bytes} {t : Bytes} {u : Nat}
    (ht : l.Takes arg more t u) : e.Ignores arg more := by
  have main : ¬ ((∃ t u, e.Takes arg more t u) ∨ e.Lacks arg more) := by
    intro he
    cases hl : prefixOf l with
    | none =>
      cases l with
      | exact ps =>
        have ha := mem_strings ht.1
        cases hq : prefixOf e with
        | none =>
          cases e with
          | exact qs =>
            rcases he with ⟨_, _, he⟩ | he
            · have hb := mem_strings he.1
              simp only [apart, prefixOf, exactOf, List.all_eq_true, Bool.not_eq_true', List.contains_eq_mem,
                decide_eq_false_iff_not] at h
              exact h _ ha hb
            · exact he
          | sep q => simp [prefixOf] at hq
          | joinedLt q => simp [prefixOf] at hq
          | joinedEq q => simp [prefixOf] at hq
        | some q =>
          have hp := takes_prefix hq he
          have : (strings ps).all (fun a => !q.isPrefixOf a) = true := by
            simpa only [apart, hl, hq, exactOf] using h
          have := List.all_eq_true.1 this _ ha
          rw [← List.isPrefixOf_iff_prefix] at hp
          simp [hp] at this
      | sep q => simp [prefixOf] at hl
      | joinedLt q => simp [prefixOf] at hl
      | joinedEq q => simp [prefixOf] at hl
    | some p =>
      have hp := takes_prefix hl (.inl ⟨t, u, ht⟩)
      cases hq : prefixOf e with
      | none =>
        cases e with
        | exact qs =>
          rcases he with ⟨_, _, he⟩ | he
          · have hb := mem_strings he.1
            have hall : (strings qs).all (fun a => !p.isPrefixOf a ||
                (a == p && isLt l)) = true := by
              simpa only [apart, hl, hq, exactOf] using h
            have := List.all_eq_true.1 hall _ hb
            rw [← List.isPrefixOf_iff_prefix] at hp
            simp only [hp, Bool.not_true, Bool.false_or, Bool.and_eq_true, beq_iff_eq] at this
            obtain ⟨h1, h2⟩ := this
            cases l with
            | joinedLt q =>
              simp only [prefixOf, Option.some.injEq] at hl
              subst hl
              obtain ⟨h3, h4, _⟩ := ht
              rw [h1] at h4
              exact h3 (by simpa using h4)
            | exact _ => simp [isLt] at h2
            | sep _ => simp [isLt] at h2
            | joinedEq _ => simp [isLt] at h2
          · exact he
        | sep q => simp [prefixOf] at hq
        | joinedLt q => simp [prefixOf] at hq
        | joinedEq q => simp [prefixOf] at hq
      | some q =>
        have hp' := takes_prefix hq he
        have : (!p.isPrefixOf q && !q.isPrefixOf p) = true := by
          simpa only [apart, hl, hq] using h
        simp only [Bool.and_eq_true, Bool.not_eq_true'] at this
        rcases List.prefix_or_prefix_of_prefix hp hp' with h1 | h1
        · rw [← List.isPrefixOf_iff_prefix] at h1; simp [h1] at this
        · rw [← List.isPrefixOf_iff_prefix] at h1; simp [h1] at this
  exact ⟨fun t u h => main (.inl ⟨t, u, h⟩), fun h => main (.inr h)⟩

/-- Every documented option of the driver, with any value, is decided by its own entry in the table;
the only exception is the entry `-Wl,` (number 37). -/
theorem C15_driver_options_partial (i : Nat) (k : Kind) (hk : driverKinds[i]? = some k) (hi : i ≠ 37)
    {arg : Bytes} {more : List Bytes} {text : Bytes} {used : Nat} (ht : k.Takes arg more text used) :
    Decides driverKinds arg more i k := by
  have hlt : i < driverKinds.length := by
    by_contra hc
    rw [List.getElem?_eq_none (by omega)] at hk
    simp at hk
  have hall : (List.range driverKinds.length).all (fun i => i == 37 || (driverKinds.take i).all fun e =>
      (driverKinds[i]?).all fun l => apart e l) = true := by decide +kernel
  have h1 := List.all_eq_true.1 hall i (by simpa using hlt)
  simp only [Bool.or_eq_true, beq_iff_eq] at h1
  rcases h1 with h1 | h1
  · exact absurd h1 hi
  · have hsplit : driverKinds = driverKinds.take i ++ k :: driverKinds.drop (i + 1) := by
      have : driverKinds[i]'hlt = k := by
        rw [List.getElem?_eq_getElem hlt] at hk
        simpa using hk
      rw [← this, List.getElem_cons_drop, List.take_append_drop]
    have := Decides.mk (ks := driverKinds) (arg := arg) (more := more) hsplit (fun e he => by
      have := List.all_eq_true.1 h1 e he
      rw [hk] at this
      exact apart_sound (by simpa using this) ht)
    simpa [List.length_take, Nat.min_eq_left (Nat.le_of_lt hlt)] using this

/-- `-DX=[1]` (an argument with brackets) is taken by entry 26. -/
example : driverKinds[26]? = some (.sep (str% "-D")) ∧
    (Kind.sep (str% "-D")).Takes (str% "-DX=[1]") [] (str% "X=[1]") 1 :=
  ⟨by decide +kernel, .inl ⟨by decide, rfl, rfl⟩⟩

/-- `-Wl,anything` never reaches the handler for linker options; it is taken as a warning option. -/
theorem C15_linker_options_violated (v : Bytes) (more : List Bytes) :
    findOption driverRules 0 (str% "-Wl," ++ v) more = some (some (7, .call (str% "l," ++ v) 1)) := rfl

/-- The text of a rule itself is accepted as an option. -/
theorem C15_bracket_text_violated :
    findOption driverRules 0 (str% "-f[no-]PIC") [] = some (some (9, .call (str% "-f[no-]PIC") 1)) ∧
    ∀ k ∈ driverKinds, k.Ignores (str% "-f[no-]PIC") [] := by
  refine ⟨by decide +kernel, ?_⟩
  have hb : driverKinds.all (fun k => match k with
    | .exact ps => !(strings ps).contains (str% "-f[no-]PIC")
    | .sep p => !p.isPrefixOf (str% "-f[no-]PIC")
    | .joinedLt p => !p.isPrefixOf (str% "-f[no-]PIC")
    | .joinedEq p => !p.isPrefixOf (str% "-f[no-]PIC")) = true := by decide +kernel
  intro k hk
  have := List.all_eq_true.1 hb k hk
  cases k with
  | exact ps =>
    simp only [Bool.not_eq_true', List.contains_eq_mem, decide_eq_false_iff_not] at this
    exact ⟨fun t u h => this (mem_strings h.1), id⟩
  | sep p =>
    have hn : ¬ p <+: (str% "-f[no-]PIC") := by
      intro h; rw [← List.isPrefixOf_iff_prefix] at h; simp [h] at this
    exact ⟨fun t u h => hn (takes_prefix rfl (.inl ⟨t, u, h⟩)), fun h => hn (takes_prefix rfl (.inr h))⟩
  | joinedLt p =>
    have hn : ¬ p <+: (str% "-f[no-]PIC") := by
      intro h; rw [← List.isPrefixOf_iff_prefix] at h; simp [h] at this
    exact ⟨fun t u h => hn (takes_prefix (more := []) rfl (.inl ⟨t, u, h⟩)),
      fun h => hn (takes_prefix (more := []) rfl (.inr h))⟩
  | joinedEq p =>
    have hn : ¬ p <+: (str% "-f[no-]PIC") := by
      intro h; rw [← List.isPrefixOf_iff_prefix] at h; simp [h] at this
    exact ⟨fun t u h => hn (takes_prefix (more := []) rfl (.inl ⟨t, u, h⟩)),
      fun h => hn (takes_prefix (more := []) rfl (.inr h))⟩

/-! ## C51 -/

/-- Did everything succeed? -/
def Succeeded (args : Int) (files : List Int) (exe : Bool) (ld : LinkerEnd) : Prop :=
  args ≤ 0 ∧ (args = 0 → (∀ f ∈ files, f = 0) ∧ (exe = true → ld = .exited 0))

/-- The exit status is zero exactly on success, provided that error counts and results fit in eight
bits and the linker was started and not killed.  `args < 0` is the result of an option that only prints
something. -/
theorem C51_exit_status_partial (args : Int) (files : List Int) (exe : Bool) (ld : LinkerEnd)
    (ha : args < 256) (hf : ∀ f ∈ files, 0 ≤ f ∧ f < 256) (hl : (∃ c, ld = .exited c) ∨ ld = .forkFailed) :
    exitStatus (mainReturn args files exe ld) = 0 ↔ Succeeded args files exe ld := by
  have hgo : ∀ fs : List Int, (∀ f ∈ fs, 0 ≤ f ∧ f < 256) →
      0 ≤ mainReturn.go exe ld fs ∧ mainReturn.go exe ld fs < 256 ∧
      (mainReturn.go exe ld fs = 0 ↔ (∀ f ∈ fs, f = 0) ∧ (exe = true → ld = .exited 0)) := by
    intro fs
    induction fs with
    | nil =>
      intro _
      rw [mainReturn.go]
      cases exe with
      | false => simp
      | true =>
        simp only [if_true, List.not_mem_nil, false_implies, implies_true, true_and, true_implies]
        rcases hl with ⟨c, rfl⟩ | rfl
        · simp only [invokeLinker, LinkerEnd.exited.injEq]
          refine ⟨by omega, by omega, ?_⟩
          constructor
          · intro h; apply Fin.ext; simpa using h
          · rintro rfl; rfl
        · simp [invokeLinker]
    | cons f fs ih =>
      intro h
      obtain ⟨i1, i2, i3⟩ := ih (fun x hx => h x (by simp [hx]))
      obtain ⟨h1, h2⟩ := h f (by simp)
      rw [mainReturn.go]
      split_ifs with h0
      · refine ⟨h1, h2, ?_⟩
        constructor
        · intro h; exact absurd h h0
        · intro h; exact h.1 f (by simp)
      · refine ⟨i1, i2, i3.trans ?_⟩
        simp only [ne_eq, not_not] at h0
        simp [h0]
  obtain ⟨h1, h2, h3⟩ := hgo files hf
  unfold exitStatus mainReturn Succeeded
  simp only
  by_cases h0 : args = 0
  · subst h0
    simp only [ne_eq, not_true, if_false]
    rw [if_neg (by omega), Int.emod_eq_of_lt h1 h2, h3]
    simp
  · rw [if_pos h0]
    split_ifs with hn
    · simp [h0]; omega
    · rw [Int.emod_eq_of_lt (by omega) ha]
      constructor
      · intro h; exact absurd h h0
      · intro h; omega

example : (0 : Int) < 256 ∧ (∀ f ∈ ([0, 3] : List Int), 0 ≤ f ∧ f < 256) ∧
    exitStatus (mainReturn 0 [0, 3] true (.exited 0)) = 3 := by
  refine ⟨by decide, ?_, by decide⟩
  intro f hf; simp at hf; rcases hf with rfl | rfl <;> decide

/-- 256 errors in a file: status 0. -/
theorem C51_error_count_violated :
    exitStatus (mainReturn 0 [256] false (.exited 0)) = 0 ∧ ¬ Succeeded 0 [256] false (.exited 0) := by
  refine ⟨by decide, fun h => ?_⟩
  have := (h.2 rfl).1 256 (by simp)
  simp at this

/-- The linker cannot be started: status 0. -/
theorem C51_linker_missing_violated :
    exitStatus (mainReturn 0 [0] true .execFailed) = 0 ∧ ¬ Succeeded 0 [0] true .execFailed := by
  refine ⟨by decide, fun h => ?_⟩
  have := (h.2 rfl).2 rfl
  simp at this

/-- The linker is killed by a signal: status 0. -/
theorem C51_linker_killed_violated (s : Nat) :
    exitStatus (mainReturn 0 [0] true (.killed s)) = 0 ∧ ¬ Succeeded 0 [0] true (.killed s) := by
  refine ⟨rfl, fun h => ?_⟩
  have := (h.2 rfl).2 rfl
  simp at this

/-! ## C52 -/

/-- `base` is the last component of the path, without its last suffix. -/
def Stem (file stem : Bytes) : Prop :=
  ∃ dir name, file = dir ++ name ∧ (dir = [] ∨ dir.getLast? = some (chr% '/')) ∧ chr% '/' ∉ name ∧
    ((chr% '.' ∉ name ∧ stem = name) ∨ ∃ ext, name = stem ++ chr% '.' :: ext ∧ chr% '.' ∉ ext)

theorem lastPos_none {c : UInt8} {p : Bytes} : lastPos c p = none ↔ c ∉ p := by
  induction p with
  | nil => simp [lastPos]
  | cons b r ih =>
    rw [lastPos]
    cases h : lastPos c r with
    | none =>
      have := ih.1 h
      by_cases hb : b = c <;> simp [hb, this]
      exact fun h => hb h.symm
    | some i =>
      have : c ∈ r := by by_contra hc; rw [ih.2 hc] at h; simp at h
      simp [this]

theorem lastPos_some {c : UInt8} {p : Bytes} {i : Nat} (h : lastPos c p = some i) :
    p = p.take i ++ c :: p.drop (i + 1) ∧ c ∉ p.drop (i + 1) := by
  induction p generalizing i with
  | nil => simp [lastPos] at h
  | cons b r ih =>
    rw [lastPos] at h
    cases hr : lastPos c r with
    | none =>
      rw [hr] at h
      simp only at h
      split_ifs at h with hb
      simp only [Option.some.injEq] at h
      subst h; subst hb
      exact ⟨rfl, lastPos_none.1 hr⟩
    | some j =>
      rw [hr] at h
      simp only [Option.some.injEq] at h
      subst h
      obtain ⟨h1, h2⟩ := ih hr
      refine ⟨?_, by simpa using h2⟩
      simp only [List.take_succ_cons, List.drop_succ_cons, List.cons_append]
      rw [← h1]

/-- The default output name is the stem of the input with the new suffix. -/
theorem C52_output_name (file suffix : Bytes) :
    ∃ stem, Stem file stem ∧ changeSuffix file suffix = stem ++ suffix := by
  have stem : ∀ dir name : Bytes, file = dir ++ name → (dir = [] ∨ dir.getLast? = some (chr% '/')) →
      chr% '/' ∉ name →
      Stem file (name.take ((lastPos (chr% '.') name).getD name.length)) := by
    intro dir name h1 h2 h3
    refine ⟨dir, name, h1, h2, h3, ?_⟩
    cases hd : lastPos (chr% '.') name with
    | none => exact .inl ⟨lastPos_none.1 hd, by simp⟩
    | some i =>
      obtain ⟨h4, h5⟩ := lastPos_some hd
      exact .inr ⟨_, h4, h5⟩
  unfold changeSuffix
  cases hs : lastPos (chr% '/') file with
  | none => exact ⟨_, stem [] file rfl (.inl rfl) (lastPos_none.1 hs), rfl⟩
  | some i =>
    obtain ⟨h1, h2⟩ := lastPos_some hs
    exact ⟨_, stem (file.take i ++ [chr% '/']) (file.drop (i + 1)) (by simpa using h1)
      (.inr (by simp)) h2, rfl⟩

example : changeSuffix (str% "src.d/a.b.c") (str% ".o") = str% "a.b.o" ∧ Stem (str% "src.d/a.b.c") (str% "a.b") :=
  ⟨by decide, str% "src.d/", str% "a.b.c", rfl, .inr (by decide), by decide, .inr ⟨str% "c", rfl, by decide⟩⟩

/-- The stem is determined by the input name. -/
theorem C52_stem_unique (file a b : Bytes) (ha : Stem file a) (hb : Stem file b) : a = b := by
  have split : ∀ {c : UInt8} {x y x' y' : Bytes}, x ++ c :: y = x' ++ c :: y' → c ∉ y → c ∉ y' → x = x' ∧ y = y' := by
    intro c x y x' y' h h1 h2
    rw [List.append_eq_append_iff] at h
    rcases h with ⟨z, h3, h4⟩ | ⟨z, h3, h4⟩
    · cases z with
      | nil => simp at h3 h4; exact ⟨h3.symm, h4⟩
      | cons w z =>
        simp only [List.cons_append, List.cons.injEq] at h4
        exact absurd (by rw [h4.2]; simp) h1
    · cases z with
      | nil => simp at h3 h4; exact ⟨h3, h4.symm⟩
      | cons w z =>
        simp only [List.cons_append, List.cons.injEq] at h4
        exact absurd (by rw [h4.2]; simp) h2
  obtain ⟨d, n, h1, h2, h3, h4⟩ := ha
  obtain ⟨d', n', h1', h2', h3', h4'⟩ := hb
  have hn : n = n' := by
    have hdir : ∀ {d : Bytes}, d ≠ [] → d.getLast? = some (chr% '/') → ∃ x, d = x ++ [chr% '/'] := by
      intro d _ h
      rw [List.getLast?_eq_some_iff] at h
      exact h
    rcases h2 with rfl | h2 <;> rcases h2' with rfl | h2'
    · simpa using h1.symm.trans h1'
    · obtain ⟨x, rfl⟩ := List.getLast?_eq_some_iff.1 h2'
      simp only [List.nil_append] at h1
      rw [h1] at h1'
      exact absurd (by rw [h1']; simp) h3
    · obtain ⟨x, rfl⟩ := List.getLast?_eq_some_iff.1 h2
      simp only [List.nil_append] at h1'
      rw [h1'] at h1
      exact absurd (by rw [h1]; simp) h3'
    · obtain ⟨x, rfl⟩ := List.getLast?_eq_some_iff.1 h2
      obtain ⟨x', rfl⟩ := List.getLast?_eq_some_iff.1 h2'
      rw [h1] at h1'
      simp only [List.append_assoc, List.singleton_append] at h1'
      exact (split h1' h3 h3').2
  subst hn
  rcases h4 with ⟨h5, rfl⟩ | ⟨e, h5, h6⟩ <;> rcases h4' with ⟨h5', rfl⟩ | ⟨e', h5', h6'⟩
  · rfl
  · exact absurd (by rw [h5']; simp) h5
  · exact absurd (by rw [h5]; simp) h5'
  · rw [h5] at h5'
    exact (split h5' h6 h6').1

/-! ## C69 -/

/-- `-Dname=text` is `#define name text`; `-Dname` is `#define name 1`. -/
theorem C69_define_option (name text : Bytes) (hn : chr% '=' ∉ name) :
    defineMacro (name ++ chr% '=' :: text) = str% "#define " ++ name ++ chr% ' ' :: text ∧
    defineMacro name = str% "#define " ++ name ++ str% " 1" := by
  have h1 : ∀ (n t : Bytes), chr% '=' ∉ n → firstPos (chr% '=') (n ++ chr% '=' :: t) = some n.length := by
    intro n
    induction n with
    | nil => intro t _; simp [firstPos]
    | cons c n ih =>
      intro t h
      simp only [List.mem_cons, not_or] at h
      rw [List.cons_append, firstPos, if_neg (fun h' => h.1 h'.symm), ih t h.2]
      rfl
  have h2 : ∀ (n : Bytes), chr% '=' ∉ n → firstPos (chr% '=') n = none := by
    intro n
    induction n with
    | nil => intro _; rfl
    | cons c n ih =>
      intro h
      simp only [List.mem_cons, not_or] at h
      rw [firstPos, if_neg (fun h' => h.1 h'.symm), ih h.2]
      rfl
  refine ⟨?_, by rw [defineMacro, h2 name hn]⟩
  rw [defineMacro, h1 name text hn]
  simp only
  rw [← List.append_assoc, show (8 : Nat) = (str% "#define ").length from rfl, ← List.length_append,
    List.set_append_right _ _ (by omega), Nat.sub_self]
  rfl

example : chr% '=' ∉ str% "X" ∧ defineMacro (str% "X=a=b") = str% "#define X a=b" := by decide

end Verif.Driver
