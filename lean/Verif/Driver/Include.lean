import Verif.Tac
import Verif.Bytes
/-!
# Model: locating include files

src/preprocessor/input.c: `path_dirlen` 119-123, `create_path` 125-141, `include_file` 143-170,
`include_system_file` 172-202, `inject_include_files` 222-240, `set_input_file` 242-280.  The file
system is the predicate `opens` (`fopen(path, "r")` succeeds).  Strings are byte lists without the final
NUL; the buffer of `create_path` is a value.
-/
namespace Verif.Driver

/-- What an include directive leads to. -/
inductive Found where
  | file (path : Bytes)
  | notFound
  /-- failed assertion or read before the start of a string -/
  | ub
  deriving DecidableEq, Repr

/-- Position of the last `/`. -/
def strrchr (c : UInt8) : Bytes → Option Nat
  | [] => none
  | b :: r =>
    match strrchr c r with
    | some i => some (i + 1)
    | none => if b = c then some 0 else none

/-- `path_dirlen`, input.c:119-123; `set_input_file` computes the same. -/
def pathDirlen (path : Bytes) : Nat := (strrchr (chr% '/') path).getD 0

/-- `create_path`, input.c:125-141. -/
def createPath (path : Bytes) (dirlen : Nat) (name : Bytes) : Bytes :=
  path.take dirlen ++ chr% '/' :: name

/-- The loop removing trailing slashes, input.c:182-185, from length `dirlen` on. -/
def trimSlashes (path : Bytes) : Nat → Option Nat
  | 0 => none
  | n + 1 =>
    match path[n]? with
    | none => none
    | some b => if b = chr% '/' then trimSlashes path n else some (n + 1)

/-- `include_system_file`, input.c:172-202. -/
def includeSystem (opens : Bytes → Bool) (name : Bytes) : List Bytes → Found
  | [] => .notFound
  | dir :: dirs =>
    match trimSlashes dir dir.length with
    | none => .ub
    | some n =>
      let path := createPath dir n name
      if opens path then .file path else includeSystem opens name dirs

/-- `include_file`, input.c:143-170; `current` is the path of the including file. -/
def includeFile (opens : Bytes → Bool) (dirs : List Bytes) (current name : Bytes) : Found :=
  let path :=
    if pathDirlen current ≠ 0 && name.head? ≠ some (chr% '/') then
      createPath current (pathDirlen current) name
    else name
  if opens path then .file path else includeSystem opens name dirs

/-- `inject_include_files`, input.c:222-240: the stack of files, next to be read first.  The list is
walked from its end. -/
def injectFiles (opens : Bytes → Bool) (dirs : List Bytes) : List Bytes → List Bytes → Option (List Bytes)
  | [], stack => some stack
  | f :: rest, stack =>
    -- the files after `f` are pushed first
    match injectFiles opens dirs rest stack with
    | none => none
    | some st =>
      if opens f then some (f :: st)
      else
        match includeSystem opens f dirs with
        | .file p => some (p :: st)
        | _ => none

/-! ## Specification -/
namespace Spec

/-- `d` is the directory part of the file name `p`. -/
def DirOf (p d : Bytes) : Prop := ∃ base, p = d ++ chr% '/' :: base ∧ chr% '/' ∉ base

/-- `c` is how `name` is called when looked up next to the file `p`. -/
def NextTo (p name c : Bytes) : Prop :=
  (name.head? = some (chr% '/') ∧ c = name) ∨
  (name.head? ≠ some (chr% '/') ∧ chr% '/' ∉ p ∧ c = name) ∨
  (name.head? ≠ some (chr% '/') ∧ ∃ d, DirOf p d ∧ c = d ++ chr% '/' :: name)

/-- `c` is the name of the file `name` in the directory `dir`, written without doubled slashes. -/
def InDir (dir name c : Bytes) : Prop :=
  ∃ d k, dir = d ++ List.replicate k (chr% '/') ∧ d.getLast? ≠ some (chr% '/') ∧ c = d ++ chr% '/' :: name

/-- First of the candidates that exists. -/
def First (opens : Bytes → Bool) (cands : List Bytes) (r : Found) : Prop :=
  (∃ l c l', cands = l ++ c :: l' ∧ (∀ x ∈ l, opens x = false) ∧ opens c = true ∧ r = .file c) ∨
  ((∀ x ∈ cands, opens x = false) ∧ r = .notFound)

/-- Candidates in a list of directories. -/
inductive InDirs (name : Bytes) : List Bytes → List Bytes → Prop
  | nil : InDirs name [] []
  | cons {dir dirs c cs} : InDir dir name c → InDirs name dirs cs → InDirs name (dir :: dirs) (c :: cs)

end Spec

/-! ## Lemmas -/
open Spec

theorem strrchr_none {c : UInt8} {p : Bytes} : strrchr c p = none ↔ c ∉ p := by
  induction p with
  | nil => simp [strrchr]
  | cons b r ih =>
    rw [strrchr]
    cases h : strrchr c r with
    | none =>
      have := ih.1 h
      by_cases hb : b = c <;> simp [hb, this]
      exact fun h => hb h.symm
    | some i =>
      have : c ∈ r := by by_contra hc; rw [ih.2 hc] at h; simp at h
      simp [this]

theorem strrchr_some {c : UInt8} {p : Bytes} {i : Nat} (h : strrchr c p = some i) :
    ∃ base, p = p.take i ++ c :: base ∧ c ∉ base := by
  induction p generalizing i with
  | nil => simp [strrchr] at h
  | cons b r ih =>
    rw [strrchr] at h
    cases hr : strrchr c r with
    | none =>
      rw [hr] at h
      simp only at h
      split_ifs at h with hb
      simp only [Option.some.injEq] at h
      subst h; subst hb
      exact ⟨r, rfl, strrchr_none.1 hr⟩
    | some j =>
      rw [hr] at h
      simp only [Option.some.injEq] at h
      subst h
      obtain ⟨base, h1, h2⟩ := ih hr
      exact ⟨base, by simpa using h1, h2⟩

theorem trim_spec (path : Bytes) : ∀ n, n ≤ path.length → ∀ m, trimSlashes path n = some m →
    path.take n = path.take m ++ List.replicate (n - m) (chr% '/') ∧
      (path.take m).getLast? ≠ some (chr% '/') := by
  intro n
  induction n with
  | zero => intro _ m h; simp [trimSlashes] at h
  | succ n ih =>
    intro hn m h
    rw [trimSlashes, List.getElem?_eq_getElem (by omega)] at h
    simp only at h
    split_ifs at h with hb
    · obtain ⟨h1, h2⟩ := ih (by omega) m h
      refine ⟨?_, h2⟩
      have hm : m ≤ n := by
        clear h1 h2 ih hb
        revert m
        clear hn
        induction n with
        | zero => intro m h; simp [trimSlashes] at h
        | succ n ih =>
          intro m h
          rw [trimSlashes] at h
          cases hg : path[n]? with
          | none => simp [hg] at h
          | some b =>
            rw [hg] at h
            simp only at h
            split_ifs at h
            · have := ih m h; omega
            · simp at h; omega
      rw [List.take_succ_eq_append_getElem (by omega), h1, hb, show n + 1 - m = (n - m) + 1 by omega,
        List.append_assoc, List.replicate_succ']
    · simp only [Option.some.injEq] at h
      subst h
      refine ⟨by simp, ?_⟩
      have e := List.take_succ_eq_append_getElem (l := path) (i := n) (by omega)
      rw [e, List.getLast?_concat]
      simpa using hb

theorem trim_some (path : Bytes) : ∀ n, n ≤ path.length → (∃ b ∈ path.take n, b ≠ chr% '/') →
    ∃ m, trimSlashes path n = some m := by
  intro n
  induction n with
  | zero => intro _ ⟨b, hb, _⟩; simp at hb
  | succ n ih =>
    intro hn ⟨b, hb, hne⟩
    rw [trimSlashes, List.getElem?_eq_getElem (by omega)]
    simp only
    split_ifs with h
    · apply ih (by omega)
      rw [List.take_succ_eq_append_getElem (by omega)] at hb
      simp only [List.mem_append, List.mem_singleton] at hb
      rcases hb with hb | hb
      · exact ⟨b, hb, hne⟩
      · exact absurd (hb.trans h) hne
    · exact ⟨_, rfl⟩

theorem inDir_exists {dir : Bytes} (h : ∃ b ∈ dir, b ≠ chr% '/') (name : Bytes) :
    ∃ m, trimSlashes dir dir.length = some m ∧ InDir dir name (createPath dir m name) := by
  obtain ⟨m, hm⟩ := trim_some dir dir.length (by omega) (by simpa using h)
  obtain ⟨h1, h2⟩ := trim_spec dir dir.length (by omega) m hm
  exact ⟨m, hm, dir.take m, _, by simpa using h1, h2, rfl⟩

theorem first_cons {opens : Bytes → Bool} {c : Bytes} {cs : List Bytes} {r : Found}
    (h : First opens cs r) : First opens (c :: cs) (if opens c then .file c else r) := by
  cases hc : opens c with
  | true => exact .inl ⟨[], c, cs, rfl, by simp, hc, by simp⟩
  | false =>
    rcases h with ⟨l, x, l', h1, h2, h3, h4⟩ | ⟨h1, h2⟩
    · refine .inl ⟨c :: l, x, l', by rw [h1]; rfl, ?_, h3, by simpa using h4⟩
      intro y hy
      simp only [List.mem_cons] at hy
      rcases hy with rfl | hy
      · exact hc
      · exact h2 y hy
    · refine .inr ⟨?_, by simpa using h2⟩
      intro y hy
      simp only [List.mem_cons] at hy
      rcases hy with rfl | hy
      · exact hc
      · exact h1 y hy

theorem includeSystem_first (opens : Bytes → Bool) (name : Bytes) (dirs : List Bytes)
    (h : ∀ d ∈ dirs, ∃ b ∈ d, b ≠ chr% '/') :
    ∃ cs, InDirs name dirs cs ∧ First opens cs (includeSystem opens name dirs) := by
  induction dirs with
  | nil => exact ⟨[], .nil, .inr ⟨by simp, rfl⟩⟩
  | cons d dirs ih =>
    obtain ⟨cs, h1, h2⟩ := ih (fun x hx => h x (by simp [hx]))
    obtain ⟨m, h3, h4⟩ := inDir_exists (h d (by simp)) name
    refine ⟨_, .cons h4 h1, ?_⟩
    rw [includeSystem, h3]
    exact first_cons h2

theorem DirOf.unique {p d e : Bytes} (h1 : DirOf p d) (h2 : DirOf p e) : d = e := by
  obtain ⟨b, rfl, hb⟩ := h1
  obtain ⟨c, h, hc⟩ := h2
  rw [List.append_eq_append_iff] at h
  rcases h with ⟨x, h3, h4⟩ | ⟨x, h3, h4⟩
  · cases x with
    | nil => simpa using h3.symm
    | cons y x =>
      simp only [List.cons_append, List.cons.injEq] at h4
      exact absurd (by rw [h4.2]; simp) hb
  · cases x with
    | nil => simpa using h3
    | cons y x =>
      simp only [List.cons_append, List.cons.injEq] at h4
      exact absurd (by rw [h4.2]; simp) hc

theorem NextTo.unique {p n a b : Bytes} (h1 : NextTo p n a) (h2 : NextTo p n b) : a = b := by
  have mem : ∀ d, DirOf p d → chr% '/' ∈ p := by rintro d ⟨x, rfl, _⟩; simp
  rcases h1 with ⟨x, rfl⟩ | ⟨x, y, rfl⟩ | ⟨x, d, y, rfl⟩ <;>
    rcases h2 with ⟨x', rfl⟩ | ⟨x', y', rfl⟩ | ⟨x', d', y', rfl⟩
  all_goals first
    | rfl
    | exact absurd x x'
    | exact absurd x' x
    | exact absurd (mem _ ‹DirOf _ _›) ‹_ ∉ _›
    | rw [DirOf.unique y y']

theorem InDir.unique {d n a b : Bytes} (h1 : InDir d n a) (h2 : InDir d n b) : a = b := by
  obtain ⟨x, k, e1, e2, rfl⟩ := h1
  obtain ⟨y, j, e3, e4, rfl⟩ := h2
  rw [e1] at e3
  have : x = y := by
    clear e1
    induction k generalizing j with
    | zero =>
      cases j with
      | zero => simpa using e3
      | succ j =>
        rw [List.replicate_succ', List.replicate_zero, List.append_nil] at e3
        rw [e3, ← List.append_assoc] at e2
        simp at e2
    | succ k ih =>
      cases j with
      | zero =>
        rw [List.replicate_succ', List.replicate_zero, List.append_nil] at e3
        rw [← e3, ← List.append_assoc] at e4
        simp at e4
      | succ j =>
        rw [List.replicate_succ', List.replicate_succ', ← List.append_assoc, ← List.append_assoc] at e3
        have := List.append_cancel_right e3
        exact ih _ this
  rw [this]

end Verif.Driver
