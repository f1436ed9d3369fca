import Verif.Driver.Include
/-! # C14: include files are found in the documented order -/
namespace Verif.Driver
open Spec

/-- A quoted include is looked up next to the including file, then in the directories in order; the
first file that exists is taken, and only when there is none the include fails.  Missing: a file in the
root directory, and search paths that are empty or `/`. -/
theorem C14_quoted_partial (opens : Bytes → Bool) (dirs : List Bytes) (current name : Bytes)
    (hroot : ¬ DirOf current []) (hd : ∀ d ∈ dirs, ∃ b ∈ d, b ≠ chr% '/') :
    ∃ c cs, NextTo current name c ∧ InDirs name dirs cs ∧
      First opens (c :: cs) (includeFile opens dirs current name) := by
  obtain ⟨cs, h1, h2⟩ := includeSystem_first opens name dirs hd
  unfold includeFile
  refine ⟨_, cs, ?_, h1, first_cons h2⟩
  by_cases hn : name.head? = some (chr% '/')
  · exact .inl ⟨hn, by simp [hn]⟩
  · cases hs : strrchr (chr% '/') current with
    | none => exact .inr (.inl ⟨hn, strrchr_none.1 hs, by simp [pathDirlen, hs]⟩)
    | some i =>
      obtain ⟨base, h3, h4⟩ := strrchr_some hs
      have hi : i ≠ 0 := by
        rintro rfl
        exact hroot ⟨base, by simpa using h3, h4⟩
      refine .inr (.inr ⟨hn, current.take i, ⟨base, h3, h4⟩, ?_⟩)
      simp [pathDirlen, hs, hi, hn, createPath]

/-- An include in angle brackets is looked up in the directories only. -/
theorem C14_angled_partial (opens : Bytes → Bool) (dirs : List Bytes) (name : Bytes)
    (hd : ∀ d ∈ dirs, ∃ b ∈ d, b ≠ chr% '/') :
    ∃ cs, InDirs name dirs cs ∧ First opens cs (includeSystem opens name dirs) :=
  includeSystem_first opens name dirs hd

example : ¬ DirOf (str% "src/a.c") [] ∧ (∀ d ∈ [str% "inc//", str% "/usr"], ∃ b ∈ d, b ≠ chr% '/') ∧
    includeFile (fun p => p = str% "inc/x.h") [str% "inc//", str% "/usr"] (str% "src/a.c") (str% "x.h") =
      .file (str% "inc/x.h") := by
  refine ⟨?_, ?_, by decide⟩
  · rintro ⟨b, h, -⟩
    simp at h
  · intro d hd
    simp only [List.mem_cons, List.not_mem_nil, or_false] at hd
    rcases hd with rfl | rfl
    · exact ⟨chr% 'i', by decide, by decide⟩
    · exact ⟨chr% 'u', by decide, by decide⟩

/-- The candidate next to the including file, and in a directory, is unique. -/
theorem C14_candidates_unique (p n a b d : Bytes) :
    (NextTo p n a → NextTo p n b → a = b) ∧ (InDir d n a → InDir d n b → a = b) :=
  ⟨fun h1 h2 => NextTo.unique h1 h2, fun h1 h2 => InDir.unique h1 h2⟩

/-- Files given with `-include` are read in the order of the command line, before the source file. -/
theorem C14_injected_in_order (opens : Bytes → Bool) (dirs files stack st : List Bytes)
    (h : injectFiles opens dirs files stack = some st) :
    ∃ ps, st = ps ++ stack ∧ ps.length = files.length ∧
      ∀ (i : Nat) f p, files[i]? = some f → ps[i]? = some p →
        (opens f = true ∧ p = f) ∨ (opens f = false ∧ includeSystem opens f dirs = .file p) := by
  induction files generalizing st with
  | nil =>
    simp only [injectFiles, Option.some.injEq] at h
    exact ⟨[], by simp [h], rfl, by simp⟩
  | cons f fs ih =>
    rw [injectFiles] at h
    cases hr : injectFiles opens dirs fs stack with
    | none => simp [hr] at h
    | some st' =>
      obtain ⟨ps, h1, h2, h3⟩ := ih st' hr
      rw [hr] at h
      simp only at h
      have step : ∀ p, st = p :: st' → ((opens f = true ∧ p = f) ∨
          (opens f = false ∧ includeSystem opens f dirs = .file p)) → ∃ ps, st = ps ++ stack ∧
          ps.length = (f :: fs).length ∧ ∀ (i : Nat) g q, (f :: fs)[i]? = some g → ps[i]? = some q →
          (opens g = true ∧ q = g) ∨ (opens g = false ∧ includeSystem opens g dirs = .file q) := by
        intro p hp hc
        refine ⟨p :: ps, by rw [hp, h1]; rfl, by simp [h2], ?_⟩
        intro i g q hg hq
        cases i with
        | zero =>
          simp only [List.getElem?_cons_zero, Option.some.injEq] at hg hq
          subst hg; subst hq
          exact hc
        | succ i =>
          simp only [List.getElem?_cons_succ] at hg hq
          exact h3 i g q hg hq
      cases ho : opens f with
      | true =>
        rw [ho] at h
        simp only [if_true, Option.some.injEq] at h
        exact step f h.symm (.inl ⟨ho, rfl⟩)
      | false =>
        rw [ho] at h
        simp only [Bool.false_eq_true, if_false] at h
        cases hs : includeSystem opens f dirs with
        | file p =>
          rw [hs] at h
          simp only [Option.some.injEq] at h
          exact step p h.symm (.inr ⟨ho, hs⟩)
        | notFound => simp [hs] at h
        | ub => simp [hs] at h

example : injectFiles (fun p => p = str% "a.h" || p = str% "i/b.h") [str% "i"] [str% "a.h", str% "b.h"] [str% "m.c"] =
    some [str% "a.h", str% "i/b.h", str% "m.c"] := by decide

/-- A source file in the root directory: the include is looked up in the working directory. -/
theorem C14_root_directory_violated :
    includeFile (fun p => p = str% "/b.h" || p = str% "b.h") [] (str% "/a.c") (str% "b.h") = .file (str% "b.h") ∧
    NextTo (str% "/a.c") (str% "b.h") (str% "/b.h") := by
  refine ⟨by decide, .inr (.inr ⟨by decide, [], ⟨str% "a.c", rfl, by decide⟩, rfl⟩)⟩

/-- `-I/`: no length is left for the directory, assertion failure (without assertions, a read before
the string). -/
theorem C14_root_search_path_violated :
    includeSystem (fun p => p = str% "/b.h") (str% "b.h") [str% "/"] = .ub ∧
    InDir (str% "/") (str% "b.h") (str% "/b.h") := by
  refine ⟨by decide, [], 1, rfl, by decide, rfl⟩

end Verif.Driver
