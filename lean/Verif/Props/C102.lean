import Verif.Driver.PlanSpec
import Verif.Props.C15

/-!
# C102: an invocation compiles and links what the command line says

In full: every source file on the command line is compiled in the language it is in, to an output of its own, and the linker gets
the objects, libraries and options of the command line, in its order, with the files that begin and end a program.

Proved for all command lines without `-Wl,` and `-x assembler` (`C102_plan_partial`); what is compiled is linked, in order
(`C102_linked_partial`).  The rest does not hold: `C102_linker_options_violated`, `C102_assembler_violated`,
`C102_same_name_violated`.
-/

namespace Verif.Driver

theorem eachWith_append {α : Type} (f : List Arg → Arg → List α) : ∀ (l pre : List Arg) (a : Arg),
    eachWith f pre (l ++ [a]) = eachWith f pre l ++ f (pre ++ l) a := by
  intro l
  induction l with
  | nil => intro pre a; simp [eachWith]
  | cons b r ih => intro pre a; simp [eachWith, ih]

theorem lastOf_append {α : Type} (f : Arg → Option α) (l : List Arg) (a : Arg) :
    lastOf f (l ++ [a]) = match f a with | some v => some v | none => lastOf f l := by
  unfold lastOf
  cases h : f a with
  | none => simp [h]
  | some v => simp [h]

theorem isC_iff (name : Bytes) : isC name = true ↔ (str% ".c") <:+ name ∨ (str% ".i") <:+ name := by
  have key : ∀ x : UInt8, x ≠ chr% '.' → ([chr% '.', x] <:+ name ↔
      ∃ i, lastPos (chr% '.') name = some i ∧ name.drop (i + 1) = [x]) := by
    intro x hx
    constructor
    · rintro ⟨p, rfl⟩
      have hm : chr% '.' ∈ p ++ [chr% '.', x] := by simp
      cases hl : lastPos (chr% '.') (p ++ [chr% '.', x]) with
      | none => exact absurd hm (lastPos_none.1 hl)
      | some i =>
        obtain ⟨h1, h2⟩ := lastPos_some hl
        refine ⟨i, rfl, ?_⟩
        have hlen : i < (p ++ [chr% '.', x]).length := by
          have := congrArg List.length h1
          simp only [List.length_append, List.length_take, List.length_cons, List.length_drop] at this ⊢
          omega
        have hi : (p ++ [chr% '.', x])[i]? = some (chr% '.') := by
          rw [h1]
          have : ((p ++ [chr% '.', x]).take i).length = i := by
            rw [List.length_take]; omega
          rw [List.getElem?_append_right (by omega), this]; simp
        simp only [List.length_append, List.length_cons, List.length_nil] at hlen
        rcases Nat.lt_trichotomy i p.length with hlt | heq | hgt
        · exfalso
          apply h2
          rw [List.drop_append_of_le_length (by omega)]
          simp
        · subst heq
          rw [List.drop_append]
          simp
        · exfalso
          have : i = p.length + 1 := by omega
          subst this
          rw [List.getElem?_append_right (by omega)] at hi
          simp at hi
          exact hx hi
    · rintro ⟨i, h1, h2⟩
      obtain ⟨e, _⟩ := lastPos_some h1
      rw [h2] at e
      exact ⟨_, e.symm⟩
  have kc := key (chr% 'c') (by decide)
  have ki := key (chr% 'i') (by decide)
  show _ ↔ [chr% '.', chr% 'c'] <:+ name ∨ [chr% '.', chr% 'i'] <:+ name
  rw [kc, ki]
  unfold isC
  cases lastPos (chr% '.') name with
  | none => simp
  | some i => simp

theorem fileLang_eq (pre : List Arg) (name : Bytes) :
    fileLang ((lastOf (fun | .lang l => some l | _ => none) pre).getD .unknown) name = languageOf pre name := by
  unfold fileLang languageOf
  have h := isC_iff name
  by_cases hc : isC name = true
  · have := h.1 hc
    cases lastOf (fun | .lang l => some l | _ => none) pre with
    | none => simp [hc, this]
    | some l => cases l <;> simp [hc, this]
  · have hn : ¬ ((str% ".c") <:+ name ∨ (str% ".i") <:+ name) := fun hh => hc (h.2 hh)
    cases lastOf (fun | .lang l => some l | _ => none) pre with
    | none => simp only [hn, hc]; simp
    | some l => cases l <;> simp only [hn, hc] <;> simp

structure Inv (pre : List Arg) (s : State) : Prop where
  target : s.target = modeOf pre
  lang : s.lang = (lastOf (fun | .lang l => some l | _ => none) pre).getD .unknown
  out : s.out = outOf pre
  files : s.files = sources pre
  ld : s.ld = eachWith linkOf [] pre
  shared : s.isShared = decide (Arg.shared ∈ pre)
  pic : s.pic = (lastOf (fun | .pic b => some b | _ => none) pre).getD true

theorem Inv.arg {pre : List Arg} {s : State} (r : Inv pre s) (a : Arg) (h : ∀ o, a ≠ .wl o) :
    Inv (pre ++ [a]) (s.arg a) := by
  obtain ⟨h1, h2, h3, h4, h5, h6, h7⟩ := r
  cases a with
  | wl o => exact absurd rfl (h o)
  | file n =>
    have hl := fileLang_eq pre n
    rw [← h2] at hl
    constructor <;>
      simp only [State.arg, State.link, modeOf, outOf, sources, lastOf_append, eachWith_append, linkOf, List.nil_append,
        List.append_nil, List.mem_append, List.mem_singleton, h1, h3, h4, h5, h6, h7, hl, ← h2] <;>
      first
        | rfl
        | simp
        | skip
    cases languageOf pre n <;> simp
  | lib j n =>
    cases j <;> constructor <;>
      simp [State.arg, State.link, modeOf, outOf, sources, lastOf_append, eachWith_append, linkOf, h1, h2, h3, h4, h5, h6, h7]
  | path j n =>
    cases j <;> constructor <;>
      simp [State.arg, State.link, modeOf, outOf, sources, lastOf_append, eachWith_append, linkOf, h1, h2, h3, h4, h5, h6, h7]
  | _ =>
    constructor <;>
      simp [State.arg, State.link, modeOf, outOf, sources, lastOf_append, eachWith_append, linkOf, h1, h2, h3, h4, h5, h6, h7]

theorem Inv.init : Inv [] .init := by
  constructor <;> rfl

theorem foldl_inv : ∀ (l pre : List Arg) (s : State), Inv pre s → (∀ a ∈ l, ∀ o, a ≠ .wl o) →
    Inv (pre ++ l) (l.foldl State.arg s) := by
  intro l
  induction l with
  | nil => intro pre s r _; simpa using r
  | cons a t ih =>
    intro pre s r h
    have := ih (pre ++ [a]) (s.arg a) (r.arg a (h a (by simp))) (fun x hx => h x (by simp [hx]))
    simpa using this

theorem sift_known (t : Target) (done rest : List (Bytes × Lang)) (f : Bytes × Lang) (k : Nat)
    (h : f.2 ≠ .unknown) :
    sift t (done ++ f :: rest) done.length k = sift t ((done ++ [f]) ++ rest) (done ++ [f]).length k := by
  rw [sift]
  simp [h]

theorem sift_preprocess : ∀ (rest done : List (Bytes × Lang)) (k : Nat),
    sift .preprocess (done ++ rest) done.length k =
      some (done ++ rest.map (fun f => if isKnown f then f else (f.1, .c)), k) := by
  intro rest
  induction rest with
  | nil => intro done k; rw [sift]; simp
  | cons f r ih =>
    intro done k
    by_cases h : f.2 = .unknown
    · rw [sift]
      have e : (done ++ f :: r).set done.length (f.1, Lang.c) = (done ++ [(f.1, .c)]) ++ r := by
        simp [List.set_append]
      have := ih (done ++ [(f.1, .c)]) k
      simp only [List.length_append, List.length_cons, List.length_nil, Nat.zero_add] at this
      simp [h, e, this, isKnown]
      rw [← List.append_cons] at this
      simpa [isKnown] using this
    · rw [sift_known _ _ _ _ _ h, ih]
      simp [isKnown, h]

theorem sift_exe : ∀ (rest done : List (Bytes × Lang)) (k : Nat),
    sift .exe (done ++ rest) done.length k =
      some (done ++ rest.filter isKnown, k + (rest.filter (fun f => !isKnown f)).length) := by
  intro rest
  induction rest with
  | nil => intro done k; rw [sift]; simp
  | cons f r ih =>
    intro done k
    by_cases h : f.2 = .unknown
    · rw [sift]
      have e : (done ++ f :: r).eraseIdx done.length = done ++ r := by
        simp [List.eraseIdx_append_of_length_le]
      simp [h, e, ih, isKnown]
      omega
    · have hk : isKnown f = true := by simp [isKnown, h]
      rw [sift_known _ _ _ _ _ h, ih]
      simp [hk]

theorem sift_other {t : Target} (ht : t ≠ .exe) (hp : t ≠ .preprocess) : ∀ (rest done : List (Bytes × Lang)) (k : Nat),
    sift t (done ++ rest) done.length k = if rest.all isKnown then some (done ++ rest, k) else none := by
  intro rest
  induction rest with
  | nil => intro done k; rw [sift]; simp
  | cons f r ih =>
    intro done k
    by_cases h : f.2 = .unknown
    · rw [sift]
      cases t <;> simp [h, isKnown] at ht hp ⊢
    · have hk : isKnown f = true := by simp [isKnown, h]
      rw [sift_known _ _ _ _ _ h, ih, List.all_cons, hk, Bool.true_and]
      simp

theorem sift_eq (t : Target) (files : List (Bytes × Lang)) :
    sift t files 0 0 = match t with
      | .preprocess => some (files.map (fun f => if isKnown f then f else (f.1, .c)), 0)
      | .exe => some (files.filter isKnown, (files.filter (fun f => !isKnown f)).length)
      | _ => if files.all isKnown then some (files, 0) else none := by
  have h1 := sift_preprocess files [] 0
  have h2 := sift_exe files [] 0
  have h3 := fun (ht : t ≠ .exe) (hp : t ≠ .preprocess) => sift_other ht hp files [] 0
  simp only [List.nil_append, List.length_nil, Nat.zero_add] at h1 h2 h3
  cases t with
  | preprocess => exact h1
  | exe => exact h2
  | _ => exact h3 (by decide) (by decide)

theorem languageOf_asm {pre : List Arg} {n : Bytes} (h : languageOf pre n = .asm) : Arg.lang .asm ∈ pre := by
  unfold languageOf at h
  split at h
  · cases h
  · rename_i hl
    unfold lastOf at hl
    have := List.mem_of_getLast? hl
    obtain ⟨a, ha, e⟩ := List.mem_filterMap.1 this
    cases a <;> simp at e
    subst e; exact ha
  · split at h <;> cases h

theorem sources_noAsm : ∀ (l pre : List Arg), Arg.lang .asm ∉ pre ++ l →
    ∀ f ∈ eachWith (fun pre => fun
      | .file n => [(n, languageOf pre n)]
      | _ => []) pre l, f.2 ≠ .asm := by
  intro l
  induction l with
  | nil => intro pre _ f hf; simp [eachWith] at hf
  | cons a r ih =>
    intro pre h f hf
    simp only [eachWith, List.mem_append] at hf
    rcases hf with hf | hf
    · cases a <;> simp at hf
      subst hf
      intro e
      exact h (List.mem_append.2 (.inl (languageOf_asm e)))
    · exact ih (pre ++ [a]) (by simpa using h) f hf

theorem toProcess_c {args : List Arg} (h : Arg.lang .asm ∉ args) {files : List (Bytes × Lang)}
    (hp : toProcess args = some files) : ∀ f ∈ files, f.2 = .c := by
  have hs : ∀ f ∈ sources args, f.2 ≠ .asm := sources_noAsm args [] (by simpa using h)
  have hk : ∀ f ∈ sources args, isKnown f = true → f.2 = .c := by
    intro f hf hk
    have := hs f hf
    cases e : f.2 <;> simp [isKnown, e] at hk this ⊢
  unfold toProcess at hp
  split at hp
  · cases hp
    intro f hf
    obtain ⟨g, hg, rfl⟩ := List.mem_map.1 hf
    by_cases e : isKnown g = true
    · simp [e, hk g hg e]
    · simp [e]
  · cases hp
    intro f hf
    obtain ⟨h1, h2⟩ := List.mem_filter.1 hf
    exact hk f h1 h2
  · split at hp
    · cases hp
      rename_i ha
      intro f hf
      exact hk f hf (List.all_eq_true.1 ha f hf)
    · cases hp

/-- What is compiled and what the linker gets. -/
theorem C102_plan_partial (args : List Arg) (hw : ∀ o, Arg.wl o ∉ args) (ha : Arg.lang .asm ∉ args) :
    match toProcess args with
    | none => plan args = none
    | some files =>
      (¬ Sensible args files → plan args = none) ∧
      (Sensible args files → ∃ ld,
        plan args = some ⟨files.map fun f => ⟨f.1, f.2, outputOf args f.1⟩, ld⟩ ∧
        (modeOf args ≠ .exe → ld = none) ∧
        (modeOf args = .exe → ∃ first,
          ld = some (first ++ eachWith linkOf [] args ++
            [str% "-lc", str% "/usr/lib/x86_64-linux-gnu/crtn.o"]) ∧
          first.head? = some (str% "/usr/bin/ld") ∧
          first.filter (fun a => (str% ".o").isSuffixOf a) =
            startup args ++ [str% "/usr/lib/x86_64-linux-gnu/crti.o"])) := by
  have inv := foldl_inv args [] .init .init (fun a h o e => hw o (e ▸ h))
  rw [List.nil_append] at inv
  have hc := fun files => toProcess_c ha (files := files)
  unfold plan
  generalize args.foldl State.arg .init = s at inv
  obtain ⟨h1, h2, h3, h4, h5, h6, h7⟩ := inv
  simp only [sift_eq, h1, h3, h4, h5, h6, h7]
  have hfirst : ((initLinker (decide (Arg.shared ∈ args))
      ((lastOf (fun | .pic b => some b | _ => none) args).getD true)).head? = some (str% "/usr/bin/ld")) ∧
      (initLinker (decide (Arg.shared ∈ args))
        ((lastOf (fun | .pic b => some b | _ => none) args).getD true)).filter
          (fun a => (str% ".o").isSuffixOf a) =
        startup args ++ [str% "/usr/lib/x86_64-linux-gnu/crti.o"] := by
    unfold startup
    generalize (lastOf (fun | .pic b => some b | _ => none) args).getD true = p
    by_cases hs : Arg.shared ∈ args
    · simp only [hs, decide_true, if_true]
      cases p <;> exact ⟨by decide +kernel, by decide +kernel⟩
    · simp only [hs, decide_false, if_false]
      cases p <;> exact ⟨by decide +kernel, by decide +kernel⟩
  have hjobs : ∀ (files : List (Bytes × Lang)) (o : Bytes → Option Bytes), toProcess args = some files →
      (files.map fun f => (⟨f.1, f.2, o f.1⟩ : Job)) = files.map fun f => ⟨f.1, .c, o f.1⟩ := by
    intro files o hp
    apply List.map_congr_left
    intro f hf
    rw [hc files hp f hf]
  unfold Sensible
  cases hm : modeOf args with
  | exe =>
    have hp : toProcess args = some ((sources args).filter isKnown) := by simp [toProcess, hm]
    have hj := hjobs _ (outputOf args) hp
    rw [hp]
    simp only [hj]
    have hn : ((sources args).filter isKnown).length = 0 ∧
        (((sources args).filter (fun f => !isKnown f)).length = 0 ∨ Target.exe ≠ .exe) ↔ sources args = [] := by
      constructor
      · rintro ⟨a, b | b⟩
        · apply List.eq_nil_iff_forall_not_mem.2
          intro f hf
          rw [List.length_eq_zero_iff, List.filter_eq_nil_iff] at a b
          have x := a f hf; have y := b f hf
          cases e : isKnown f <;> simp [e] at x y
        · exact absurd rfl b
      · intro e; simp [e]
    simp only [hn]
    refine ⟨fun h => ?_, fun h => ?_⟩
    · have : sources args = [] := by
        by_contra hne
        exact h ⟨hne, fun hh => absurd rfl hh⟩
      simp [this]
    · rw [if_neg h.1]
      refine ⟨some _, ?_, fun hh => absurd rfl hh, fun _ => ⟨_, rfl, hfirst⟩⟩
      cases outOf args <;> simp [outputOf, hm, suffix]
  | preprocess =>
    have hp : toProcess args = some ((sources args).map fun f => if isKnown f then f else (f.1, .c)) := by
      simp [toProcess, hm]
    have hj := hjobs _ (outputOf args) hp
    rw [hp]
    simp only [hj]
    generalize hfs : ((sources args).map fun f => if isKnown f then f else (f.1, Lang.c)) = fs
    have hlen : fs.length = (sources args).length := by rw [← hfs]; simp
    have h0 : sources args = [] ↔ fs.length = 0 := by rw [hlen, List.length_eq_zero_iff]
    simp only [ne_eq, h0]
    by_cases hz : fs.length = 0
    · simp [hz]
    · cases ho : outOf args with
      | none => simp [hz, outputOf, hm, ho, suffix]
      | some o =>
        by_cases h1 : fs.length = 1
        · simp [h1, outputOf, hm, ho]
        · have : fs.length > 1 := by omega
          simp [h1, this, hz]
  | _ =>
    by_cases hall : (sources args).all isKnown = true
    · have hp : toProcess args = some (sources args) := by simp [toProcess, hm, hall]
      have hj := hjobs _ (outputOf args) hp
      rw [hp]
      simp only [hj, hall, if_true]
      have h0 : sources args = [] ↔ (sources args).length = 0 := by rw [List.length_eq_zero_iff]
      simp only [ne_eq, h0]
      generalize sources args = fs
      by_cases hz : fs.length = 0
      · simp [hz]
      · cases ho : outOf args with
        | none => simp [hz, outputOf, hm, ho, suffix]; try rfl
        | some o =>
          by_cases h1 : fs.length = 1
          · simp [h1, outputOf, hm, ho]
          · have : fs.length > 1 := by omega
            simp [h1, this, hz]
    · have hp : toProcess args = none := by
        simp only [toProcess, hm]
        rw [if_neg hall]
      rw [hp]
      simp only
      rw [if_neg hall]

/-- What is compiled is linked, in the order of the command line. -/
theorem C102_linked_partial (args : List Arg) (hw : ∀ o, Arg.wl o ∉ args) (ha : Arg.lang .asm ∉ args)
    (p : Plan) (hp : plan args = some p) (ld : List Bytes) (hl : p.ld = some ld) :
    (p.jobs.map fun j => j.out.getD []).Sublist ld ∧ ∀ j ∈ p.jobs, j.out.isSome := by
  have h := C102_plan_partial args hw ha
  cases ht : toProcess args with
  | none => simp [ht, hp] at h
  | some files =>
    simp only [ht] at h
    by_cases hs : Sensible args files
    · obtain ⟨l, h1, h2, h3⟩ := h.2 hs
      rw [hp, Option.some.injEq] at h1
      subst h1
      simp only at hl
      subst hl
      by_cases hm : modeOf args = .exe
      · obtain ⟨first, e, _⟩ := h3 hm
        rw [Option.some.injEq] at e
        subst e
        refine ⟨?_, ?_⟩
        · have hf : files = (sources args).filter isKnown := by
            simp [toProcess, hm] at ht; exact ht.symm
          have key : ∀ (l pre : List Arg),
              (((eachWith (fun pre => fun
                | .file n => [(n, languageOf pre n)]
                | _ => []) pre l).filter isKnown).map fun f => changeSuffix f.1 (str% ".o")).Sublist
              (eachWith linkOf pre l) := by
            intro l
            induction l with
            | nil => intro pre; simp [eachWith]
            | cons a r ih =>
              intro pre
              simp only [eachWith, List.filter_append, List.map_append]
              refine List.Sublist.append ?_ (ih _)
              cases a with
              | file n =>
                cases e : languageOf pre n with
                | unknown => simp [isKnown, e]
                | c => simp only [linkOf, e]; exact List.Sublist.refl _
                | asm => simp only [linkOf, e]; exact List.Sublist.refl _
              | _ => simp
          have := key args []
          rw [hf]
          simp only [List.map_map, Function.comp_def, outputOf, hm, Option.getD_some]
          rw [List.append_assoc]
          exact (this.trans (List.sublist_append_left _ _)).trans (List.sublist_append_right _ _)
        · intro j hj
          obtain ⟨f, _, rfl⟩ := List.mem_map.1 hj
          simp [outputOf, hm]
      · exact absurd (h2 hm) (by simp)
    · rw [h.1 hs] at hp
      cases hp

/-- `lacc a.c -lm -x c b.y -x none d.o -o p -fno-PIC` -/
def exArgs : List Arg :=
  [.file (str% "s/a.c"), .lib true (str% "m"), .lang .c, .file (str% "b.y"), .lang .unknown, .file (str% "d.o"),
    .out (str% "p"), .pic false]

example := C102_plan_partial exArgs (by simp [exArgs]) (by decide)

example : toProcess exArgs = some [(str% "s/a.c", .c), (str% "b.y", .c)] := by decide +kernel

example : (plan exArgs).map (fun p => (p.jobs, (p.ld.getD []).drop 10)) = some
    ([⟨str% "s/a.c", .c, some (str% "a.o")⟩, ⟨str% "b.y", .c, some (str% "b.o")⟩],
     [str% "a.o", str% "-lm", str% "b.o", str% "d.o", str% "-o", str% "p", str% "-lc",
      str% "/usr/lib/x86_64-linux-gnu/crtn.o"]) := by decide +kernel

example : plan [.mode .obj, .file (str% "a.o")] = none := by decide +kernel
example : plan [.mode .obj, .out (str% "x"), .file (str% "a.c"), .file (str% "b.c")] = none := by decide +kernel
example : (plan [.mode .obj, .mode .preprocess, .file (str% "a.h")]).map Plan.jobs =
    some [⟨str% "a.h", .c, none⟩] := by decide +kernel

/-- The linker does not get the options of `-Wl,`. -/
theorem C102_linker_options_violated :
    let args := [Arg.file (str% "a.c"), .wl [str% "-s"]]
    str% "-s" ∈ eachWith linkOf [] args ∧
    (plan args).map (fun p => (p.ld.getD []).contains (str% "-s")) = some false := by
  decide +kernel

/-- `-x assembler a.s`: the file is compiled as C. -/
theorem C102_assembler_violated :
    toProcess [.lang .asm, .file (str% "a.s")] = some [(str% "a.s", .asm)] ∧
    (plan [.lang .asm, .file (str% "a.s")]).map Plan.jobs = some [⟨str% "a.s", .c, some (str% "a.o")⟩] := by
  decide +kernel

/-- `lacc x/a.c y/a.c`: both are compiled to `a.o`, which is linked twice. -/
theorem C102_same_name_violated :
    (plan [.file (str% "x/a.c"), .file (str% "y/a.c")]).map Plan.jobs =
      some [⟨str% "x/a.c", .c, some (str% "a.o")⟩, ⟨str% "y/a.c", .c, some (str% "a.o")⟩] := by
  decide +kernel

end Verif.Driver
