import Verif.Unit.Lemmas

/-!
# C54: inline functions

`compileUnit` takes the definitions of a unit in order of their appearance; `refs` gives
the symbols that the code or data of each refers to; `marked` are the functions defined
`extern inline`.  `Needed` says which definitions are needed.
-/

namespace Verif.Unit

/-- **C54.**  For every unit and whatever refers to what, with cycles or without: the
definitions compiled are exactly those needed, each once.  The loop ends after at most
one round for each definition, and one more. -/
theorem C54_needed (unit : List Fn) (marked : List Nat) (refs : Nat → List Nat) (hu : unit.Nodup) :
    ∃ out, compileUnit refs (unit.length + 1) unit ⟨[], marked⟩ = some out ∧ out.Nodup
      ∧ ∀ f, f ∈ out ↔ Needed unit marked refs f := by
  obtain ⟨out, h1, ⟨rest, h2⟩, h3⟩ := run_spec (unit := unit) (marked := marked) (refs := refs) (unit.length + 1) [] unit
    ⟨[], marked⟩ ⟨by simp, by simp, by simp, by simp⟩ (by simp)
  refine ⟨out, h1, ?_, by simpa using h3⟩
  have := h2.nodup_iff.mpr hu
  simp only [List.nil_append] at this
  exact (List.nodup_append.mp this).1

/-- Five functions: 0 is not inline and refers to 2; 2 and 3 refer to each other; 1 and 4
refer to themselves and to 3. -/
def exUnit : List Fn := [⟨1, true⟩, ⟨3, true⟩, ⟨0, false⟩, ⟨2, true⟩, ⟨4, true⟩]
def exRefs : Nat → List Nat
  | 0 => [2]
  | 2 => [3]
  | 3 => [2]
  | 1 => [1, 3]
  | 4 => [4, 3]
  | _ => []

example : exUnit.Nodup := by decide
example : compileUnit exRefs 6 exUnit ⟨[], []⟩ = some [⟨0, false⟩, ⟨2, true⟩, ⟨3, true⟩] := by decide
example : compileUnit exRefs 6 exUnit ⟨[], [4]⟩ = some [⟨0, false⟩, ⟨2, true⟩, ⟨3, true⟩, ⟨4, true⟩] := by decide
example : Needed exUnit [] exRefs ⟨3, true⟩ :=
  .ref (f := ⟨2, true⟩) (.ref (f := ⟨0, false⟩) (.plain (by decide) rfl) (by decide) (by decide)) (by decide) (by decide)

/-! ## C85: functions for other units

`InlineOnly` is C99's rule for which definitions do not provide the function to other
units.  `flags` is what the compiler remembers of the declarations of a function. -/

theorem flags_same {i e : Bool} (ds : List FnDecl) (h : ∀ d ∈ ds, d.inline = i ∧ d.extern = e)
    (hb : ∃ d ∈ ds, d.body = true) : flags ds = (i, i && e) := by
  have key : ∀ (ds : List FnDecl) (acc : Bool × Bool), (∀ d ∈ ds, d.inline = i ∧ d.extern = e) →
      (acc = (false, false) ∧ (∃ d ∈ ds, d.body = true) ∨ acc = (i, i && e)) →
      ds.foldl (fun (i, r) d => if d.body && d.inline then (true, r || d.extern) else (i, r)) acc = (i, i && e) := by
    intro ds
    induction ds with
    | nil =>
      rintro acc _ (⟨_, d, hd, _⟩ | h)
      · cases hd
      · exact h
    | cons d ds ih =>
      intro acc h1 h2
      obtain ⟨hi, he⟩ := h1 d (by simp)
      rw [List.foldl_cons]
      apply ih _ (fun x hx => h1 x (by simp [hx]))
      rcases h2 with ⟨rfl, x, hx, hxb⟩ | rfl
      · rcases List.mem_cons.mp hx with rfl | hx
        · right
          simp only [hxb, hi, he]
          cases i <;> cases e <;> rfl
        · by_cases hdb : d.body = true
          · right
            simp only [hdb, hi, he]
            cases i <;> cases e <;> rfl
          · left
            simp only [hdb]
            exact ⟨rfl, x, hx, hxb⟩
      · right
        simp only [hi, he]
        cases d.body <;> cases i <;> cases e <;> rfl
  exact key ds _ h (.inl ⟨rfl, hb⟩)

/-- **C85 (partial).**  If all declarations of a function have the same specifiers, and one
of them is its definition: unless it is an inline definition by C99, it is compiled,
whether it is called or not; if it is, it is compiled only when it is referred to.  Missing
are declarations with different specifiers (`C85_external_violated`). -/
theorem C85_same_partial (unit : List Fn) (marked : List Nat) (refs : Nat → List Nat) (ds : List FnDecl) (i e : Bool)
    (hu : unit.Nodup) (hd : ∀ d ∈ ds, d.inline = i ∧ d.extern = e) (hb : ∃ d ∈ ds, d.body = true) (f : Fn) (hf : f ∈ unit)
    (hi : f.inlined = (flags ds).1) (hm : f.sym ∈ marked ↔ (flags ds).2 = true) :
    ∃ out, compileUnit refs (unit.length + 1) unit ⟨[], marked⟩ = some out
      ∧ (¬ InlineOnly ds → f ∈ out)
      ∧ (InlineOnly ds → f ∈ out → ∃ g ∈ out, f.sym ∈ refs g.sym) := by
  obtain ⟨out, h1, _, h3⟩ := C54_needed unit marked refs hu
  rw [flags_same ds hd hb] at hi hm
  simp only at hi hm
  refine ⟨out, h1, fun hn => (h3 f).mpr ?_, fun ho hin => ?_⟩
  · by_cases hii : i = true
    · by_cases hee : e = true
      · exact .marked hf (hm.mpr (by simp [hii, hee]))
      · exact absurd (fun d hd' => ⟨(hd d hd').1.trans hii, (hd d hd').2.trans (by simpa using hee)⟩) hn
    · exact .plain hf (by rw [hi]; simpa using hii)
  · obtain ⟨d, hdm, _⟩ := hb
    obtain ⟨o1, o2⟩ := ho d hdm
    obtain ⟨e1, e2⟩ := hd d hdm
    have hit : i = true := e1.symm.trans o1
    have hef : e = false := e2.symm.trans o2
    subst hit
    subst hef
    have hmf : f.sym ∉ marked := fun h => by simpa using hm.mp h
    cases (h3 f).mp hin with
    | plain _ h => rw [hi] at h; cases h
    | marked _ h => exact absurd h hmf
    | ref hg _ hr => exact ⟨_, (h3 _).mpr hg, hr⟩

/-- `extern inline int f(void);` and `extern inline int f(void) { ... }` -/
example : (∀ d ∈ [(⟨true, true, false, false⟩ : FnDecl), ⟨true, true, false, true⟩], d.inline = true ∧ d.extern = true)
    ∧ flags [⟨true, true, false, false⟩, ⟨true, true, false, true⟩] = (true, true)
    ∧ compileUnit (fun _ => []) 2 [⟨7, true⟩] ⟨[], [7]⟩ = some [⟨7, true⟩] := by decide

/-- **C85 violated: inline functions with other declarations.**  With
`inline int f(void) { ... }` and `int f(void);`, in either order, the definition is an
external one by C99 6.7.4p7, and other units may call it.  Only the specifiers of the
definition itself are asked (declaration.c:1255-1258): the function is taken for an inline
definition, and is not compiled unless it is called here. -/
theorem C85_external_violated :
    ¬ InlineOnly [⟨true, false, false, true⟩, ⟨false, false, false, false⟩]
      ∧ flags [⟨true, false, false, true⟩, ⟨false, false, false, false⟩] = (true, false)
      ∧ ¬ InlineOnly [⟨false, true, false, false⟩, ⟨true, false, false, true⟩]
      ∧ flags [⟨false, true, false, false⟩, ⟨true, false, false, true⟩] = (true, false)
      ∧ compileUnit (fun _ => []) 3 [⟨7, true⟩] ⟨[], []⟩ = some [] := by
  refine ⟨fun h => ?_, by decide, fun h => ?_, by decide, by decide⟩
  · exact absurd (h _ (by decide : (⟨false, false, false, false⟩ : FnDecl) ∈ _)).1 (by decide)
  · exact absurd (h _ (by decide : (⟨false, true, false, false⟩ : FnDecl) ∈ _)).1 (by decide)

end Verif.Unit
