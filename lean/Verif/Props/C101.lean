import Verif.OldStyle.Spec

/-!
# C101: parameters of old-style function definitions have the types of their declarations

In full: the parameters of `int f(a, b) char *b; { ... }` are those of the list, in that order, with the types C
says, in the type of the function and in its body; what C does not allow is diagnosed, and the rest is
accepted.

Proved for definitions without parameters that are declared as functions (`C101_types_partial`), whatever the
order of the declarations (`C101_order_partial`); of what C does not allow, names that are not in the list, names that come twice,
names of types and linkage are diagnosed (`C101_diagnosed_partial`).  The rest does not hold: `C101_function_violated`,
`C101_storage_violated`, `C101_initializer_violated`, `C101_comma_violated`.
-/

namespace Verif.OldStyle

theorem lookup_map_self {α : Type} (f : Name → α) (ids : List Name) (n : Name) :
    (ids.map fun m => (m, f m)).lookup n = if n ∈ ids then some (f n) else none := by
  induction ids with
  | nil => rfl
  | cons m r ih =>
    simp only [List.map_cons, List.lookup]
    by_cases h : n = m
    · subst h; simp
    · have : (n == m) = false := by simpa using h
      simp [this, ih, h]

theorem identifierList_eq (g : List (Name × Sym)) : ∀ (ids pre : List Name), pre.Nodup →
    (∀ n ∈ ids, ∀ t, g.lookup n ≠ some ⟨t, true⟩) → (pre ++ ids).Nodup →
    identifierList g (pre.map fun n => (n, none)) ids = some ((pre ++ ids).map fun n => (n, none)) := by
  intro ids
  induction ids with
  | nil => intro pre _ _ _; simp [identifierList]
  | cons n r ih =>
    intro pre hp ht hn
    have hnp : n ∉ pre := by
      intro hm
      rw [List.nodup_append] at hn
      exact hn.2.2 n hm n (by simp) rfl
    have hl : ((pre.map fun n => (n, (none : Option Ty))).lookup n) = none := by
      rw [lookup_map_self (fun _ => none)]; simp [hnp]
    have e : pre ++ n :: r = (pre ++ [n]) ++ r := by simp
    have hi := ih (pre ++ [n]) (by rw [e, List.nodup_append] at hn; exact hn.1)
      (fun m hm => ht m (by simp [hm])) (by rw [← e]; exact hn)
    rw [e, ← hi]
    simp only [identifierList, hl, List.map_append, List.map_cons, List.map_nil]
    split
    · rename_i t h; exact absurd h (ht n (by simp) t)
    · rfl

theorem identifierList_some (g : List (Name × Sym)) : ∀ (ids pre : List Name) (ms : Members), pre.Nodup →
    identifierList g (pre.map fun n => (n, none)) ids = some ms →
    (∀ n ∈ ids, ∀ t, g.lookup n ≠ some ⟨t, true⟩) ∧ (pre ++ ids).Nodup := by
  intro ids
  induction ids with
  | nil => intro pre ms hp _; simpa using hp
  | cons n r ih =>
    intro pre ms hp h
    simp only [identifierList] at h
    split at h
    · cases h
    · rename_i hg
      rw [lookup_map_self (fun _ => none)] at h
      by_cases hn : n ∈ pre
      · simp [hn] at h
      · simp only [hn, if_false] at h
        have e : pre ++ n :: r = (pre ++ [n]) ++ r := by simp
        have hp' : (pre ++ [n]).Nodup := by
          rw [List.nodup_append]
          refine ⟨hp, by simp, fun a ha b hb => ?_⟩
          simp only [List.mem_singleton] at hb
          rintro rfl; subst hb; exact hn ha
        obtain ⟨h1, h2⟩ := ih (pre ++ [n]) ms hp' (by simpa using h)
        refine ⟨fun m hm t => ?_, by rw [e]; exact h2⟩
        rcases List.mem_cons.1 hm with rfl | hm
        · exact hg t
        · exact h1 m hm t

theorem setMember_eq (n : Name) (t : Ty) (sc : Scope) : ∀ (ids : List Name), ids.Nodup →
    setMember n t (ids.map fun m => (m, sc.lookup m)) =
      ids.map fun m => (m, ((n, t) :: sc).lookup m) := by
  intro ids
  induction ids with
  | nil => intro _; rfl
  | cons m r ih =>
    intro hn
    obtain ⟨h1, h2⟩ := List.nodup_cons.1 hn
    simp only [List.map_cons, setMember]
    by_cases h : m = n
    · subst h
      simp only [if_true, List.lookup, beq_self_eq_true, List.cons.injEq, true_and]
      apply List.map_congr_left
      intro a ha
      have : (a == m) = false := by
        simp only [beq_eq_false_iff_ne]; rintro rfl; exact h1 ha
      simp [this]
    · have : (m == n) = false := by simpa using h
      rw [if_neg h, ih h2]
      simp [List.lookup, this]

/-- When one declaration is accepted. -/
def Good (g : List (Name × Sym)) (ids : List Name) (d : Decl) : Prop :=
  d.storage ≠ .static ∧ d.storage ≠ .extern ∧ refused g d = false ∧ d.name ∈ ids

theorem declare_eq (g : List (Name × Sym)) (ids : List Name) (sc : Scope) (d : Decl) (hn : ids.Nodup)
    (hg : Good g ids d) (hs : sc.lookup d.name = none) :
    declare g (ids.map fun m => (m, sc.lookup m)) sc d =
      some (ids.map (fun m => (m, ((d.name, adjusted d.ty) :: sc).lookup m)),
        (d.name, adjusted d.ty) :: sc) := by
  obtain ⟨h1, h2, h3, h4⟩ := hg
  unfold declare
  rw [if_neg (by simp [h1, h2, h3]), lookup_map_self (fun m => sc.lookup m), if_pos h4, hs]
  simp only [setMember_eq _ _ _ _ hn]

theorem declare_some (g : List (Name × Sym)) (ids : List Name) (sc : Scope) (d : Decl)
    {r : Members × Scope} (h : declare g (ids.map fun m => (m, sc.lookup m)) sc d = some r) :
    Good g ids d ∧ sc.lookup d.name = none := by
  unfold declare at h
  split at h
  · cases h
  · rename_i hc
    rw [not_or, not_or] at hc
    rw [lookup_map_self (fun m => sc.lookup m)] at h
    by_cases hm : d.name ∈ ids
    · rw [if_pos hm] at h
      cases hs : sc.lookup d.name with
      | none => exact ⟨⟨hc.1, hc.2.1, by simpa using hc.2.2, hm⟩, rfl⟩
      | some t => simp [hs] at h
    · simp [hm] at h

/-- The symbols that declarations add. -/
def entry (d : Decl) : Name × Ty := (d.name, adjusted d.ty)

theorem lookup_none_iff (sc : Scope) (n : Name) : sc.lookup n = none ↔ n ∉ sc.map Prod.fst := by
  induction sc with
  | nil => simp
  | cons x r ih =>
    obtain ⟨m, t⟩ := x
    by_cases h : n = m
    · subst h; simp [List.lookup]
    · have : (n == m) = false := by simpa using h
      simp [List.lookup, this, ih, h]

theorem declareAll_eq (g : List (Name × Sym)) (ids : List Name) (hn : ids.Nodup) :
    ∀ (ds : List Decl) (sc : Scope), (∀ d ∈ ds, Good g ids d) → (ds.map Decl.name).Nodup →
    (∀ d ∈ ds, sc.lookup d.name = none) →
    declareAll g (ids.map fun m => (m, sc.lookup m)) sc ds =
      some (ids.map (fun m => (m, ((ds.map entry).reverse ++ sc).lookup m)), (ds.map entry).reverse ++ sc) := by
  intro ds
  induction ds with
  | nil => intro sc _ _ _; simp [declareAll]
  | cons d r ih =>
    intro sc hg hd hs
    simp only [List.map_cons, List.nodup_cons] at hd
    simp only [declareAll, declare_eq g ids sc d hn (hg d (by simp)) (hs d (by simp))]
    have := ih ((d.name, adjusted d.ty) :: sc) (fun x hx => hg x (by simp [hx])) hd.2
      (fun x hx => by
        have hne : (x.name == d.name) = false := by
          simp only [beq_eq_false_iff_ne]
          intro he; exact hd.1 (he ▸ List.mem_map_of_mem hx)
        simp only [List.lookup, hne]
        exact hs x (by simp [hx]))
    rw [this]
    simp [entry]

theorem declareAll_some (g : List (Name × Sym)) (ids : List Name) (hn : ids.Nodup) :
    ∀ (ds : List Decl) (sc : Scope) (r : Members × Scope),
    declareAll g (ids.map fun m => (m, sc.lookup m)) sc ds = some r →
    (∀ d ∈ ds, Good g ids d) ∧ (ds.map Decl.name).Nodup ∧ ∀ d ∈ ds, sc.lookup d.name = none := by
  intro ds
  induction ds with
  | nil => intro sc r _; simp
  | cons d ds ih =>
    intro sc r h
    simp only [declareAll] at h
    cases hd : declare g (ids.map fun m => (m, sc.lookup m)) sc d with
    | none => simp [hd] at h
    | some q =>
      obtain ⟨h1, h2⟩ := declare_some g ids sc d hd
      rw [declare_eq g ids sc d hn h1 h2] at h
      obtain ⟨i1, i2, i3⟩ := ih _ _ h
      have hsplit : ∀ x ∈ ds, x.name ≠ d.name ∧ sc.lookup x.name = none := by
        intro x hx
        have := i3 x hx
        by_cases he : x.name = d.name
        · simp [he, List.lookup] at this
        · have hne : (x.name == d.name) = false := by simpa using he
          simp only [List.lookup, hne] at this
          exact ⟨he, this⟩
      refine ⟨?_, ?_, ?_⟩
      · intro x hx
        rcases List.mem_cons.1 hx with rfl | hx
        · exact h1
        · exact i1 x hx
      · simp only [List.map_cons, List.nodup_cons]
        refine ⟨?_, i2⟩
        intro hm
        obtain ⟨x, hx, he⟩ := List.mem_map.1 hm
        exact (hsplit x hx).1 he
      · intro x hx
        rcases List.mem_cons.1 hx with rfl | hx
        · exact h2
        · exact (hsplit x hx).2

theorem finish_eq (sc : Scope) : ∀ (ids : List Name) (sc' : Scope), ids.Nodup →
    (∀ n ∈ ids, sc'.lookup n = sc.lookup n) →
    finish sc' (ids.map fun m => (m, sc.lookup m)) =
      some (ids.map fun m => (m, (sc.lookup m).getD .int, (sc.lookup m).getD .int)) := by
  intro ids
  induction ids with
  | nil => intro _ _ _; rfl
  | cons n r ih =>
    intro sc' hn hs
    obtain ⟨h1, h2⟩ := List.nodup_cons.1 hn
    simp only [List.map_cons, finish, hs n (by simp)]
    cases h : sc.lookup n with
    | some t =>
      simp only [ih sc' h2 (fun m hm => hs m (by simp [hm]))]
      simp
    | none =>
      simp only
      rw [ih ((n, .int) :: sc') h2 (fun m hm => by
        have hne : (m == n) = false := by
          simp only [beq_eq_false_iff_ne]; rintro rfl; exact h1 hm
        simp only [List.lookup, hne]
        exact hs m (by simp [hm]))]
      simp

/-- The type of a parameter here. -/
def typeHere (ds : List Decl) (n : Name) : Ty := ((ds.map entry).reverse.lookup n).getD .int

theorem define_eq (g : List (Name × Sym)) (ids : List Name) (ds : List Decl) (hn : ids.Nodup)
    (ht : ∀ n ∈ ids, ∀ t, g.lookup n ≠ some ⟨t, true⟩) (hg : ∀ d ∈ ds, Good g ids d)
    (hd : (ds.map Decl.name).Nodup) :
    ∃ D, define g ids ds = some D ∧ D.params = ids.map (fun n => (n, typeHere ds n)) ∧
      ∀ n, D.body n = if n ∈ ids then some (typeHere ds n) else (g.lookup n).map Sym.ty := by
  have h1 := identifierList_eq g ids [] List.nodup_nil ht (by simpa using hn)
  have h2 := declareAll_eq g ids hn ds [] hg hd (fun _ _ => rfl)
  have h3 := finish_eq (ds.map entry).reverse ids (ds.map entry).reverse hn (fun _ _ => rfl)
  simp only [List.append_nil, List.lookup_nil] at h2
  simp only [List.map_nil, List.nil_append] at h1
  unfold define
  rw [h1]; simp only
  rw [h2]; simp only
  rw [h3]
  refine ⟨_, rfl, by simp [typeHere, Function.comp_def], fun n => ?_⟩
  simp only [List.map_map, Function.comp_def]
  rw [← List.map_reverse, lookup_map_self (fun m => ((ds.map entry).reverse.lookup m).getD .int)]
  by_cases hm : n ∈ ids <;> simp [hm, typeHere]

/-- No parameter is declared as a function. -/
def NoFunctions (ds : List Decl) : Prop := ∀ d ∈ ds, ∀ t, d.ty ≠ .fn t

theorem good_of_allowed {g : List (Name × Sym)} {ids : List Name} {ds : List Decl}
    (h : Allowed g ids ds) (hf : NoFunctions ds) : ∀ d ∈ ds, Good g ids d := by
  intro d hd
  have hs := h.storage d hd
  refine ⟨?_, ?_, ?_, h.listed d hd⟩
  · rcases hs with e | e <;> simp [e]
  · rcases hs with e | e <;> simp [e]
  · have := hf d hd
    unfold refused
    cases he : d.ty with
    | fn t => exact absurd he (this t)
    | _ => rfl

theorem adjust_adjusted {t : Ty} (h : ∀ u, t ≠ .fn u) : Adjust t (adjusted t) := by
  cases t with
  | fn u => exact absurd rfl (h u)
  | int => exact .int
  | obj n => exact .obj n
  | ptr t => exact .ptr t
  | arr t => exact .arr t

theorem mem_of_lookup {sc : Scope} {n : Name} {t : Ty} (h : sc.lookup n = some t) : (n, t) ∈ sc := by
  induction sc with
  | nil => cases h
  | cons x r ih =>
    obtain ⟨m, u⟩ := x
    by_cases e : n = m
    · subst e; simp [List.lookup] at h; simp [h]
    · have : (n == m) = false := by simpa using e
      simp only [List.lookup, this] at h
      simp [ih h]

theorem typeHere_ok {ds : List Decl} (hf : NoFunctions ds) (n : Name) : TypeOf ds n (typeHere ds n) := by
  unfold typeHere
  cases h : (ds.map entry).reverse.lookup n with
  | some t =>
    have := mem_of_lookup h
    simp only [List.mem_reverse, List.mem_map, entry, Prod.mk.injEq] at this
    obtain ⟨d, hd, rfl, rfl⟩ := this
    exact .declared hd rfl (adjust_adjusted (hf d hd))
  | none =>
    rw [lookup_none_iff] at h
    refine .undeclared fun d hd he => h ?_
    simp only [List.map_reverse, List.mem_reverse, List.map_map, List.mem_map]
    exact ⟨d, hd, he⟩

theorem inj_of_nodup {ds : List Decl} (hd : (ds.map Decl.name).Nodup) {x y : Decl} (hx : x ∈ ds)
    (hy : y ∈ ds) (h : x.name = y.name) : x = y := by
  induction ds with
  | nil => cases hx
  | cons d r ih =>
    simp only [List.map_cons, List.nodup_cons] at hd
    rcases List.mem_cons.1 hx with rfl | hx'
    all_goals rcases List.mem_cons.1 hy with rfl | hy
    · rfl
    · exact absurd (h ▸ List.mem_map_of_mem hy) hd.1
    · have := List.mem_map_of_mem (f := Decl.name) hx'
      rw [h] at this
      exact absurd this hd.1
    · exact ih hd.2 hx' hy

/-- A parameter has one type. -/
theorem TypeOf.unique {ds : List Decl} (hd : (ds.map Decl.name).Nodup) {n : Name} {t u : Ty}
    (h1 : TypeOf ds n t) (h2 : TypeOf ds n u) : t = u := by
  have adj : ∀ {a b c : Ty}, Adjust a b → Adjust a c → b = c := by
    intro a b c x y
    cases x <;> cases y <;> rfl
  cases h1 with
  | declared m1 e1 a1 =>
    cases h2 with
    | declared m2 e2 a2 =>
      have := inj_of_nodup hd m1 m2 (e1.trans e2.symm)
      subst this
      exact adj a1 a2
    | undeclared k => exact absurd e1 (k _ m1)
  | undeclared k =>
    cases h2 with
    | declared m2 e2 a2 => exact absurd e2 (k _ m2)
    | undeclared _ => rfl

/-- The parameters are those of the list, in its order, with the types C says, in the type of the function
and in its body, where other names are what they are outside. -/
theorem C101_types_partial (g : List (Name × Sym)) (ids : List Name) (ds : List Decl)
    (h : Allowed g ids ds) (hf : NoFunctions ds) :
    ∃ D, define g ids ds = some D ∧ D.params.map Prod.fst = ids ∧
      (∀ p ∈ D.params, TypeOf ds p.1 p.2 ∧ D.body p.1 = some p.2) ∧
      ∀ n, n ∉ ids → D.body n = (g.lookup n).map Sym.ty := by
  obtain ⟨D, h1, h2, h3⟩ := define_eq g ids ds h.distinct h.types (good_of_allowed h hf) h.once
  refine ⟨D, h1, by simp [h2, Function.comp_def], ?_, fun n hn => by simp [h3, hn]⟩
  intro p hp
  rw [h2] at hp
  obtain ⟨n, hn, rfl⟩ := List.mem_map.1 hp
  exact ⟨typeHere_ok hf n, by simp [h3, hn]⟩

/-- The order of the declarations does not matter. -/
theorem C101_order_partial (g : List (Name × Sym)) (ids : List Name) (ds es : List Decl)
    (h : Allowed g ids ds) (hf : NoFunctions ds) (hp : ds.Perm es) :
    ∃ D E, define g ids ds = some D ∧ define g ids es = some E ∧ D.params = E.params ∧
      D.body = E.body := by
  have h' : Allowed g ids es :=
    ⟨h.distinct, h.types, (hp.map _).nodup_iff.1 h.once, fun d hd => h.listed d (hp.mem_iff.2 hd),
      fun d hd => h.storage d (hp.mem_iff.2 hd), fun d hd => h.init d (hp.mem_iff.2 hd)⟩
  have hf' : NoFunctions es := fun d hd => hf d (hp.mem_iff.2 hd)
  obtain ⟨D, h1, h2, h3⟩ := define_eq g ids ds h.distinct h.types (good_of_allowed h hf) h.once
  obtain ⟨E, e1, e2, e3⟩ := define_eq g ids es h'.distinct h'.types (good_of_allowed h' hf') h'.once
  have key : ∀ n, typeHere ds n = typeHere es n := by
    intro n
    refine TypeOf.unique h.once (typeHere_ok hf n) ?_
    have hk := typeHere_ok hf' n
    generalize typeHere es n = t at hk
    cases hk with
    | declared m e a => exact .declared (hp.mem_iff.2 m) e a
    | undeclared k => exact .undeclared fun d hd => k d (hp.mem_iff.1 hd)
  refine ⟨D, E, h1, e1, ?_, ?_⟩
  · rw [h2, e2]; simp [key]
  · funext n; rw [h3, e3, key]

/-- What is diagnosed: only these are accepted. -/
theorem C101_diagnosed_partial (g : List (Name × Sym)) (ids : List Name) (ds : List Decl) (D : Def)
    (h : define g ids ds = some D) :
    ids.Nodup ∧ (∀ n ∈ ids, ∀ t, g.lookup n ≠ some ⟨t, true⟩) ∧ (ds.map Decl.name).Nodup ∧
    (∀ d ∈ ds, d.name ∈ ids) ∧ ∀ d ∈ ds, d.storage ≠ .static ∧ d.storage ≠ .extern := by
  unfold define at h
  cases h1 : identifierList g [] ids with
  | none => simp [h1] at h
  | some ms =>
    obtain ⟨a1, a2⟩ := identifierList_some g ids [] ms List.nodup_nil h1
    simp only [List.nil_append] at a2
    have e := identifierList_eq g ids [] List.nodup_nil a1 (by simpa using a2)
    simp only [List.map_nil, List.nil_append] at e
    rw [e] at h
    simp only at h
    cases h2 : declareAll g (ids.map fun n => (n, none)) [] ds with
    | none => simp [h2] at h
    | some r =>
      obtain ⟨b1, b2, _⟩ := declareAll_some g ids a2 ds [] r h2
      exact ⟨a2, a1, b2, fun d hd => (b1 d hd).2.2.2, fun d hd => ⟨(b1 d hd).1, (b1 d hd).2.1⟩⟩

def a : Name := str% "a"
def b : Name := str% "b"
def c : Name := str% "c"

/-- `long b; int f(a, b, c) register T c[]; char *a; { ... }` -/
def exGlobals : List (Name × Sym) := [(b, ⟨.obj 2, false⟩)]
def exDecls : List Decl := [⟨.register, c, .arr (.obj 1), false⟩, ⟨.none, a, .ptr (.obj 0), false⟩]

theorem ex_allowed : Allowed exGlobals [a, b, c] exDecls where
  distinct := by decide
  types := by
    intro n hn t
    simp only [List.mem_cons, List.not_mem_nil, or_false] at hn
    rcases hn with rfl | rfl | rfl <;> simp [exGlobals, List.lookup, a, b, c]
  once := by decide
  listed := by decide
  storage := by decide
  init := by decide

theorem ex_noFunctions : NoFunctions exDecls := by
  intro d hd t
  simp only [exDecls, List.mem_cons, List.not_mem_nil, or_false] at hd
  rcases hd with rfl | rfl <;> simp

example := C101_types_partial _ _ _ ex_allowed ex_noFunctions
example := C101_order_partial _ _ _ exDecls.reverse ex_allowed ex_noFunctions (List.reverse_perm _).symm

example : (define exGlobals [a, b, c] exDecls).map Def.params =
    some [(a, .ptr (.obj 0)), (b, .int), (c, .ptr (.obj 1))] := by decide

example : define [] [a] [⟨.none, b, .int, false⟩] = none := rfl

/-- `int f(a) int a(); { ... }`: the parameter has the type of a function, not of a pointer. -/
theorem C101_function_violated :
    Allowed [] [a] [⟨.none, a, .fn .int, false⟩] ∧
    (define [] [a] [⟨.none, a, .fn .int, false⟩]).map Def.params = some [(a, .fn .int)] ∧
    ¬ TypeOf [⟨.none, a, .fn .int, false⟩] a (.fn .int) := by
  refine ⟨⟨by decide, by simp, by decide, by decide, by decide, by decide⟩, by decide, ?_⟩
  intro h
  cases h with
  | declared m e x =>
    simp only [List.mem_cons, List.not_mem_nil, or_false] at m
    subst m
    cases x

/-- `int a(); int f(a) int a(); { ... }` is not accepted. -/
theorem C101_function_global_violated :
    Allowed [(a, ⟨.fn .int, false⟩)] [a] [⟨.none, a, .fn .int, false⟩] ∧
    define [(a, ⟨.fn .int, false⟩)] [a] [⟨.none, a, .fn .int, false⟩] = none := by
  refine ⟨⟨by decide, ?_, by decide, by decide, by decide, by decide⟩, rfl⟩
  intro n hn t
  simp only [List.mem_cons, List.not_mem_nil, or_false] at hn
  subst hn
  simp [List.lookup]

/-- `int f(a) typedef int a; { ... }` is accepted. -/
theorem C101_storage_violated :
    ¬ Allowed [] [a] [⟨.typedef, a, .int, false⟩] ∧
    (define [] [a] [⟨.typedef, a, .int, false⟩]).isSome := by
  refine ⟨fun h => ?_, by decide⟩
  have := h.storage ⟨.typedef, a, .int, false⟩ (by simp)
  simp at this

/-- `int f(a) int a = 1; { ... }` is accepted. -/
theorem C101_initializer_violated :
    ¬ Allowed [] [a] [⟨.none, a, .int, true⟩] ∧
    (define [] [a] [⟨.none, a, .int, true⟩]).isSome := by
  refine ⟨fun h => ?_, by decide⟩
  have := h.init ⟨.none, a, .int, true⟩ (by simp)
  simp at this

/-- `int f(), g;` is refused, where C allows any list of declarators. -/
theorem C101_comma_violated : acceptsList [.old, .other] = false := rfl

example : acceptsList [.other, .other, .old] = true := rfl

end Verif.OldStyle
