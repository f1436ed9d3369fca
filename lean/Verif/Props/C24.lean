import Verif.Symtab.DeclLemmas

/-!
# C24 block scoping, C25 redeclaration
-/

namespace Verif.Symtab
open Verif.Types Spec

/-! ## C24 -/

/-- **C24**: after any history of scope entries, declarations and scope exits, every name denotes the entity that its
innermost visible declaration denotes. -/
theorem C24_lookup (fuel : Nat) (ops : List Op) (s : State) (es : List Event) (h : runEv fuel {} ops = .ok (s, es)) (name : Bytes) :
    s.ns.lookup name = Env.meaning (Env.after Env.start es) name := by
  have := (runEv_inv ops inv_start h).agree.look 0 name (Nat.zero_le _)
  simpa [Ns.outer] using this

theorem runEv_append {fuel : Nat} : ∀ (a b : List Op) (s s' : State) (es : List Event), runEv fuel s (a ++ b) = .ok (s', es) →
    ∃ s1 e1 e2, runEv fuel s a = .ok (s1, e1) ∧ runEv fuel s1 b = .ok (s', e2) ∧ es = e1 ++ e2
  | [], b, s, s', es, h => ⟨s, [], es, rfl, h, rfl⟩
  | o :: a, b, s, s', es, h => by
    simp only [List.cons_append, runEv, bind, Except.bind] at h ⊢
    cases h1 : stepEv fuel s o with
    | error e => simp [h1] at h
    | ok r =>
      simp only [h1] at h ⊢
      cases h2 : runEv fuel r.1 (a ++ b) with
      | error e => simp [h2] at h
      | ok r' =>
        simp only [h2] at h
        injection h with h; injection h with e1 e2
        obtain ⟨s1, x1, x2, y1, y2, y3⟩ := runEv_append a b r.1 r'.1 r'.2 h2
        refine ⟨s1, r.2 :: x1, x2, by simp [y1], by rw [← e1]; exact y2, by rw [← e2, y3]; rfl⟩

/-- Number of scopes opened and not closed by the operations; `none` if they close one they did not open. -/
def opNesting : Nat → List Op → Option Nat
  | d, [] => some d
  | d, .push :: os => opNesting (d + 1) os
  | d, .pop :: os => match d with
    | 0 => none
    | d + 1 => opNesting d os
  | d, .add _ _ _ _ :: os => opNesting d os

theorem nesting_ops {fuel : Nat} : ∀ (ops : List Op) (s s' : State) (es : List Event) (d : Nat), runEv fuel s ops = .ok (s', es) →
    nesting d es = opNesting d ops
  | [], s, s', es, d, h => by
    simp only [runEv] at h; injection h with h; injection h with _ h; subst h; rfl
  | o :: os, s, s', es, d, h => by
    simp only [runEv, bind, Except.bind] at h
    cases h1 : stepEv fuel s o with
    | error e => simp [h1] at h
    | ok r =>
      simp only [h1] at h
      cases h2 : runEv fuel r.1 os with
      | error e => simp [h2] at h
      | ok r' =>
        simp only [h2] at h
        injection h with h; injection h with e1 e2
        have ih := fun d => nesting_ops os r.1 r'.1 r'.2 d h2
        rw [← e2]
        cases o with
        | push => simp only [stepEv] at h1; injection h1 with h1; rw [← h1]; exact ih (d + 1)
        | pop =>
          simp only [stepEv, bind, Except.bind] at h1
          cases h3 : s.ns.pop with
          | error e => simp [h3] at h1
          | ok ns =>
            simp only [h3] at h1; injection h1 with h1; rw [← h1]
            cases d with
            | zero => rfl
            | succ d => exact ih d
        | add name t st l =>
          simp only [stepEv, bind, Except.bind] at h1
          cases h3 : add fuel s name t st l with
          | error e => simp [h3] at h1
          | ok a => simp only [h3] at h1; injection h1 with h1; rw [← h1]; exact ih d

/-- **C24**: whatever happens in a block, leaving it restores the meaning every name had when the block was entered. -/
theorem C24_restore (fuel : Nat) (before inside : List Op) (s s' : State) (hb : opNesting 0 inside = some 0)
    (h : run fuel {} before = .ok s) (h' : run fuel s (.push :: inside ++ [.pop]) = .ok s') (name : Bytes) :
    s'.ns.lookup name = s.ns.lookup name := by
  rw [runEv_run] at h h'
  cases h1 : runEv fuel {} before with
  | error e => simp [h1, Except.map] at h
  | ok r =>
    simp only [h1, Except.map] at h
    injection h with h
    cases h2 : runEv fuel s (.push :: inside ++ [.pop]) with
    | error e => rw [h2] at h'; cases h'
    | ok r' =>
      simp only [h2, Except.map] at h'
      injection h' with h'
      have i1 : Inv s (Env.after Env.start r.2) := by
        have := runEv_inv before inv_start (s' := r.1) (es := r.2) h1
        rwa [h] at this
      have i2 : Inv s' (Env.after (Env.after Env.start r.2) r'.2) := by
        have := runEv_inv (s' := r'.1) (es := r'.2) _ i1 h2
        rwa [h'] at this
      obtain ⟨s1, e1, e2, y1, y2, y3⟩ := runEv_append (.push :: inside) [.pop] s r'.1 r'.2 h2
      have hp : ∃ x, e1 = .enter :: x ∧ nesting 0 x = some 0 := by
        obtain ⟨s2, x1, x2, z1, z2, z3⟩ := runEv_append [.push] inside s s1 e1 y1
        have : x1 = [.enter] := by
          simp only [runEv, stepEv, bind, Except.bind] at z1
          injection z1 with z1; injection z1 with _ z1; exact z1.symm
        subst this
        exact ⟨x2, z3, by rw [nesting_ops inside _ _ _ 0 z2, hb]⟩
      obtain ⟨x, rfl, hx⟩ := hp
      have he2 : e2 = [.leave] := by
        simp only [runEv, stepEv, bind, Except.bind] at y2
        cases h3 : s1.ns.pop with
        | error e => simp [h3] at y2
        | ok ns => simp only [h3] at y2; injection y2 with y2; injection y2 with _ y2; exact y2.symm
      subst he2
      obtain ⟨inner, hl, hi⟩ := after_nesting x 0 [noNames] (Env.after Env.start r.2) rfl 0 hx
      have key : Env.after (Env.after Env.start r.2) r'.2 = Env.after Env.start r.2 := by
        rw [y3]
        have : Env.after (Env.after Env.start r.2) (.enter :: x ++ [.leave]) =
            Env.step (Env.after ([noNames] ++ Env.after Env.start r.2) x) .leave := by
          simp only [Env.after, List.foldl_append, List.cons_append, List.foldl_cons, List.foldl_nil]
          rfl
        rw [this, hi]
        match inner, hl with
        | [m], _ => rfl
      rw [key] at i2
      have a1 := i1.agree.look 0 name (Nat.zero_le _)
      have a2 := i2.agree.look 0 name (Nat.zero_le _)
      simp only [Ns.outer, List.drop_zero] at a1 a2
      rw [a1, a2]

theorem run_valid {fuel : Nat} {ops : List Op} {s : State} (h : run fuel {} ops = .ok s) (name : Bytes) (p : Nat)
    (hl : s.ns.lookup name = some p) : p < s.syms.length := by
  rw [runEv_run] at h
  cases h1 : runEv fuel {} ops with
  | error e => rw [h1] at h; cases h
  | ok r =>
    rw [h1] at h
    simp only [Except.map] at h
    injection h with h
    subst h
    rw [C24_lookup fuel ops r.1 r.2 h1 name] at hl
    exact meaning_bounded (runEv_bounded ops (s := {}) (s' := r.1) (by intro m hm x p hp; simp [Env.start] at hm; subst hm; simp [noNames] at hp) h1) hl

/-- **C24**: an object declared in a block without external linkage is a new entity, whatever the name meant before, and no
existing entity changes. -/
theorem C24_new (fuel : Nat) (ops : List Op) (s : State) (name : Bytes) (sc : Storage) (t : Ty) (h : run fuel {} ops = .ok s)
    (hd : s.ns.depth ≠ 0) (ht : t.of ≠ .function) (hs : sc ≠ .extern) :
    ∃ s' p, declare fuel s name sc t .plain = .ok (s', p) ∧ p = s.syms.length ∧ s'.ns.lookup name = some p ∧
      (∃ sym, s'.syms[p]? = some sym ∧ sym.ty = t ∧ sym.name = name) ∧ ∀ q, q < p → s'.syms[q]? = s.syms[q]? := by
  have hl : (symtypeOf s.ns.depth sc).2 ≠ .extern := by cases sc <;> simp_all [symtypeOf]
  have hst : (symtypeOf s.ns.depth sc).1 ≠ .label := by cases sc <;> simp_all [symtypeOf]
  generalize hsl : symtypeOf s.ns.depth sc = sl at hl hst
  have hadd : add fuel s name t sl.1 sl.2 = .ok (newSymbol s name t sl.1 sl.2) := by
    unfold add
    rw [if_neg hst]
    cases hx : s.ns.lookup name with
    | none => simp only [ht, and_false, if_false]
    | some p =>
      have := run_valid h name p hx
      have hp : s.syms[p]? = some s.syms[p] := List.getElem?_eq_getElem this
      simp only [hp, hd, hl, or_self, false_and, if_false]
  refine ⟨(newSymbol s name t sl.1 sl.2).1, s.syms.length, ?_, rfl, ?_, ?_, ?_⟩
  · unfold declare
    rw [adjust_obj ht, hsl]
    simp only [bind, Except.bind, hadd, finishDecl]
    simp [newSymbol]
  · unfold Ns.depth at hd
    simp only [newSymbol, Ns.makeVisible]
    cases hc : s.ns.counts with
    | nil => simp [hc] at hd
    | cons c cs => simp [Ns.lookup]
  · simp [newSymbol]
  · intro q hq
    simp [newSymbol, List.getElem?_append_left hq]

/-- `int x; { int x; { int y; } x; }`: the two `x` are different entities. -/
def sampleOps : List Op :=
  [.add (str% "x") { kind := .int } .tentative .extern, .push, .add (str% "x") { kind := .int } .definition .none,
   .push, .add (str% "y") { kind := .int } .definition .none, .pop]

example : (match run 5 {} sampleOps with | .ok s => (s.ns.lookup (str% "x"), s.ns.lookup (str% "y"), s.ns.depth) | .error _ => (none, none, 0)) =
    (some 1, none, 1) := by decide +kernel

example : (match run 5 {} (sampleOps ++ [.pop]) with | .ok s => s.ns.lookup (str% "x") | .error _ => none) = some 0 := by
  decide +kernel

/-- The hypotheses of `C24_restore` hold for the inner block of the sample. -/
example : opNesting 0 [Op.push, .add (str% "y") { kind := .int } .definition .none, .pop] = some 0 ∧
    (∃ s, run 5 {} (sampleOps.take 2) = .ok s ∧ s.ns.depth ≠ 0) := ⟨rfl, _, rfl, by decide⟩

/-! ## C25 -/

theorem objects_run {fuel : Nat} {name : Bytes} {t : Ty} (ht : t.of ≠ .function) : ∀ (ds : List Obj) (s : State) (c : Spec.Linkage × Spec.State),
    Has s name t c → Stable fuel s.types t → (∀ d ∈ ds, ¬ (d.storage = .extern ∧ d.init = true)) →
    match objects (some c) ds with
    | none => declareAll fuel name t s (ds.map objForm) = .error .diag
    | some c' => ∃ s' c'', c' = some c'' ∧ declareAll fuel name t s (ds.map objForm) = .ok s' ∧ Has s' name t c''
  | [], s, c, h, hS, hd => ⟨s, c, rfl, rfl, h⟩
  | d :: ds, s, c, h, hS, hd => by
    have st := obj_again (d := d) h hS ht (hd d List.mem_cons_self)
    simp only [objects, List.map_cons, declareAll]
    cases h1 : stepObj (some c) d with
    | none => rw [h1] at st; simp only [st]
    | some c1 =>
      rw [h1] at st
      obtain ⟨r, e, hr, ht'⟩ := st
      simp only [e]
      exact objects_run ht ds r.1 c1 hr (ht' ▸ hS) (fun d hm => hd d (List.mem_cons_of_mem _ hm))

/-- **C25** (partial): any sequence of file scope declarations of an object, with one type: it is accepted exactly if the
standard permits it, otherwise diagnosed, and the linkage and definition state at the end is the composite one.
Missing: `extern` declarations with initialiser (`C25_extern_init_violated`), declarations with different types (see
`C25_array_violated`; compatibility is C21), and block scope (`C25_block_violated`). -/
theorem C25_objects_partial (fuel : Nat) (s : State) (name : Bytes) (t : Ty) (ds : List Obj) (hf : Fresh s name)
    (hS : Stable fuel s.types t) (ht : t.of ≠ .function) (hne : ds ≠ []) (hd : ∀ d ∈ ds, ¬ (d.storage = .extern ∧ d.init = true)) :
    match objects none ds with
    | none => declareAll fuel name t s (ds.map objForm) = .error .diag
    | some c => ∃ s' l st, c = some (l, st) ∧ declareAll fuel name t s (ds.map objForm) = .ok s' ∧ Has s' name t (l, st) := by
  cases ds with
  | nil => exact absurd rfl hne
  | cons d ds =>
    obtain ⟨c, h1, r, e, hr, ht'⟩ := obj_first (fuel := fuel) (t := t) hf ht (hd d List.mem_cons_self)
    simp only [objects, h1, List.map_cons, declareAll, e]
    have := objects_run ht ds r.1 c hr (ht' ▸ hS) (fun d hm => hd d (List.mem_cons_of_mem _ hm))
    cases h2 : objects (some c) ds with
    | none => rw [h2] at this; exact this
    | some c' =>
      rw [h2] at this
      obtain ⟨s', c'', e1, e2, e3⟩ := this
      exact ⟨s', c''.1, c''.2, e1, e2, e3⟩

/-- Scalar types agree with themselves. -/
theorem stable_basic (fuel : Nat) (H : Heap) (t : Ty) (hp : t.isPtr = false)
    (hk : t.kind ∈ [Kind.bool, .char, .short, .int, .long, .float, .double, .ldouble]) : Stable (fuel + 1) H t := by
  have ho : t.of = t.kind := by simp [Ty.of, hp]
  simp only [List.mem_cons, List.not_mem_nil, or_false] at hk
  constructor
  · unfold applyType
    have : isCompatible H (fuel + 1) t t = .ok true := by
      simp only [isCompatible, ne_eq, not_true_eq_false, or_self, if_false, ho]
      rcases hk with h | h | h | h | h | h | h | h <;> simp [h]
    simp only [this, ho, bind, Except.bind, ofR]
    rcases hk with h | h | h | h | h | h | h | h <;> simp [h]
  · simp [typeEqual, Ty.sameFlags]

/-- `static int x; extern int x; static int x = 1; static int x;`, and with one more `int x;`. -/
example : Fresh {} (str% "x") ∧ Stable 1 [] { kind := .int } ∧
    objects none [⟨.static, false⟩, ⟨.extern, false⟩, ⟨.static, true⟩, ⟨.static, false⟩] = some (some (.internal, .defined)) ∧
    objects none [⟨.static, false⟩, ⟨.extern, false⟩, ⟨.static, true⟩, ⟨.static, false⟩, ⟨.none, false⟩] = none :=
  ⟨⟨rfl, rfl, rfl, rfl⟩, stable_basic 0 _ _ rfl (by decide), by decide, by decide⟩

theorem functions_run {fuel : Nat} {name : Bytes} {t : Ty} (ht : t.of = .function) : ∀ (ds : List Fun) (s : State) (c : Spec.Linkage × Spec.State),
    Has s name t c → Stable fuel s.types t → c.2 ≠ .tentative →
    (ds.filter (·.body)).length + (if c.2 = .defined then 1 else 0) ≤ 1 →
    match functions (some c) ds with
    | none => declareAll fuel name t s (ds.map funForm) = .error .diag
    | some c' => ∃ s' c'', c' = some c'' ∧ declareAll fuel name t s (ds.map funForm) = .ok s' ∧ Has s' name t c''
  | [], s, c, h, hS, hd, _ => ⟨s, c, rfl, rfl, h⟩
  | d :: ds, s, c, h, hS, hd, hb => by
    have st := fun_again (d := d) h hS ht (by
      rintro ⟨h1, h2⟩
      simp [h1, h2] at hb) hd
    simp only [functions, List.map_cons, declareAll]
    cases h1 : stepFun (some c) d with
    | none => rw [h1] at st; simp only [st]
    | some c1 =>
      rw [h1] at st
      obtain ⟨r, e, hr, ht'⟩ := st
      simp only [e]
      have hc : c1.2 ≠ .tentative ∧ (c1.2 = .defined → c.2 = .defined ∨ d.body = true) := by
        unfold stepFun at h1
        simp only at h1
        split_ifs at h1 <;> (injection h1 with h1; subst h1) <;> simp_all
      refine functions_run ht ds r.1 c1 hr (ht' ▸ hS) hc.1 ?_
      have hlen : ((d :: ds).filter (·.body)).length = (if d.body = true then 1 else 0) + (ds.filter (·.body)).length := by
        simp only [List.filter_cons]; split_ifs <;> simp; omega
      rw [hlen] at hb
      by_cases hdef : c1.2 = .defined
      · rcases hc.2 hdef with h2 | h2
        · rw [if_pos hdef]; rw [if_pos h2] at hb; omega
        · rw [if_pos hdef]; rw [if_pos h2] at hb; omega
      · rw [if_neg hdef]; omega

/-- **C25** (partial): any sequence of file scope declarations of a function with one type and at most one body.
Missing: two bodies (`C25_function_twice_violated`) and declarations with different types. -/
theorem C25_functions_partial (fuel : Nat) (s : State) (name : Bytes) (t : Ty) (ds : List Fun) (hf : Fresh s name)
    (hS : Stable fuel s.types t) (ht : t.of = .function) (hne : ds ≠ []) (hb : (ds.filter (·.body)).length ≤ 1) :
    match functions none ds with
    | none => declareAll fuel name t s (ds.map funForm) = .error .diag
    | some c => ∃ s' l st, c = some (l, st) ∧ declareAll fuel name t s (ds.map funForm) = .ok s' ∧ Has s' name t (l, st) := by
  cases ds with
  | nil => exact absurd rfl hne
  | cons d ds =>
    obtain ⟨c, h1, r, e, hr, ht'⟩ := fun_first (fuel := fuel) (t := t) (d := d) hf ht
    simp only [functions, h1, List.map_cons, declareAll, e]
    have hc : c.2 = if d.body then .defined else .declared := by
      simp only [stepFun] at h1; injection h1 with h1; rw [← h1]
    have := functions_run ht ds r.1 c hr (ht' ▸ hS) (by rw [hc]; split_ifs <;> simp) (by
      rw [hc]
      simp only [List.filter_cons] at hb
      split_ifs at hb ⊢ <;> simp_all)
    cases h2 : functions (some c) ds with
    | none => rw [h2] at this; exact this
    | some c' =>
      rw [h2] at this
      obtain ⟨s', c'', e1, e2, e3⟩ := this
      exact ⟨s', c''.1, c''.2, e1, e2, e3⟩

def funHeap : Heap := [{ kind := .function, next := { kind := .int }, members := [⟨[], { kind := .int }, 0⟩] }]

/-- `static int f(int); int f(int x) { ... } extern int f(int);` -/
example : Fresh { types := funHeap } (str% "f") ∧ Stable 4 funHeap { kind := .function, ref := 1 } ∧
    functions none [⟨.static, false⟩, ⟨.none, true⟩, ⟨.extern, false⟩] = some (some (.internal, .defined)) ∧
    functions none [⟨.none, false⟩, ⟨.static, true⟩] = none :=
  ⟨⟨rfl, rfl, rfl, rfl⟩, ⟨by rfl, by rfl⟩, by decide, by decide⟩

/-- `extern int x = 1;` is a valid definition and is rejected. -/
theorem C25_extern_init_violated : objects none [⟨.extern, true⟩] = some (some (.external, .defined)) ∧
    declareAll 3 (str% "x") { kind := .int } {} [(.extern, .init)] = .error .diag := by
  constructor <;> rfl

/-- `int f(int x) {} int f(int x) {}` is accepted. -/
theorem C25_function_twice_violated : functions none [⟨.none, true⟩, ⟨.none, true⟩] = none ∧
    ∃ s, declareAll 4 (str% "f") { kind := .function, ref := 1 } { types := funHeap } [(.none, .body), (.none, .body)] = .ok s :=
  ⟨by decide, _, rfl⟩

/-- `typedef int x; int x;`: an identifier that names both a type and an object in one scope is accepted (6.7p3). -/
theorem C25_typedef_violated : ∃ s, declareAll 4 (str% "x") { kind := .int } {} [(.typedef, .plain), (.none, .plain)] = .ok s :=
  ⟨_, rfl⟩

/-- `{ int x; int x; }`: two objects without linkage in one scope are accepted (6.7p3). -/
theorem C25_block_violated : ∃ s, declareAll 4 (str% "x") { kind := .int } { ns := Ns.push {} } [(.none, .plain), (.none, .plain)] = .ok s :=
  ⟨_, rfl⟩

/-- `int a[3] = {0}; extern int a[];` is valid and rejected, though `int a[3]; extern int a[];` is accepted. -/
theorem C25_array_violated :
    let H : Heap := [{ kind := .array, size := 3, next := { kind := .int } }, { kind := .array, incomplete := true, next := { kind := .int } }]
    let a3 : Ty := { kind := .array, ref := 1 }
    let a : Ty := { kind := .array, ref := 2 }
    (∃ r, declare 4 { types := H } (str% "a") .none a3 .init = .ok r ∧ declare 4 r.1 (str% "a") .extern a .plain = .error .diag) ∧
    (∃ r, declare 4 { types := H } (str% "a") .none a3 .plain = .ok r ∧ ∃ r', declare 4 r.1 (str% "a") .extern a .plain = .ok r') :=
  ⟨⟨_, rfl, rfl⟩, ⟨_, rfl, _, rfl⟩⟩

end Verif.Symtab
