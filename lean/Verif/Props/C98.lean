import Verif.Tags.Spec

/-!
# C98: tags denote the types that C says

In full: in every program each specifier with a tag is the type C says, new or declared before,
complete or not, and programs that C does not allow to declare their tags so are diagnosed.

Proved for programs in which no structure or union is declared with a tag that is visible from an
outer scope, no tag among the parameters of a function definition, and no type within its own
list of members (`C98_tags_partial`).  Each condition is needed: `C98_hiding_violated`,
`C98_hidden_kind_violated`, `C98_outer_violated`, `C98_alone_violated`, `C98_parameters_violated`,
`C98_nested_violated`.
-/

namespace Verif.Tags

/-- The state of the compiler with the tags of C: `tl` are the outer scopes. -/
structure Rel (o h : Env) (st : St) (tl : List (List (Name × Tag))) (s : State) : Prop where
  scopes : ∃ hd, s.scopes = hd :: tl ∧ ∀ n, hd.lookup n = h n
  outer : ∀ n, tl.flatten.lookup n = o n
  next : s.next = st.next
  done : s.done = st.done
  sub : ∀ i, i ∈ st.done → i ∈ st.begun

theorem recKind_eq (u : Bool) : recKind u = kindOf u := by cases u <;> rfl

theorem lookup_append (a b : List (Name × Tag)) (n : Name) :
    (a ++ b).lookup n = match a.lookup n with | some t => some t | none => b.lookup n := by
  induction a with
  | nil => rfl
  | cons x a ih =>
    obtain ⟨m, t⟩ := x
    simp only [List.cons_append, List.lookup]
    by_cases h : n == m
    · simp [h]
    · simp only [h, ih]

theorem Rel.lookup {o h : Env} {st : St} {tl : List (List (Name × Tag))} {s : State}
    (r : Rel o h st tl s) (n : Name) : lookup s n = h.over o n := by
  obtain ⟨hd, e, hl⟩ := r.scopes
  simp only [Tags.lookup, e, List.flatten_cons, lookup_append, Env.over, hl, r.outer]
  cases h n <;> rfl

theorem Rel.here {o h : Env} {st : St} {tl : List (List (Name × Tag))} {s : State}
    (r : Rel o h st tl s) (n : Name) : here s n = h n := by
  obtain ⟨hd, e, hl⟩ := r.scopes
  simp [Tags.here, e, hl]

theorem Rel.push {o h : Env} {st : St} {tl : List (List (Name × Tag))} {s : State}
    (r : Rel o h st tl s) : Rel (h.over o) .empty st s.scopes (push s) where
  scopes := ⟨[], rfl, fun _ => rfl⟩
  outer n := r.lookup n
  next := r.next
  done := r.done
  sub := r.sub

theorem Rel.pop {o h h' o' : Env} {st st' : St} {tl : List (List (Name × Tag))} {s s' : State}
    (r : Rel o h st tl s) (r' : Rel o' h' st' s.scopes s') : Rel o h st' tl (pop s') where
  scopes := by
    obtain ⟨hd, e, hl⟩ := r.scopes
    obtain ⟨hd', e', _⟩ := r'.scopes
    exact ⟨hd, by simp [Tags.pop, e', e], hl⟩
  outer := r.outer
  next := r'.next
  done := r'.done
  sub := r'.sub

theorem Rel.add {o h : Env} {st : St} {tl : List (List (Name × Tag))} {s : State}
    (r : Rel o h st tl s) (n : Name) (k : Kind) :
    Rel o (h.set n ⟨k, st.next⟩) { st with next := st.next + 1 } tl (add s n k).1 ∧
    (add s n k).2 = st.next := by
  obtain ⟨hd, e, hl⟩ := r.scopes
  simp only [Tags.add, e, r.next, and_true]
  refine ⟨⟨_, rfl, fun m => ?_⟩, r.outer, rfl, r.done, r.sub⟩
  by_cases hm : m = n
  · subst hm; simp [Env.set]
  · have : (m == n) = false := by simpa using hm
    simp [List.lookup, this, hl, Env.set, hm]

/-- The tag found is the one C has, when it is looked for in the right environment. -/
theorem Rel.tagOf {o h e : Env} {st : St} {tl : List (List (Name × Tag))} {s : State}
    (r : Rel o h st tl s) (k : Kind) (n : Name) (he : e n = h.over o n) :
    match find h e st k n with
    | none => Tags.tagOf s k n = none
    | some (h1, st1, i) => ∃ s1, Tags.tagOf s k n = some (s1, i) ∧ Rel o h1 st1 tl s1 := by
  unfold find Tags.tagOf
  rw [r.lookup, he]
  cases h.over o n with
  | none =>
    obtain ⟨a, b⟩ := r.add n k
    exact ⟨_, by rw [← b], a⟩
  | some t =>
    by_cases hk : t.kind = k
    · simp [hk, r]
    · simp [hk]

theorem Rel.complete {o h : Env} {st : St} {tl : List (List (Name × Tag))} {s : State}
    (r : Rel o h st tl s) (i : Nat) (hi : i ∈ st.begun) :
    Rel o h { st with done := i :: st.done } tl { s with done := i :: s.done } where
  scopes := r.scopes
  outer := r.outer
  next := r.next
  done := by simp [r.done]
  sub j hj := by
    rcases List.mem_cons.1 hj with rfl | hj
    · exact hi
    · exact r.sub _ hj

theorem Rel.begin {o h : Env} {st : St} {tl : List (List (Name × Tag))} {s : State}
    (r : Rel o h st tl s) (i : Nat) :
    Rel o h { st with begun := i :: st.begun } tl s where
  scopes := r.scopes
  outer := r.outer
  next := r.next
  done := r.done
  sub j hj := List.mem_cons_of_mem _ (r.sub j hj)

/-- What has begun stays begun. -/
theorem begun_mono : ∀ (p : Prog) (o h : Env) (st : St) (h' : Env) (st' : St) (os : List Out),
    mean o h st p = some (h', st', os) → ∀ i, i ∈ st.begun → i ∈ st'.begun := by
  have hf : ∀ {h e : Env} {st : St} {k : Kind} {n : Name} {h1 : Env} {st1 : St} {i : Nat},
      find h e st k n = some (h1, st1, i) → st1.begun = st.begun := by
    intro h e st k n h1 st1 i hh
    unfold find at hh
    split at hh
    · obtain ⟨_, rfl, _⟩ := hh; rfl
    · split at hh
      · cases hh; rfl
      · cases hh
  intro p
  induction p with
  | nil => intro o h st h' st' os hm i hi; simp only [mean, Option.some.injEq, Prod.mk.injEq] at hm
           rw [← hm.2.1]; exact hi
  | scope b r ib ir =>
    intro o h st h' st' os hm i hi
    simp only [mean] at hm
    split at hm
    · cases hm
    · rename_i h1
      split at hm
      · cases hm
      · rename_i h2
        simp only [Option.some.injEq, Prod.mk.injEq] at hm
        rw [← hm.2.1]
        exact ir _ _ _ _ _ _ h2 i (ib _ _ _ _ _ _ h1 i hi)
  | func ps b r ip ib ir =>
    intro o h st h' st' os hm i hi
    simp only [mean] at hm
    split at hm
    · cases hm
    · rename_i h1
      split at hm
      · cases hm
      · rename_i h2
        split at hm
        · cases hm
        · rename_i h3
          simp only [Option.some.injEq, Prod.mk.injEq] at hm
          rw [← hm.2.1]
          exact ir _ _ _ _ _ _ h3 i (ib _ _ _ _ _ _ h2 i (ip _ _ _ _ _ _ h1 i hi))
  | ref u n a r ir =>
    intro o h st h' st' os hm i hi
    simp only [mean] at hm
    split at hm
    · cases hm
    · rename_i h1
      split at hm
      · cases hm
      · rename_i h2
        simp only [Option.some.injEq, Prod.mk.injEq] at hm
        rw [← hm.2.1]
        exact ir _ _ _ _ _ _ h2 i (by rw [hf h1]; exact hi)
  | defn u n m r im ir =>
    intro o h st h' st' os hm i hi
    simp only [mean] at hm
    split at hm
    · cases hm
    · rename_i h1
      split at hm
      · cases hm
      · split at hm
        · cases hm
        · rename_i h2
          split at hm
          · cases hm
          · rename_i h3
            simp only [Option.some.injEq, Prod.mk.injEq] at hm
            rw [← hm.2.1]
            exact ir _ _ _ _ _ _ h3 i (im _ _ _ _ _ _ h2 i
              (List.mem_cons_of_mem _ (by rw [hf h1]; exact hi)))
  | enumDef n r ir =>
    intro o h st h' st' os hm i hi
    simp only [mean] at hm
    split at hm
    · cases hm
    · rename_i h1
      split at hm
      · cases hm
      · exact ir _ _ _ _ _ _ hm i (List.mem_cons_of_mem _ (by rw [hf h1]; exact hi))

theorem parse_ok : ∀ (p : Prog) (o h : Env) (st : St) (tl : List (List (Name × Tag))) (s : State),
    Rel o h st tl s → Plain o h st p →
    match mean o h st p with
    | none => parse s p = none
    | some (h', st', os) => ∃ s', parse s p = some (s', os) ∧ Rel o h' st' tl s' := by
  intro p
  induction p with
  | nil => intro o h st tl s r _; exact ⟨s, rfl, r⟩
  | scope b rest ib ir =>
    intro o h st tl s r hp
    obtain ⟨hb, hr⟩ := hp
    have i1 := ib _ _ _ _ _ r.push hb
    simp only [mean, parse]
    split at i1
    · rename_i e1; simp only [e1, i1]
    · rename_i h1 st1 o1 e1
      obtain ⟨s1, p1, r1⟩ := i1
      have i2 := ir _ _ _ _ _ (r.pop r1) (hr _ _ _ e1)
      simp only [e1, p1]
      split at i2
      · rename_i e2; simp only [e2, i2]
      · rename_i e2
        obtain ⟨s2, p2, r2⟩ := i2
        simp only [e2, p2]
        exact ⟨_, rfl, r2⟩
  | func ps b rest ip ib ir =>
    intro o h st tl s r hp
    obtain ⟨hps, hr⟩ := hp
    have i1 := ip _ _ _ _ _ r.push hps
    simp only [mean, parse]
    split at i1
    · rename_i e1; simp only [e1, i1]
    · rename_i h1 st1 o1 e1
      obtain ⟨s1, p1, r1⟩ := i1
      obtain ⟨rfl, hb, hr⟩ := hr _ _ _ e1
      have i2 := ib _ _ _ _ _ (r.pop r1).push hb
      simp only [e1, p1]
      split at i2
      · rename_i e2; simp only [e2, i2]
      · rename_i e2
        obtain ⟨s2, p2, r2⟩ := i2
        have i3 := ir _ _ _ _ _ ((r.pop r1).pop r2) (hr _ _ _ e2)
        simp only [e2, p2]
        split at i3
        · rename_i e3; simp only [e3, i3]
        · rename_i e3
          obtain ⟨s3, p3, r3⟩ := i3
          simp only [e3, p3]
          exact ⟨_, rfl, r3⟩
  | ref u n a rest ir =>
    intro o h st tl s r hp
    obtain ⟨ha, hr⟩ := hp
    have he : (if a = true then h else h.over o) n = h.over o n := by
      cases a with
      | false => rfl
      | true =>
        simp only [if_true, Env.over]
        cases hh : h n with
        | some t => rfl
        | none => exact (ha rfl hh).symm
    have i1 := r.tagOf (kindOf u) n he
    simp only [mean, parse, recKind_eq]
    split at i1
    · rename_i e1; simp only [e1, i1]
    · rename_i h1 st1 i e1
      obtain ⟨s1, p1, r1⟩ := i1
      have i2 := ir _ _ _ _ _ r1 (hr _ _ _ e1)
      simp only [e1, p1]
      split at i2
      · rename_i e2; simp only [e2, i2]
      · rename_i e2
        obtain ⟨s2, p2, r2⟩ := i2
        simp only [e2, p2, r1.done]
        exact ⟨_, rfl, r2⟩
  | defn u n m rest im ir =>
    intro o h st tl s r hp
    obtain ⟨ha, hr⟩ := hp
    have he : h n = h.over o n := by
      simp only [Env.over]
      cases hh : h n with
      | some t => rfl
      | none => exact (ha hh).symm
    have i1 := r.tagOf (kindOf u) n he
    simp only [mean, parse, recKind_eq]
    split at i1
    · rename_i e1; simp only [e1, i1]
    · rename_i h1 st1 i e1
      obtain ⟨s1, p1, r1⟩ := i1
      obtain ⟨hd, hm, hr⟩ := hr _ _ _ e1
      simp only [e1, p1, r1.done]
      by_cases hi : i ∈ st1.begun
      · rw [if_pos hi, if_pos (hd hi)]
      · rw [if_neg hi, if_neg (fun hh => hi (r1.sub _ hh))]
        have i2 := im _ _ _ _ _ (r1.begin i) hm
        split at i2
        · rename_i e2; simp only [e2, i2]
        · rename_i h2 st2 o2 e2
          obtain ⟨s2, p2, r2⟩ := i2
          have i3 := ir _ _ _ _ _ (r2.complete i
            (begun_mono _ _ _ _ _ _ _ e2 i (by simp))) (hr _ _ _ e2)
          simp only [e2, p2]
          split at i3
          · rename_i e3; simp only [e3, i3]
          · rename_i e3
            obtain ⟨s3, p3, r3⟩ := i3
            simp only [e3, p3]
            exact ⟨_, rfl, r3⟩
  | enumDef n rest ir =>
    intro o h st tl s r hp
    simp only [Plain] at hp
    have i1 : match find h h st .enum n with
        | none => enumFind s n = none
        | some (h1, st1, i) => ∃ s1, enumFind s n = some (s1, i) ∧ Rel o h1 st1 tl s1 := by
      unfold find enumFind
      rw [r.here]
      cases h n with
      | none =>
        obtain ⟨a, b⟩ := r.add n .enum
        exact ⟨_, by rw [← b], a⟩
      | some t =>
        by_cases hk : t.kind = .enum
        · simp [hk, r]
        · simp [hk]
    simp only [mean, parse, enumTag]
    split at i1
    · rename_i e1; simp only [e1, i1]
    · rename_i h1 st1 i e1
      obtain ⟨s1, p1, r1⟩ := i1
      obtain ⟨hd, hq⟩ := hp _ _ _ e1
      simp only [e1, p1]
      by_cases hi : i ∈ st1.begun
      · have hx : i ∈ s1.done := by rw [r1.done]; exact hd hi
        rw [if_pos hi, if_pos hx]
      · have hx : ¬ i ∈ s1.done := by rw [r1.done]; exact fun hh => hi (r1.sub _ hh)
        rw [if_neg hi, if_neg hx]
        exact ir _ _ _ _ _ ((r1.begin i).complete i (by simp)) hq

/-- Specifiers are the types C says, and what C does not allow is diagnosed. -/
theorem C98_tags_partial (p : Prog) (hp : Plain .empty .empty ⟨0, [], []⟩ p) :
    (parse start p).map (·.2) = meaning p := by
  have := parse_ok p .empty .empty ⟨0, [], []⟩ [] start
    ⟨⟨[], rfl, fun _ => rfl⟩, fun _ => rfl, rfl, rfl, fun _ h => h⟩ hp
  unfold meaning
  split at this
  · rename_i e; simp [e, this]
  · rename_i e
    obtain ⟨s', h1, _⟩ := this
    simp [e, h1]

def S : Name := str% "S"
def T : Name := str% "T"

/-- `struct S { struct S *p; }; void g(struct S *); void f(struct S *p) { union T { union T *q; };
union T u; { union T *r; } } enum T { A }; struct S s;` -/
def ex : Prog :=
  .defn false S (.ref false S false .nil) (.scope (.ref false S false .nil)
    (.func (.ref false S false .nil)
      (.defn true T (.ref true T false .nil) (.ref true T false (.scope (.ref true T false .nil) .nil)))
      (.enumDef T (.ref false S false .nil))))

theorem ex_plain : Plain .empty .empty ⟨0, [], []⟩ ex := by
  simp [ex, Plain, mean, find, Env.over, Env.empty, Env.set, S, T, kindOf]

example : (parse start ex).map (·.2) = meaning ex := C98_tags_partial ex ex_plain

example : meaning ex = some [⟨0, false⟩, ⟨0, false⟩, ⟨0, true⟩, ⟨0, true⟩, ⟨1, false⟩, ⟨1, false⟩,
    ⟨1, true⟩, ⟨1, true⟩, ⟨0, true⟩] := by decide

/-- `struct S { ... }; union S u;` is diagnosed. -/
example : meaning (.defn false S .nil (.ref true S false .nil)) = none ∧
    parse start (.defn false S .nil (.ref true S false .nil)) = none := by decide

/-- A second definition is diagnosed. -/
example : meaning (.defn false S .nil (.defn false S .nil .nil)) = none ∧
    parse start (.defn false S .nil (.defn false S .nil .nil)) = none := by decide

/-- `struct S { ... }; void f(void) { struct S { ... }; }` is refused. -/
theorem C98_hiding_violated :
    let p := Prog.defn false S .nil (.func .nil (.defn false S .nil .nil) .nil)
    meaning p = some [⟨0, false⟩, ⟨1, false⟩] ∧ parse start p = none := by decide

/-- `struct S { ... }; void f(void) { union S { ... }; }` is refused. -/
theorem C98_hidden_kind_violated :
    let p := Prog.defn false S .nil (.func .nil (.defn true S .nil .nil) .nil)
    meaning p = some [⟨0, false⟩, ⟨1, false⟩] ∧ parse start p = none := by decide

/-- `struct S *p; void f(void) { struct S { ... }; } struct S s;` is accepted, with the type that
is defined in the block, where in C `struct S` is incomplete. -/
theorem C98_outer_violated :
    let p := Prog.ref false S false (.func .nil (.defn false S .nil .nil) (.ref false S false .nil))
    meaning p = some [⟨0, false⟩, ⟨1, false⟩, ⟨0, false⟩] ∧
    (parse start p).map (·.2) = some [⟨0, false⟩, ⟨0, false⟩, ⟨0, true⟩] := by decide

/-- `struct S { ... }; void f(void) { struct S; struct S *p; }`: `p` points to the outer type. -/
theorem C98_alone_violated :
    let p := Prog.defn false S .nil (.func .nil (.ref false S true (.ref false S false .nil)) .nil)
    meaning p = some [⟨0, false⟩, ⟨1, false⟩, ⟨1, false⟩] ∧
    (parse start p).map (·.2) = some [⟨0, false⟩, ⟨0, true⟩, ⟨0, true⟩] := by decide

/-- `void f(struct S { ... } *p) { struct S s; }`: in the body `S` is not known any more. -/
theorem C98_parameters_violated :
    let p := Prog.func (.defn false S .nil .nil) (.ref false S false .nil) .nil
    meaning p = some [⟨0, false⟩, ⟨0, true⟩] ∧
    (parse start p).map (·.2) = some [⟨0, false⟩, ⟨1, false⟩] := by decide

/-- `struct S { struct S { ... } s; };` is not diagnosed here. -/
theorem C98_nested_violated :
    let p := Prog.defn false S (.defn false S .nil .nil) .nil
    meaning p = none ∧ (parse start p).isSome := by decide

end Verif.Tags
