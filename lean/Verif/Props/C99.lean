import Verif.Enums.Spec

/-!
# C99: enumeration constants have the values C says

In full: in every program each enumeration constant has the value that C says, everywhere in
its scope, and constants that are not representable as `int` or declared twice in a scope are
diagnosed.

Proved: in every program C allows, in which no constant is the greatest `int`, all constants and all
expressions with them have their values (`C99_values_partial`).  The rest does not hold:
`C99_greatest_violated`, `C99_range_violated`, `C99_twice_violated`, `C99_next_violated`.
-/

namespace Verif.Enums

structure Rel (o h : Env) (tl s : State) : Prop where
  scopes : ∃ hd, s = hd :: tl ∧ ∀ n, hd.lookup n = h n
  outer : ∀ n, tl.flatten.lookup n = o n

theorem lookup_append (a b : List (Name × Int)) (n : Name) :
    (a ++ b).lookup n = match a.lookup n with | some t => some t | none => b.lookup n := by
  induction a with
  | nil => rfl
  | cons x a ih =>
    obtain ⟨m, t⟩ := x
    simp only [List.cons_append, List.lookup]
    by_cases h : n == m
    · simp [h]
    · simp only [h, ih]

theorem Rel.lookup {o h : Env} {tl s : State} (r : Rel o h tl s) : lookup s = h.over o := by
  obtain ⟨hd, e, hl⟩ := r.scopes
  funext n
  simp only [Enums.lookup, e, List.flatten_cons, lookup_append, Env.over, hl, r.outer]
  cases h n <;> rfl

theorem Rel.push {o h : Env} {tl s : State} (r : Rel o h tl s) :
    Rel (h.over o) .empty s ([] :: s) :=
  ⟨⟨[], rfl, fun _ => rfl⟩, fun n => congrFun r.lookup n⟩

theorem Rel.add {o h : Env} {tl s : State} (r : Rel o h tl s) (n : Name) (v : Int) :
    Rel o (h.set n v) tl (add s n v) := by
  obtain ⟨hd, e, hl⟩ := r.scopes
  subst e
  refine ⟨⟨_, rfl, fun m => ?_⟩, r.outer⟩
  by_cases hm : m = n
  · subst hm; simp [Env.set]
  · have : (m == n) = false := by simpa using hm
    simp [List.lookup, this, hl, Env.set, hm]

theorem toInt_id {v : Int} (h1 : -2147483648 ≤ v) (h2 : v ≤ 2147483647) : toInt v = v := by
  unfold toInt; omega

/-- No constant is the greatest `int`. -/
def Below (os : List Out) : Prop := ∀ n, Out.const n 2147483647 ∉ os

theorem enumerators_ok (o : Env) (tl : State) : ∀ (l : List (Name × Option Ex)) (h : Env)
    (prev : Option Int) (count : Int) (s : State) (h' : Env) (os : List Out),
    Rel o h tl s → (count = match prev with | none => 0 | some p => p + 1) →
    constants o h prev l = some (h', os) → Below os →
    ∃ s', enumerators s count l = .ok (s', os) ∧ Rel o h' tl s'
  | [], h, prev, count, s, h', os, r, hc, hm, hb => by
    simp only [constants, Option.some.injEq, Prod.mk.injEq] at hm
    obtain ⟨rfl, rfl⟩ := hm
    exact ⟨s, rfl, r⟩
  | (n, e) :: l, h, prev, count, s, h', os, r, hc, hm, hb => by
    simp only [constants, Option.bind_eq_bind, Option.bind_eq_some_iff] at hm
    obtain ⟨v, hv, hm⟩ := hm
    split at hm
    · rename_i hr
      simp only [Option.bind_eq_some_iff, Option.some.injEq, Prod.mk.injEq, Prod.exists] at hm
      obtain ⟨h1, o1, hm, rfl, rfl⟩ := hm
      have hv' : given s count e = some v := by
        cases e with
        | some e =>
          simp only [valueOf] at hv
          simp [given, r.lookup, hv, toInt_id hr.1 hr.2.1]
        | none =>
          cases prev <;> (simp only [valueOf, Option.some.injEq] at hv; simp [given, hc, hv])
      have hne : v ≠ intMax := by
        intro hh
        exact hb n (by rw [hh]; simp [intMax])
      obtain ⟨s', hs, r'⟩ := enumerators_ok o tl l (h.set n v) (some v) (v + 1) (add s n v) h1 o1
        (r.add n v) rfl hm (fun m hh => hb m (List.mem_cons_of_mem _ hh))
      refine ⟨s', ?_, r'⟩
      simp only [enumerators, hv', hne, if_false, hs]
    · cases hm

theorem parse_ok : ∀ (p : Prog) (o h : Env) (tl s : State) (h' : Env) (os : List Out),
    Rel o h tl s → mean o h p = some (h', os) → Below os →
    ∃ s', parse s p = .ok (s', os) ∧ Rel o h' tl s' := by
  intro p
  induction p with
  | nil =>
    intro o h tl s h' os r hm _
    simp only [mean, Option.some.injEq, Prod.mk.injEq] at hm
    obtain ⟨rfl, rfl⟩ := hm
    exact ⟨s, rfl, r⟩
  | scope b rest ib ir =>
    intro o h tl s h' os r hm hb
    simp only [mean, Option.bind_eq_bind, Option.bind_eq_some_iff, Option.some.injEq,
      Prod.mk.injEq, Prod.exists] at hm
    obtain ⟨h1, o1, e1, h2, o2, e2, rfl, rfl⟩ := hm
    obtain ⟨s1, p1, r1⟩ := ib _ _ _ _ _ _ r.push e1 (fun n hn => hb n (by simp [hn]))
    have r1' : Rel o h tl s1.tail := by
      obtain ⟨hd', e', _⟩ := r1.scopes
      rw [e']
      exact r
    obtain ⟨s2, p2, r2⟩ := ir _ _ _ _ _ _ r1' e2 (fun n hn => hb n (by simp [hn]))
    exact ⟨s2, by simp [parse, p1, p2], r2⟩
  | enum l rest ir =>
    intro o h tl s h' os r hm hb
    simp only [mean, Option.bind_eq_bind, Option.bind_eq_some_iff, Option.some.injEq,
      Prod.mk.injEq, Prod.exists] at hm
    obtain ⟨h1, o1, e1, h2, o2, e2, rfl, rfl⟩ := hm
    obtain ⟨s1, p1, r1⟩ := enumerators_ok o tl l h none 0 s h1 o1 r rfl e1
      (fun n hn => hb n (by simp [hn]))
    obtain ⟨s2, p2, r2⟩ := ir _ _ _ _ _ _ r1 e2 (fun n hn => hb n (by simp [hn]))
    exact ⟨s2, by simp [parse, p1, p2], r2⟩
  | use e rest ir =>
    intro o h tl s h' os r hm hb
    simp only [mean, Option.bind_eq_bind, Option.bind_eq_some_iff, Option.some.injEq,
      Prod.mk.injEq, Prod.exists] at hm
    obtain ⟨v, hv, h1, o1, e1, rfl, rfl⟩ := hm
    obtain ⟨s1, p1, r1⟩ := ir _ _ _ _ _ _ r e1 (fun n hn => hb n (by simp [hn]))
    exact ⟨s1, by simp [parse, r.lookup, hv, p1], r1⟩

/-- Constants, and expressions with them, have the values C says. -/
theorem C99_values_partial (p : Prog) (os : List Out) (hm : meaning p = some os)
    (hb : Below os) : outputs p = .ok os := by
  simp only [meaning, Option.map_eq_some_iff, Prod.exists] at hm
  obtain ⟨h', os', hm, rfl⟩ := hm
  obtain ⟨s', hs, _⟩ := parse_ok p .empty .empty [] [[]] h' os'
    ⟨⟨[], rfl, fun _ => rfl⟩, fun _ => rfl⟩ hm hb
  simp [outputs, hs, Except.map]

def A : Name := str% "A"
def B : Name := str% "B"

def lit (v : Int) : Ex := fun _ => some v
def var (n : Name) (d : Int) : Ex := fun env => (env n).map (· + d)

/-- `enum { A = 5, B }; { enum { B = B + 10, A = B - 20 }; A; } B;` -/
def ex : Prog :=
  .enum [(A, some (lit 5)), (B, none)]
    (.scope (.enum [(B, some (var B 10)), (A, some (var B (-20)))] (.use (var A 0) .nil))
      (.use (var B 0) .nil))

example : meaning ex = some [.const A 5, .const B 6, .const B 16, .const A (-4), .value (-4),
    .value 6] := by decide

example : outputs ex = .ok [.const A 5, .const B 6, .const B 16, .const A (-4), .value (-4),
    .value 6] :=
  C99_values_partial ex _ (by decide) (by intro n; simp)

/-- `enum { A = 0x7fffffff };` makes the compiler add one to the greatest `int`. -/
theorem C99_greatest_violated :
    meaning (.enum [(A, some (lit 2147483647))] .nil) = some [.const A 2147483647] ∧
    outputs (.enum [(A, some (lit 2147483647))] .nil) = .error .undef := by decide

/-- `enum { A = 0x100000005 };` is accepted, with the value 5. -/
theorem C99_range_violated :
    meaning (.enum [(A, some (lit 4294967301))] .nil) = none ∧
    outputs (.enum [(A, some (lit 4294967301))] .nil) = .ok [.const A 5] := by decide

/-- `enum { A, A = 3 };` is accepted. -/
theorem C99_twice_violated :
    meaning (.enum [(A, none), (A, some (lit 3))] (.use (var A 0) .nil)) = none ∧
    outputs (.enum [(A, none), (A, some (lit 3))] (.use (var A 0) .nil)) =
      .ok [.const A 0, .const A 3, .value 3] := by decide

/-- `enum { A = 0x7fffffff, B };` is not diagnosed. -/
theorem C99_next_violated :
    meaning (.enum [(A, some (lit 2147483647)), (B, none)] .nil) = none ∧
    outputs (.enum [(A, some (lit 2147483647)), (B, none)] .nil) = .error .undef := by decide

end Verif.Enums
