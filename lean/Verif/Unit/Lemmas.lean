import Verif.Unit.Spec

namespace Verif.Unit

/-! ## Throwaway blocks -/

theorem popLoop_spec (n : Nat) : ∀ (fuel i : Nat) (d : Def), d.nodes.length < fuel →
    ∃ k, k ≤ d.nodes.length - n - i
      ∧ popLoop n fuel i d = { d with nodes := d.nodes.drop k, free := (d.nodes.take k).reverse ++ d.free }
      ∧ d.nodes.length ≤ n + i + 2 * k ∧ n + i + 2 * k ≤ max (n + i) (d.nodes.length + 1) := by
  intro fuel
  induction fuel with
  | zero => intro i d h; omega
  | succ fuel ih =>
    intro i d h
    unfold popLoop
    split_ifs with hc
    · cases hd : d.nodes with
      | nil => rw [hd] at hc; simp at hc
      | cons b nodes =>
        simp only
        rw [hd] at hc h
        simp only [List.length_cons] at hc h
        obtain ⟨k, h1, h2, h3, h4⟩ := ih (i + 1) { d with nodes := nodes, free := b :: d.free } (by simp only; omega)
        simp only at h1 h2 h3 h4
        refine ⟨k + 1, by simp only [List.length_cons]; omega, ?_, by simp only [List.length_cons]; omega,
          by simp only [List.length_cons]; omega⟩
        rw [h2]
        simp
    · exact ⟨0, by omega, by simp, by omega, by omega⟩

/-- `d'` is `d` with things added. -/
structure Grown (d d' : Def) : Prop where
  nodes : ∃ new, d'.nodes = new ++ d.nodes
  statements : ∃ new, d'.statements = new ++ d.statements
  restore : d'.restore = d.restore

theorem Grown.refl (d : Def) : Grown d d := ⟨⟨[], rfl⟩, ⟨[], rfl⟩, rfl⟩

theorem Grown.trans {a b c : Def} (h : Grown a b) (h' : Grown b c) : Grown a c := by
  obtain ⟨x, hx⟩ := h.nodes
  obtain ⟨y, hy⟩ := h'.nodes
  obtain ⟨z, hz⟩ := h.statements
  obtain ⟨w, hw⟩ := h'.statements
  exact ⟨⟨y ++ x, by rw [hy, hx, List.append_assoc]⟩, ⟨w ++ z, by rw [hw, hz, List.append_assoc]⟩,
    h'.restore.trans h.restore⟩

theorem blockInit_grown (d : Def) : Grown d (blockInit d).1 ∧ (blockInit d).1.nodes.length = d.nodes.length + 1
    ∧ (blockInit d).1.statements = d.statements := by
  unfold blockInit
  split <;> exact ⟨⟨⟨[_], rfl⟩, ⟨[], rfl⟩, rfl⟩, rfl, rfl⟩

theorem restore_grown {d d' : Def} (h : Grown (beginThrowaway d).1 d') :
    ∃ r, restoreBlock d' = some r ∧ Grown d r ∧ r.statements = d.statements
      ∧ ∃ new, d'.nodes = new ++ d.nodes ∧ 1 ≤ new.length ∧ r.nodes = new.drop ((new.length + 1) / 2) ++ d.nodes
        ∧ r.free = (new.take ((new.length + 1) / 2)).reverse ++ d'.free := by
  obtain ⟨g, gl, gs⟩ := blockInit_grown { d with restore := d.nodes.length :: d.statements.length :: d.restore }
  have hg := g.trans h
  obtain ⟨x, hx⟩ := h.nodes
  obtain ⟨n1, hn1⟩ := hg.nodes
  obtain ⟨s1, hs1⟩ := hg.statements
  have hr := hg.restore
  simp only at hn1 hs1 hr
  have hlen : 1 ≤ n1.length := by
    have e1 := congrArg List.length hx
    have e2 := congrArg List.length hn1
    have e3 : (beginThrowaway d).1.nodes.length = d.nodes.length + 1 := gl
    simp only [List.length_append] at e1 e2
    omega
  unfold restoreBlock
  rw [hr]
  simp only
  obtain ⟨k, k1, k2, k3, k4⟩ := popLoop_spec d.nodes.length (d'.nodes.length + 1) 0 { d' with restore := d.restore } (by simp)
  simp only at k1 k2 k3 k4
  rw [k2]
  have hk : k = (n1.length + 1) / 2 := by
    rw [hn1, List.length_append] at k3 k4
    omega
  have hkl : (n1.length + 1) / 2 ≤ n1.length := by omega
  subst hk
  refine ⟨_, rfl, ⟨⟨n1.drop ((n1.length + 1) / 2), ?_⟩, ⟨[], ?_⟩, rfl⟩, ?_, n1, hn1, hlen, ?_, ?_⟩
  · simp only [hn1]
    rw [List.drop_append_of_le_length hkl]
  · simp only [hs1, List.length_append, Nat.add_sub_cancel, List.drop_left, List.nil_append]
  · simp only [hs1, List.length_append, Nat.add_sub_cancel, List.drop_left]
  · simp only [hn1]
    rw [List.drop_append_of_le_length hkl]
  · simp only [hn1]
    rw [List.take_append_of_le_length hkl]

mutual
theorem act_grown (d : Def) (a : Act) : ∃ d', act d a = some d' ∧ Grown d d' := by
  cases a with
  | block => exact ⟨_, by rw [act], (blockInit_grown d).1⟩
  | statement s => exact ⟨addStatement d s, by rw [act], ⟨[], rfl⟩, ⟨[s], rfl⟩, rfl⟩
  | discarded as =>
    obtain ⟨d', h1, h2⟩ := acts_grown (beginThrowaway d).1 as
    obtain ⟨r, h3, h4, _⟩ := restore_grown h2
    exact ⟨r, by rw [act, h1, Option.bind_some, h3], h4⟩

theorem acts_grown (d : Def) (as : List Act) : ∃ d', acts d as = some d' ∧ Grown d d' := by
  cases as with
  | nil => exact ⟨d, by rw [acts], Grown.refl d⟩
  | cons a as =>
    obtain ⟨d', h1, h2⟩ := act_grown d a
    obtain ⟨d'', h3, h4⟩ := acts_grown d' as
    exact ⟨d'', by rw [acts, h1, Option.bind_some, h3], h2.trans h4⟩
end

/-! ## Inline functions -/

theorem parse_spec (queue : List Fn) (p : Pending) :
    (∃ a f b, queue = a ++ f :: b ∧ (∀ g ∈ a, g.inlined = true) ∧ f.inlined = false
      ∧ parse queue p = (some f, b, { p with inlines := p.inlines ++ a }))
    ∨ (∀ g ∈ queue, g.inlined = true)
      ∧ parse queue p = ((popInline { p with inlines := p.inlines ++ queue }).1, [],
          (popInline { p with inlines := p.inlines ++ queue }).2) := by
  induction queue generalizing p with
  | nil =>
    right
    refine ⟨by simp, ?_⟩
    simp [parse]
  | cons f queue ih =>
    by_cases hf : f.inlined = true
    · rcases ih { p with inlines := p.inlines ++ [f] } with ⟨a, g, b, h1, h2, h3, h4⟩ | ⟨h1, h2⟩
      · left
        refine ⟨f :: a, g, b, by rw [h1]; rfl, ?_, h3, ?_⟩
        · intro x hx
          rcases List.mem_cons.mp hx with rfl | hx
          · exact hf
          · exact h2 x hx
        · rw [parse, if_pos hf, h4]
          simp
      · right
        refine ⟨?_, ?_⟩
        · intro x hx
          rcases List.mem_cons.mp hx with rfl | hx
          · exact hf
          · exact h1 x hx
        · rw [parse, if_pos hf, h2]
          simp
    · left
      exact ⟨[], f, queue, rfl, by simp, by simpa using hf, by rw [parse, if_neg hf]; simp⟩

/-- What is true between two calls of `parse`. -/
structure Inv (unit : List Fn) (marked : List Nat) (refs : Nat → List Nat) (done queue : List Fn) (p : Pending) : Prop where
  perm : (done ++ (p.inlines ++ queue)).Perm unit
  refd : ∀ s, s ∈ p.referenced ↔ s ∈ marked ∨ ∃ f ∈ done, s ∈ refs f.sym
  inl : ∀ f ∈ p.inlines, f.inlined = true
  needed : ∀ f ∈ done, Needed unit marked refs f

theorem Inv.next {unit marked refs done queue p f queue' inlines'} (h : Inv unit marked refs done queue p)
    (hp : (f :: (inlines' ++ queue')).Perm (p.inlines ++ queue)) (hi : ∀ g ∈ inlines', g.inlined = true)
    (hf : Needed unit marked refs f) :
    Inv unit marked refs (done ++ [f]) queue' ⟨inlines', p.referenced ++ refs f.sym⟩ where
  perm := by
    rw [List.append_assoc]
    exact (List.Perm.append_left done hp).trans h.perm
  refd s := by
    simp only [List.mem_append, h.refd, List.mem_singleton]
    constructor
    · rintro ((h | ⟨g, h1, h2⟩) | h)
      · exact .inl h
      · exact .inr ⟨g, .inl h1, h2⟩
      · exact .inr ⟨f, .inr rfl, h⟩
    · rintro (h | ⟨g, h1 | rfl, h2⟩)
      · exact .inl (.inl h)
      · exact .inl (.inr ⟨g, h1, h2⟩)
      · exact .inr h2
  inl := hi
  needed g hg := by
    rcases List.mem_append.mp hg with hg | hg
    · exact h.needed g hg
    · cases List.mem_singleton.mp hg; exact hf

theorem Inv.refd_needed {unit marked refs done queue p f} (h : Inv unit marked refs done queue p)
    (hu : f ∈ unit) (hr : f.sym ∈ p.referenced) : Needed unit marked refs f := by
  rcases (h.refd _).mp hr with h1 | ⟨g, h1, h2⟩
  · exact .marked hu h1
  · exact .ref (h.needed g h1) hu h2

theorem run_spec {unit : List Fn} {marked : List Nat} {refs : Nat → List Nat} : ∀ (fuel : Nat) (done queue : List Fn) (p : Pending),
    Inv unit marked refs done queue p → p.inlines.length + queue.length < fuel →
    ∃ out, compileUnit refs fuel queue p = some out ∧ (∃ rest, (done ++ out ++ rest).Perm unit)
      ∧ ∀ f, f ∈ done ++ out ↔ Needed unit marked refs f := by
  intro fuel
  induction fuel with
  | zero => intro _ _ _ _ h; omega
  | succ fuel ih =>
    intro done queue p h hl
    have mem : ∀ {f}, f ∈ unit ↔ f ∈ done ∨ f ∈ p.inlines ∨ f ∈ queue := by
      intro f
      rw [← h.perm.mem_iff, List.mem_append, List.mem_append]
    have go : ∀ f queue' inlines', (f :: (inlines' ++ queue')).Perm (p.inlines ++ queue) →
        (∀ g ∈ inlines', g.inlined = true) → Needed unit marked refs f →
        parse queue p = (some f, queue', ⟨inlines', p.referenced⟩) →
        ∃ out, compileUnit refs (fuel + 1) queue p = some out ∧ (∃ rest, (done ++ out ++ rest).Perm unit)
          ∧ ∀ f, f ∈ done ++ out ↔ Needed unit marked refs f := by
      intro f queue' inlines' h1 h2 h3 h4
      have hlen := h1.length_eq
      simp only [List.length_cons, List.length_append] at hlen
      obtain ⟨out, k1, ⟨rest, k2⟩, k3⟩ := ih (done ++ [f]) queue' _ (h.next h1 h2 h3) (by simp only; omega)
      refine ⟨f :: out, ?_, ⟨rest, by simpa using k2⟩, fun g => ?_⟩
      · rw [compileUnit, h4]
        simp only [k1, Option.map_some]
      · rw [← k3 g]; simp
    rcases parse_spec queue p with ⟨a, f, b, h1, h2, h3, h4⟩ | ⟨h1, h2⟩
    · have hmem : f ∈ unit := mem.mpr (.inr (.inr (by rw [h1]; simp)))
      refine go f b (p.inlines ++ a) ?_ ?_ (.plain hmem h3) h4
      · rw [h1, List.append_assoc]
        have := (List.perm_middle (a := f) (l₁ := p.inlines ++ a) (l₂ := b)).symm
        simpa using this
      · intro g hg
        rcases List.mem_append.mp hg with hg | hg
        · exact h.inl g hg
        · exact h2 g hg
    · unfold popInline at h2
      simp only at h2
      cases hfind : (p.inlines ++ queue).find? fun f => p.referenced.contains f.sym with
      | some f =>
        rw [hfind] at h2
        simp only at h2
        have hm := List.mem_of_find?_eq_some hfind
        have hr : f.sym ∈ p.referenced := by simpa using List.find?_some hfind
        refine go f [] ((p.inlines ++ queue).erase f) ?_ ?_ (h.refd_needed (mem.mpr (.inr (List.mem_append.mp hm))) hr) h2
        · rw [List.append_nil]
          exact (List.perm_cons_erase hm).symm
        · intro g hg
          rcases List.mem_append.mp (List.mem_of_mem_erase hg) with hg | hg
          · exact h.inl g hg
          · exact h1 g hg
      | none =>
        rw [hfind] at h2
        simp only at h2
        refine ⟨[], by rw [compileUnit, h2], ⟨p.inlines ++ queue, by simpa using h.perm⟩, fun f => ?_⟩
        rw [List.append_nil]
        have stuck : ∀ f ∈ p.inlines ++ queue, f.sym ∉ p.referenced := by
          intro f hf
          simpa using List.find?_eq_none.mp hfind f hf
        have split : ∀ {f}, f ∈ unit → f.sym ∈ p.referenced → f ∈ done := by
          intro f hu hr
          rcases mem.mp hu with h | h
          · exact h
          · exact absurd hr (stuck f (List.mem_append.mpr h))
        refine ⟨h.needed f, fun hn => ?_⟩
        induction hn with
        | plain hu hi =>
          rcases mem.mp hu with h' | h' | h'
          · exact h'
          · exact absurd (h.inl _ h') (by simp [hi])
          · exact absurd (h1 _ h') (by simp [hi])
        | marked hu hs => exact split hu ((h.refd _).mpr (.inl hs))
        | ref _ hu hs ih => exact split hu ((h.refd _).mpr (.inr ⟨_, ih, hs⟩))

end Verif.Unit
