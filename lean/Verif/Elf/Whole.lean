import Verif.Elf.Start

/-! The file that comes out. -/

namespace Verif.Elf

open Encode (le Code Fix le_length le_lt value_le)

/-- A reader finds section `i` of the file to be `s`. -/
structure Reads (file : List Nat) (i : Nat) (s : Sec) : Prop where
  name : Reader.shName file i = s.name
  type : Reader.shType file i = s.type.code
  flags : Reader.shFlags file i = s.flags
  size : Reader.shSize file i = s.size
  link : Reader.shLink file i = s.link
  info : Reader.shInfo file i = s.info
  align : Reader.shAlign file i = s.align
  contents : s.type ≠ .nobits → Reader.contents file i = s.buf
  inside : s.type ≠ .nobits → 704 ≤ Reader.shOffset file i ∧ Reader.shOffset file i + s.size ≤ file.length

theorem apart_nth (e : Nat) (tab : List Sec) (h : Apart e tab) (i : Nat) (s : Sec) (hi : tab[i]? = some s)
    (hs : s.type ≠ .nobits) : e ≤ s.offset := by
  induction tab generalizing e i with
  | nil => simp at hi
  | cons t tab ih =>
    unfold Apart at h
    cases i with
    | zero =>
      simp only [List.getElem?_cons_zero, Option.some.injEq] at hi
      subst hi
      rw [if_neg hs] at h
      exact h.1
    | succ i =>
      simp only [List.getElem?_cons_succ] at hi
      by_cases ht : t.type = .nobits
      · rw [if_pos ht] at h
        exact ih e h i hi
      · rw [if_neg ht] at h
        have := ih _ h.2 i hi
        omega

theorem apart_lt (e : Nat) (tab : List Sec) (h : Apart e tab) (i j : Nat) (s t : Sec) (hi : tab[i]? = some s)
    (hj : tab[j]? = some t) (hij : i < j) (hs : s.type ≠ .nobits) (ht : t.type ≠ .nobits) :
    s.offset + s.size ≤ t.offset := by
  induction tab generalizing e i j with
  | nil => simp at hi
  | cons x tab ih =>
    unfold Apart at h
    obtain ⟨j, rfl⟩ : ∃ k, j = k + 1 := ⟨j - 1, by omega⟩
    simp only [List.getElem?_cons_succ] at hj
    cases i with
    | zero =>
      simp only [List.getElem?_cons_zero, Option.some.injEq] at hi
      subst hi
      rw [if_neg hs] at h
      exact apart_nth _ _ h.2 j t hj ht
    | succ i =>
      simp only [List.getElem?_cons_succ] at hi
      by_cases hx : x.type = .nobits
      · rw [if_pos hx] at h
        exact ih e h i j hi hj (by omega)
      · rw [if_neg hx] at h
        exact ih _ h.2 i j hi hj (by omega)

theorem sameTable_get {a b : List Sec} (h : SameTable a b) (i : Nat) (s : Sec) (hi : a[i]? = some s) :
    ∃ o, b[i]? = some { s with offset := o } := by
  unfold SameTable at h
  have e : (b.map (fun s => ({ s with offset := 0 } : Sec)))[i]? = some { s with offset := 0 } := by
    rw [← h, List.getElem?_map, hi]; rfl
  rw [List.getElem?_map] at e
  obtain ⟨t, ht, e⟩ := Option.map_eq_some_iff.mp e
  refine ⟨t.offset, ?_⟩
  rw [ht]
  congr 1
  cases t
  cases s
  simp only [Sec.mk.injEq] at e ⊢
  simp_all

/-- The file, read back. -/
theorem table_read (z : Sec) (ss : List Sec) (s : Sec) (hlen : ss.length = 8) (hs : s.type ≠ .nobits)
    (hal : ∀ x ∈ s :: ss, x.align ≤ 16) (hl : ∀ x ∈ s :: ss, x.type ≠ .nobits → x.buf.length = x.size)
    (hz : ∀ x ∈ s :: ss, x.type = .nobits → x.offset = 0)
    (hbig : ∀ x ∈ s :: ss, x.name < 256 ^ 4 ∧ x.flags < 256 ^ 8 ∧ x.link < 256 ^ 4) :
    ∃ tab body, chainOffsets (z :: s :: ss) = some tab ∧ writeSections none (tab.drop 1) = some body
      ∧ tab.length = 10
      ∧ ∀ file, file = header tab.length 1 ++ tab.flatMap Sec.header ++ body → file.length < 2 ^ 32 →
        (∀ x ∈ s :: ss, x.info < 256 ^ 4 ∨ x.type ≠ .nobits ∧ x.info ≤ x.size) → (∀ x ∈ s :: ss, x.type = .nobits → x.size < 2 ^ 64) →
        Reader.shnum file = 10 ∧ Reader.shstrndx file = 1
        ∧ (∀ i x, (s :: ss)[i]? = some x → Reads file (i + 1) x)
        ∧ ∀ i j x y, (s :: ss)[i]? = some x → (s :: ss)[j]? = some y → i < j → x.type ≠ .nobits →
          y.type ≠ .nobits → Reader.shOffset file (i + 1) + Reader.shSize file (i + 1) ≤ Reader.shOffset file (j + 1) := by
  obtain ⟨tab, body, h1, h2, h3, h4, h5⟩ := layout z s ss hs (fun x hx => hal x (List.mem_cons_of_mem _ hx)) hl
  have hlen2 : tab.length = 9 := by
    have := congrArg List.length h3
    simp only [List.length_map, List.length_cons, hlen] at this
    omega
  have hoz : ∀ (i : Nat) (x : Sec) (o : Nat), (s :: ss)[i]? = some x → tab[i]? = some { x with offset := o } → x.type = .nobits → o = 0 := by
    -- sections without contents keep their offset
    intro i x o hi ho ht
    rw [chainOffsets_eq z s ss hs] at h1
    obtain ⟨t, ht1, ht2⟩ := Option.map_eq_some_iff.mp h1
    simp only [List.cons.injEq, true_and] at ht2
    subst ht2
    have key : ∀ (l : List Sec) (e : Nat) (t : List Sec), chain e l = some t → ∀ (i : Nat) (x : Sec) (o : Nat),
        l[i]? = some x → t[i]? = some { x with offset := o } → x.type = .nobits → o = x.offset := by
      intro l
      induction l with
      | nil => intro e t _ i x o hi; simp at hi
      | cons y l ih =>
        intro e t hc i x o hi ho ht
        unfold chain at hc
        by_cases hy : y.type = .nobits
        · rw [if_pos hy] at hc
          obtain ⟨t', hc1, rfl⟩ := Option.map_eq_some_iff.mp hc
          cases i with
          | zero =>
            simp only [List.getElem?_cons_zero, Option.some.injEq] at hi ho
            subst hi
            have := congrArg Sec.offset ho
            exact this.symm
          | succ i =>
            simp only [List.getElem?_cons_succ] at hi ho
            exact ih e t' hc1 i x o hi ho ht
        · rw [if_neg hy] at hc
          simp only at hc
          have hc2 : ∃ y' t' e', t = y' :: t' ∧ chain e' l = some t' := by
            split_ifs at hc
            all_goals
              obtain ⟨t', hc1, rfl⟩ := Option.map_eq_some_iff.mp hc
              exact ⟨_, t', _, rfl, hc1⟩
          obtain ⟨y', t', e', rfl, hc1⟩ := hc2
          cases i with
          | zero =>
            simp only [List.getElem?_cons_zero, Option.some.injEq] at hi
            subst hi
            exact absurd ht hy
          | succ i =>
            simp only [List.getElem?_cons_succ] at hi ho
            exact ih e' t' hc1 i x o hi ho ht
    cases i with
    | zero =>
      simp only [List.getElem?_cons_zero, Option.some.injEq] at hi
      subst hi
      exact absurd ht hs
    | succ i =>
      simp only [List.getElem?_cons_succ] at hi ho
      rw [key ss _ t ht1 i x o hi ho ht]
      exact hz x (List.mem_cons_of_mem _ (List.mem_of_getElem? hi)) ht
  refine ⟨z :: tab, body, h1, h2, by simp [hlen2], ?_⟩
  intro file hfile hsmall hinfo hnob
  have htl : (z :: tab).length = 10 := by simp [hlen2]
  have hpre : (header (z :: tab).length 1 ++ (z :: tab).flatMap Sec.header).length = 64 + (ss.length + 2) * 64 := by
    rw [List.length_append, header_length, headers_length, htl, hlen]
  have h6 := h5 _ hpre
  rw [← hfile] at h6
  have off : ∀ (i : Nat) (x : Sec), (s :: ss)[i]? = some x → ∃ y : Sec, y = { x with offset := y.offset }
      ∧ tab[i]? = some y ∧ Reader.shOffset file (i + 1) = y.offset ∧ Reads file (i + 1) x := by
    intro i x hi
    obtain ⟨o, ho⟩ := sameTable_get h3 i x hi
    have hxm := List.mem_of_getElem? hi
    have hy := h6 _ (List.mem_of_getElem? ho)
    have hfit : Small { x with offset := o } := by
      obtain ⟨b1, b2, b3⟩ := hbig x hxm
      have hinf : x.info < 256 ^ 4 := by
        rcases hinfo x hxm with g | ⟨g1, g2⟩
        · exact g
        · have := (hy g1).2
          simp only at this
          omega
      have hal2 := hal x hxm
      by_cases ht : x.type = .nobits
      · have ho0 := hoz i x o hi ho ht
        have := hnob x hxm ht
        exact ⟨b1, b2, by simp only [ho0]; decide, by simp only; omega, b3, hinf, by simp only; omega⟩
      · have := (hy ht).2
        simp only at this
        exact ⟨b1, b2, by simp only; omega, by simp only; omega, b3, hinf, by simp only; omega⟩
    have hget : (z :: tab)[i + 1]? = some { x with offset := o } := by simpa using ho
    have rd := fun o' m hm => shMember_read (z :: tab) 1 body (i + 1) _ hget (by rw [htl]; decide) (by decide) o' m hm
    have hr := secHeader_read { x with offset := o } [] hfit
    simp only [List.append_nil] at hr
    obtain ⟨r1, r2, r3, r4, r5, r6, r7, r8⟩ := hr
    have q1 : Reader.shName file (i + 1) = x.name := by
      unfold Reader.shName; rw [hfile, rd 0 4 (by decide)]; exact r1
    have q2 : Reader.shType file (i + 1) = x.type.code := by
      unfold Reader.shType; rw [hfile, rd 4 4 (by decide)]; exact r2
    have q3 : Reader.shFlags file (i + 1) = x.flags := by
      unfold Reader.shFlags; rw [hfile, rd 8 8 (by decide)]; exact r3
    have q4 : Reader.shOffset file (i + 1) = o := by
      unfold Reader.shOffset; rw [hfile, rd 24 8 (by decide)]; exact r4
    have q5 : Reader.shSize file (i + 1) = x.size := by
      unfold Reader.shSize; rw [hfile, rd 32 8 (by decide)]; exact r5
    have q6 : Reader.shLink file (i + 1) = x.link := by
      unfold Reader.shLink; rw [hfile, rd 40 4 (by decide)]; exact r6
    have q7 : Reader.shInfo file (i + 1) = x.info := by
      unfold Reader.shInfo; rw [hfile, rd 44 4 (by decide)]; exact r7
    have q8 : Reader.shAlign file (i + 1) = x.align := by
      unfold Reader.shAlign; rw [hfile, rd 48 8 (by decide)]; exact r8
    refine ⟨{ x with offset := o }, rfl, ho, q4, q1, q2, q3, q5, q6, q7, q8, ?_, ?_⟩
    · intro ht
      unfold Reader.contents
      rw [q4, q5]
      exact (hy ht).1
    · intro ht
      rw [q4]
      refine ⟨?_, (hy ht).2⟩
      have := apart_nth _ tab h4 i _ ho ht
      rw [hlen] at this
      exact this
  have fh := fileHeader_read (z :: tab).length 1 ((z :: tab).flatMap Sec.header ++ body) (by rw [htl]; decide) (by decide)
  rw [← List.append_assoc, ← hfile] at fh
  refine ⟨fh.2.2.1.trans htl, fh.2.2.2, fun i x hi => (off i x hi).choose_spec.2.2.2, ?_⟩
  intro i j x y hi hj hij hx hy
  obtain ⟨x', e1, g1, g2, g3⟩ := off i x hi
  obtain ⟨y', e2, k1, k2, k3⟩ := off j y hj
  rw [g2, k2, g3.size]
  have hx' : x'.type = x.type := by rw [e1]
  have hy' : y'.type = y.type := by rw [e2]
  have hxs : x'.size = x.size := by rw [e1]
  rw [← hxs]
  exact apart_lt _ tab h4 i j x' y' g1 k1 hij (by rw [hx']; exact hx) (by rw [hy']; exact hy)

end Verif.Elf
