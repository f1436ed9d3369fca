import Verif.Strtab.Lemmas
/-!
# C02, C03 — string interning
-/
namespace Verif.Strtab

/-- **C02.** Register any sequence of byte strings (any lengths, any bytes).  The constant
time comparison of two of the handles is true exactly when the registered bytes are equal. -/
theorem C02_intern_eq_iff {malloc : Heap → Nat → Option Addr} (hmal : MallocOk malloc)
    (bs : List Bytes) {s : State} {hs : List Handle}
    (hrun : internAll malloc State.init bs = some (s, hs))
    {i j : Nat} {bi bj : Bytes} {hi hj : Handle}
    (h1 : bs[i]? = some bi) (h2 : bs[j]? = some bj)
    (h3 : hs[i]? = some hi) (h4 : hs[j]? = some hj) :
    strEq hi hj = true ↔ bi = bj := by
  obtain ⟨m, hinv, hall, -⟩ := internAll_ok hmal bs init_ok hrun
  have g1 := forall₂_get hall h1 h3
  have g2 := forall₂_get hall h2 h4
  rw [strEq_iff (handle_length g1) (handle_length g2)]
  exact handle_inj hinv g1 g2

/-- **C03.** Every handle still gives back the length and the bytes it was made from after
all later registrations, and the raw pointer is NUL terminated at that length. -/
theorem C03_handle_reads_back {malloc : Heap → Nat → Option Addr} (hmal : MallocOk malloc)
    (bs : List Bytes) {s : State} {hs : List Handle}
    (hrun : internAll malloc State.init bs = some (s, hs))
    {i : Nat} {b : Bytes} {h : Handle} (h1 : bs[i]? = some b) (h2 : hs[i]? = some h) :
    strLen h = b.length ∧ strBytes s h = some b ∧
      ∃ r, strRaw s h = some r ∧ r[b.length]? = some 0 := by
  obtain ⟨m, hinv, hall, -⟩ := internAll_ok hmal bs init_ok hrun
  obtain ⟨g1, r, g2, g3, g4⟩ := handle_read hinv (forall₂_get hall h1 h2)
  exact ⟨g1, by simp [strBytes, g1, g2, g3], r, g2, g4⟩

/-- **C03** (concatenation). `str_cat` of two registered strings, when it succeeds, is a handle
whose bytes are the concatenation. -/
theorem C03_concat {malloc : Heap → Nat → Option Addr} (hmal : MallocOk malloc)
    (bs : List Bytes) {s s' : State} {hs : List Handle} {h : Handle}
    (hrun : internAll malloc State.init bs = some (s, hs))
    {i j : Nat} {bi bj : Bytes} {hi hj : Handle}
    (h1 : bs[i]? = some bi) (h2 : bs[j]? = some bj)
    (h3 : hs[i]? = some hi) (h4 : hs[j]? = some hj)
    (hcat : strCat malloc s hi hj = some (s', h)) :
    strBytes s' h = some (bi ++ bj) := by
  obtain ⟨-, e1, -⟩ := C03_handle_reads_back hmal bs hrun h1 h3
  obtain ⟨-, e2, -⟩ := C03_handle_reads_back hmal bs hrun h2 h4
  obtain ⟨m, hinv, -, -⟩ := internAll_ok hmal bs init_ok hrun
  simp only [strCat, e1, e2] at hcat
  obtain ⟨m', hinv', hh, -⟩ := intern_ok hmal hinv hcat
  obtain ⟨g1, r, g2, g3, -⟩ := handle_read hinv' hh
  simp only [strBytes, g1, g2, g3, Option.map_some]

/-- The registry never fails (no assertion, no endless probe) as long as memory allocation
succeeds and strings stay below the documented limit. -/
theorem C02_intern_total {malloc : Heap → Nat → Option Addr} (hmal : MallocOk malloc)
    (bs : List Bytes) {s : State} {hs : List Handle}
    (hrun : internAll malloc State.init bs = some (s, hs)) (b : Bytes)
    (hb : b.length ≤ maxStringLen) (hok : (malloc s.heap (b.length + 1)).isSome) :
    (intern malloc s b).isSome := by
  obtain ⟨m, hinv, -, -⟩ := internAll_ok hmal bs init_ok hrun
  have core : ∀ {s1 : State}, Inv s1 m → s1.heap = s.heap → isFull s1 = false →
      (internCore malloc s1 b).isSome := by
    intro s1 hi hh hnf
    obtain ⟨hp, hr, hu, hcl, hcap, hho, hct⟩ := hi
    have hc : s1.count < s1.entries.length / 2 := by simpa [isFull] using hnf
    obtain ⟨j, hf⟩ := Verif.Hash.find_exists (es := absL s1.heap s1.entries) b (djb2 b)
      (by rw [absL_length]; omega)
    obtain ⟨e, he, -⟩ := Verif.Hash.find_some hf
    rw [← find_abs hho (buf := b) (block := b) (n := b.length) (by simp) rfl (djb2 b)] at hf
    have he' : ∃ e0, s1.entries[j]? = some e0 ∧ absE s1.heap e0 = e := by
      simpa [absL] using he
    obtain ⟨e0, he0, -⟩ := he'
    have h1 : s1.entries.length ≠ 0 := by omega
    have h2 : s1.count < s1.entries.length - 1 := by omega
    rw [← hh] at hok
    simp only [internCore, hnf, h1, h2, hf, he0]
    cases e0.value with
    | some p => simp
    | none =>
      cases hm : malloc s1.heap (b.length + 1) with
      | none => rw [hm] at hok; simp at hok
      | some p => simp
  unfold intern
  split
  · simp
  split
  · omega
  split
  · rename_i hfull
    obtain ⟨s1, e1, e2, e3, e4, e5⟩ := expand_ok hinv
    rw [e1]
    apply core e2 e4
    have hcl := hinv.count_le
    have hcap := hinv.cap
    simp only [isFull, e3, e5, nextCapacity, decide_eq_false_iff_not]
    split <;> omega
  · rename_i hnf
    exact core hinv rfl (by simpa using hnf)

/-- A concrete allocator meeting `MallocOk`. -/
def bumpMalloc : Heap → Nat → Option Addr := fun hp _ =>
  let a := (hp.map (·.1)).foldl max 0 + 8
  if a < 2 ^ 64 then some a else none

theorem bumpMalloc_ok : MallocOk bumpMalloc := by
  have key : ∀ (l : List Nat) (x : Nat), x ≤ l.foldl max x ∧ ∀ y ∈ l, y ≤ l.foldl max x := by
    intro l
    induction l with
    | nil => intro x; simp
    | cons z l ih =>
      intro x
      obtain ⟨h1, h2⟩ := ih (max x z)
      simp only [List.foldl_cons, List.mem_cons]
      refine ⟨by omega, ?_⟩
      rintro y (rfl | hy)
      · omega
      · exact h2 y hy
  intro hp n a h
  simp only [bumpMalloc] at h
  split at h
  · rename_i hlt
    have h := Option.some.inj h
    refine ⟨by rw [← h]; exact Nat.succ_ne_zero _, by rw [← h]; exact hlt, ?_⟩
    unfold Heap.read
    rw [List.lookup_eq_none_iff]
    intro p hp'
    have := (key (hp.map (·.1)) 0).2 p.1 (List.mem_map_of_mem hp')
    have hne : a ≠ p.1 := by
      rw [← h]; exact Nat.ne_of_gt (Nat.lt_of_le_of_lt this (by omega))
    simpa using hne
  · simp at h

/-- Two long strings that differ only after an embedded NUL, one of them registered twice; a
short one that collides with a prefix. -/
example :
    let a : Bytes := List.replicate 10 65 ++ [0] ++ List.replicate 9 66
    let b : Bytes := List.replicate 10 65 ++ [0] ++ List.replicate 9 67
    let c : Bytes := List.replicate 10 65
    (strEq (longHandle 8 a.length) (longHandle 16 b.length) = false) ∧
    shortHandle c ≠ shortHandle (c ++ [0]) ∧ strLen (shortHandle (c ++ [0])) = 11 := by
  decide

/-- The hypotheses of the theorems are met by a run that includes long strings. -/
example : ∃ s hs, internAll bumpMalloc State.init
    [List.replicate 3 65, List.replicate 14 0, List.replicate 15 255] = some (s, hs) ∧ hs.length = 3 :=
  ⟨_, _, rfl, rfl⟩

example : (intern bumpMalloc State.init (List.replicate 20 65)).isSome := by
  have := C02_intern_total bumpMalloc_ok [] (s := State.init) (hs := []) rfl
    (List.replicate 20 65) (by simp [maxStringLen]) (by decide)
  exact this

end Verif.Strtab
