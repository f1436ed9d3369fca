import Verif.Tac
import Verif.Hash.Model
import Verif.Hash.Spec
/-! # Representation invariant of the hash table -/
namespace Verif.Hash

variable {K V : Type} [DecidableEq K]

theorem home_lt (h : BitVec 32) {cap : Nat} (hc : 0 < cap) : home h cap < cap := by
  unfold home
  have := Nat.and_le_right (n := h.toNat) (m := cap - 1)
  omega

theorem mem_probeOrder (h : BitVec 32) {cap j : Nat} (hc : 0 < cap) :
    j ∈ probeOrder h cap ↔ j < cap := by
  have := home_lt h hc
  unfold probeOrder
  simp only [List.mem_cons, List.mem_append, List.mem_range'_1, List.mem_range]
  omega

theorem find?_change {α : Type} (p q : α → Bool) (L : List α) (j : α)
    (hj : L.find? p = some j) (hq : q j = true) (hle : ∀ x, q x = true → p x = true) :
    L.find? q = some j := by
  induction L with
  | nil => simp at hj
  | cons a L ih =>
    by_cases hp : p a = true
    · simp only [List.find?_cons, hp] at hj
      cases hj
      simp [hq]
    · have hqa : q a = false := by
        cases h : q a
        · rfl
        · exact absurd (hle a h) hp
      simp only [List.find?_cons, Bool.not_eq_true] at hp hj ⊢
      rw [hp] at hj
      rw [hqa]
      exact ih hj

/-- Number of slots that are not free (live or tombstone). -/
def used (es : List (Entry K V)) : Nat := es.countP (fun (e : Entry K V) => e.value.isSome || e.deleted)

theorem exists_free {es : List (Entry K V)} (h : used es < es.length) :
    ∃ (j : Nat) (e : Entry K V), es[j]? = some e ∧ e.value = none ∧ e.deleted = false := by
  unfold used at h
  have := (List.countP_eq_length (p := fun e : Entry K V => e.value.isSome || e.deleted) (l := es))
  have hne : ¬ ∀ a ∈ es, (a.value.isSome || a.deleted) = true := by
    intro hall
    have := this.mpr hall
    omega
  push Not at hne
  obtain ⟨e, he, hf⟩ := hne
  obtain ⟨j, hj, rfl⟩ := List.getElem_of_mem he
  refine ⟨j, es[j], by simp [hj], ?_⟩
  revert hf
  cases es[j].value <;> cases es[j].deleted <;> simp

/-- Slot `j` holds key `k` with value `v`. -/
def LiveAt (es : List (Entry K V)) (j : Nat) (k : K) (v : V) : Prop :=
  ∃ e, es[j]? = some e ∧ e.key = some k ∧ e.value = some v ∧ e.deleted = false

/-- Every live entry is stored where `hash_find_entry` finds it. -/
def Placed (hash : K → BitVec 32) (es : List (Entry K V)) : Prop :=
  ∀ j e, es[j]? = some e → ∀ v, e.value = some v →
    ∃ k, e.key = some k ∧ e.hash = hash k ∧ e.deleted = false ∧ findEntry es k (hash k) = some j

/-- The abstract map represented by the slots. -/
def Repr (es : List (Entry K V)) (m : K → Option V) : Prop :=
  ∀ k v, m k = some v ↔ ∃ j, LiveAt es j k v

/-- Representation invariant. -/
structure Inv (hash : K → BitVec 32) (t : Table K V) (m : K → Option V) : Prop where
  placed : Placed hash t.entries
  repr : Repr t.entries m
  used_le : used t.entries ≤ t.count
  count_le : t.count ≤ t.entries.length / 2
  cap : t.entries.length = 0 ∨ 16 ≤ t.entries.length

theorem find_some {es : List (Entry K V)} {k : K} {h : BitVec 32} {j : Nat}
    (hf : findEntry es k h = some j) :
    ∃ e, es[j]? = some e ∧ e.deleted = false ∧
      (e.value = none ∨ (e.hash = h ∧ e.key = some k)) := by
  unfold findEntry at hf
  have := List.find?_some hf
  unfold slotMatch at this
  split at this
  · rename_i e he
    refine ⟨e, he, ?_⟩
    unfold matchEntry at this
    revert this
    cases e.deleted <;> cases e.value <;> simp
  · simp at this

/-- A free slot makes the search succeed. -/
theorem find_exists {es : List (Entry K V)} (k : K) (h : BitVec 32) (hu : used es < es.length) :
    ∃ j, findEntry es k h = some j := by
  obtain ⟨j, e, hj, hv, hd⟩ := exists_free hu
  have hlt : j < es.length := by
    by_contra hc
    rw [List.getElem?_eq_none (by omega)] at hj
    simp at hj
  unfold findEntry
  cases hf : (probeOrder h es.length).find? (slotMatch es k h) with
  | some j => exact ⟨j, rfl⟩
  | none =>
    exfalso
    rw [List.find?_eq_none] at hf
    have := hf j ((mem_probeOrder h (by omega)).mpr hlt)
    simp [slotMatch, hj, matchEntry, hv, hd] at this

theorem lookup_live {hash : K → BitVec 32} {es : List (Entry K V)} (hp : Placed hash es)
    {j : Nat} {k : K} {v : V} (hl : LiveAt es j k v) : findEntry es k (hash k) = some j := by
  obtain ⟨e, he, hk, hv, hd⟩ := hl
  obtain ⟨k', hk', -, -, hf⟩ := hp j e he v hv
  rw [hk] at hk'
  cases hk'
  exact hf

/-- What `hash_find_entry` finds: the live entry of the key, or a free slot if there is none. -/
theorem find_cases {hash : K → BitVec 32} {es : List (Entry K V)} {m : K → Option V}
    (hp : Placed hash es) (hr : Repr es m) {k : K} {j : Nat}
    (hf : findEntry es k (hash k) = some j) :
    ∃ e, es[j]? = some e ∧ e.deleted = false ∧ e.value = m k ∧
      (∀ v, e.value = some v → e.hash = hash k ∧ e.key = some k) := by
  obtain ⟨e, he, hd, hc⟩ := find_some hf
  refine ⟨e, he, hd, ?_, ?_⟩
  · cases hm : m k with
    | some v =>
      obtain ⟨j', hl⟩ := (hr k v).mp hm
      have := lookup_live hp hl
      rw [hf] at this
      cases this
      obtain ⟨e', he', hk', hv', hd'⟩ := hl
      rw [he] at he'
      cases he'
      exact hv'
    | none =>
      cases hv : e.value with
      | none => rfl
      | some v =>
        exfalso
        rcases hc with hc | ⟨-, hk⟩
        · rw [hc] at hv; simp at hv
        · have := (hr k v).mpr ⟨j, e, he, hk, hv, hd⟩
          rw [hm] at this
          simp at this
  · intro v hv
    rcases hc with hc | hc
    · rw [hc] at hv; simp at hv
    · exact hc

theorem getElem?_set' {α : Type} {l : List α} {i j : Nat} {a e : α} (h : l[i]? = some e) :
    (l.set i a)[j]? = if i = j then some a else l[j]? := by
  have hlt : i < l.length := by
    by_contra hc
    rw [List.getElem?_eq_none (by omega)] at h
    simp at h
  rw [List.getElem?_set]
  split
  · simp [hlt]
  · rfl

theorem countP_set_le {α : Type} (p : α → Bool) (l : List α) (i : Nat) (a : α) :
    (l.set i a).countP p ≤ l.countP p + 1 := by
  induction l generalizing i with
  | nil => simp
  | cons b l ih =>
    cases i with
    | zero =>
      simp only [List.set_cons_zero, List.countP_cons]
      split <;> split <;> omega
    | succ i =>
      simp only [List.set_cons_succ, List.countP_cons]
      have := ih i
      omega

theorem countP_set_eq {α : Type} (p : α → Bool) (l : List α) (i : Nat) (a e : α)
    (he : l[i]? = some e) (hp : p a = p e) :
    (l.set i a).countP p = l.countP p := by
  induction l generalizing i with
  | nil => simp
  | cons b l ih =>
    cases i with
    | zero =>
      simp only [List.getElem?_cons_zero, Option.some.injEq] at he
      subst he
      simp [List.countP_cons, hp]
    | succ i =>
      simp only [List.getElem?_cons_succ] at he
      simp [List.countP_cons, ih i he]

/-- Overwriting a slot with an entry that matches fewer keys keeps the search result. -/
theorem find_set {es : List (Entry K V)} {j0 j : Nat} {e0 : Entry K V} (a : Entry K V)
    (h0 : es[j0]? = some e0) {k : K} {h : BitVec 32}
    (hf : findEntry es k h = some j)
    (hle : matchEntry a k h = true → matchEntry e0 k h = true)
    (hj : j0 = j → matchEntry a k h = true) :
    findEntry (es.set j0 a) k h = some j := by
  unfold findEntry at hf ⊢
  rw [List.length_set]
  refine find?_change _ _ _ _ hf ?_ ?_
  · unfold slotMatch
    rw [getElem?_set' h0]
    by_cases hc : j0 = j
    · simp [hc, hj hc]
    · simp only [hc, if_false]
      have := List.find?_some hf
      unfold slotMatch at this
      exact this
  · intro x hx
    unfold slotMatch at hx ⊢
    rw [getElem?_set' h0] at hx
    by_cases hc : j0 = x
    · subst hc
      simp only [if_true] at hx
      simp only [h0]
      exact hle hx
    · simpa [hc] using hx

/-- Storing a new key in the free slot found for it. -/
theorem store_ok {hash : K → BitVec 32} {es : List (Entry K V)} {m : K → Option V}
    (hp : Placed hash es) (hr : Repr es m) {k : K} {j : Nat} {e : Entry K V} (v : V)
    (hf : findEntry es k (hash k) = some j) (he : es[j]? = some e) (hv : e.value = none) :
    let e' : Entry K V := { e with hash := hash k, key := some k, value := some v }
    Placed hash (es.set j e') ∧ Repr (es.set j e') (fun k' => if k' = k then some v else m k') := by
  intro e'
  obtain ⟨e1, he1, hd1, hm1, -⟩ := find_cases hp hr hf
  rw [he] at he1
  cases he1
  have hfree : ∀ k' h', matchEntry e k' h' = true := by
    intro k' h'
    simp [matchEntry, hd1, hv]
  have hmk : m k = none := by rw [← hm1, hv]
  constructor
  · intro i x hx w hw
    rw [getElem?_set' he] at hx
    by_cases hc : j = i
    · subst hc
      simp only [if_true, Option.some.injEq] at hx
      subst hx
      refine ⟨k, rfl, rfl, hd1, ?_⟩
      refine find_set _ he hf (fun _ => hfree _ _) ?_
      intro _
      simp [e', matchEntry, hd1]
    · simp only [hc, if_false] at hx
      obtain ⟨k', hk', hh', hd', hf'⟩ := hp i x hx w hw
      refine ⟨k', hk', hh', hd', ?_⟩
      exact find_set _ he hf' (fun _ => hfree _ _) (fun h => absurd h hc)
  · intro k' v'
    constructor
    · intro h
      by_cases hk : k' = k
      · subst hk
        simp only [if_true, Option.some.injEq] at h
        subst h
        exact ⟨j, e', by rw [getElem?_set' he]; simp, rfl, rfl, hd1⟩
      · simp only [hk, if_false] at h
        obtain ⟨i, x, hx, hkx, hvx, hdx⟩ := (hr k' v').mp h
        refine ⟨i, x, ?_, hkx, hvx, hdx⟩
        rw [getElem?_set' he]
        have : j ≠ i := by
          intro hc
          subst hc
          rw [he] at hx
          cases hx
          rw [hv] at hvx
          simp at hvx
        simp [this, hx]
    · rintro ⟨i, x, hx, hkx, hvx, hdx⟩
      rw [getElem?_set' he] at hx
      by_cases hc : j = i
      · simp only [hc, if_true, Option.some.injEq] at hx
        subst hx
        simp only [e', Option.some.injEq] at hkx hvx
        subst hkx
        subst hvx
        simp
      · simp only [hc, if_false] at hx
        have hmk' := (hr k' v').mpr ⟨i, x, hx, hkx, hvx, hdx⟩
        have : k' ≠ k := by
          intro h
          subst h
          rw [hmk] at hmk'
          simp at hmk'
        simp [this, hmk']

/-- Turning a live slot into a tombstone. -/
theorem delete_ok {hash : K → BitVec 32} {es : List (Entry K V)} {m : K → Option V}
    (hp : Placed hash es) (hr : Repr es m) {k : K} {j : Nat} {e : Entry K V} {v : V}
    (hf : findEntry es k (hash k) = some j) (he : es[j]? = some e) (hv : e.value = some v) :
    let e' : Entry K V := { e with deleted := true, hash := 0, value := none }
    Placed hash (es.set j e') ∧ Repr (es.set j e') (fun k' => if k' = k then none else m k') := by
  intro e'
  obtain ⟨e1, he1, hd1, hm1, hkey⟩ := find_cases hp hr hf
  rw [he] at he1
  cases he1
  obtain ⟨hh, hk⟩ := hkey v hv
  have hno : ∀ k' h', matchEntry e' k' h' = false := by
    intro k' h'
    simp [matchEntry, e']
  constructor
  · intro i x hx w hw
    rw [getElem?_set' he] at hx
    by_cases hc : j = i
    · simp only [hc, if_true, Option.some.injEq] at hx
      subst hx
      simp [e'] at hw
    · simp only [hc, if_false] at hx
      obtain ⟨k', hk', hh', hd', hf'⟩ := hp i x hx w hw
      refine ⟨k', hk', hh', hd', ?_⟩
      refine find_set _ he hf' ?_ (fun h => absurd h hc)
      intro h
      rw [hno] at h
      simp at h
  · intro k' v'
    constructor
    · intro h
      by_cases hkk : k' = k
      · simp [hkk] at h
      · simp only [hkk, if_false] at h
        obtain ⟨i, x, hx, hkx, hvx, hdx⟩ := (hr k' v').mp h
        refine ⟨i, x, ?_, hkx, hvx, hdx⟩
        rw [getElem?_set' he]
        have : j ≠ i := by
          intro hc
          subst hc
          rw [he] at hx
          cases hx
          rw [hk] at hkx
          cases hkx
          exact hkk rfl
        simp [this, hx]
    · rintro ⟨i, x, hx, hkx, hvx, hdx⟩
      rw [getElem?_set' he] at hx
      by_cases hc : j = i
      · simp only [hc, if_true, Option.some.injEq] at hx
        subst hx
        simp [e'] at hvx
      · simp only [hc, if_false] at hx
        have hmk' := (hr k' v').mpr ⟨i, x, hx, hkx, hvx, hdx⟩
        have : k' ≠ k := by
          intro h
          subst h
          have h1 := lookup_live hp ⟨x, hx, hkx, hvx, hdx⟩
          rw [hf] at h1
          cases h1
          exact hc rfl
        simp [this, hmk']

theorem used_zero (es : List (Entry K V)) (h : ∀ e ∈ es, e = Entry.zero) : used es = 0 := by
  unfold used
  rw [List.countP_eq_zero]
  intro e he
  rw [h e he]
  simp [Entry.zero]

theorem zero_ok (hash : K → BitVec 32) (es : List (Entry K V)) (h : ∀ e ∈ es, e = Entry.zero) :
    Placed hash es ∧ Repr es (fun _ => none) := by
  have hz : ∀ (j : Nat) (e : Entry K V), es[j]? = some e → e.value = none := by
    intro j e he
    rw [h e (List.mem_of_getElem? he)]
    rfl
  constructor
  · intro j e he v hv
    rw [hz j e he] at hv
    simp at hv
  · intro k v
    constructor
    · intro h; simp at h
    · rintro ⟨j, e, he, -, hv, -⟩
      rw [hz j e he] at hv
      simp at hv

/-- Map represented by a list of entries considered in order (for `hash_expand`). -/
theorem rehash_ok {hash : K → BitVec 32} (src : List (Entry K V)) :
    ∀ (es : List (Entry K V)) (m : K → Option V),
      Placed hash es → Repr es m →
      (∀ e ∈ src, ∀ v, e.value = some v →
        ∃ k, e.key = some k ∧ e.hash = hash k ∧ e.deleted = false ∧ m k = none) →
      src.Pairwise (fun a b => ∀ k v w, a.key = some k → a.value = some v →
        b.value = some w → b.key ≠ some k) →
      used es + src.length < es.length →
      ∃ es' m', src.foldl rehashStep (some es) = some es' ∧ Placed hash es' ∧ Repr es' m' ∧
        es'.length = es.length ∧
        used es' ≤ used es + used src ∧
        (∀ k v, m' k = some v ↔ m k = some v ∨
          ∃ e ∈ src, e.key = some k ∧ e.value = some v ∧ e.deleted = false) := by
  induction src with
  | nil =>
    intro es m hp hr _ _ _
    exact ⟨es, m, rfl, hp, hr, rfl, by omega, by simp⟩
  | cons a src ih =>
    intro es m hp hr hsrc hpw hu
    simp only [List.length_cons] at hu
    rw [List.pairwise_cons] at hpw
    cases hv : a.value with
    | none =>
      have hstep : rehashStep (some es) a = some es := by simp [rehashStep, hv]
      obtain ⟨es', m', h1, h2, h3, h4, h5, h6⟩ := ih es m hp hr
        (fun e he => hsrc e (List.mem_cons_of_mem _ he)) hpw.2 (by omega)
      refine ⟨es', m', by rw [List.foldl_cons, hstep]; exact h1, h2, h3, h4, ?_, ?_⟩
      · have : used src ≤ used (a :: src) := by
          unfold used
          simp [List.countP_cons]
        omega
      · intro k v
        rw [h6]
        constructor
        · rintro (h | ⟨e, he, hh⟩)
          · exact Or.inl h
          · exact Or.inr ⟨e, List.mem_cons_of_mem _ he, hh⟩
        · rintro (h | ⟨e, he, hk, hve, hd⟩)
          · exact Or.inl h
          · rcases List.mem_cons.mp he with rfl | he
            · rw [hv] at hve; simp at hve
            · exact Or.inr ⟨e, he, hk, hve, hd⟩
    | some v =>
      obtain ⟨k, hk, hh, hd, hm⟩ := hsrc a List.mem_cons_self v hv
      obtain ⟨j, hf⟩ := find_exists (es := es) k (hash k) (by omega)
      obtain ⟨b, hb, hbd, hbm, -⟩ := find_cases hp hr hf
      rw [hm] at hbm
      have hlt : j < es.length := by
        by_contra hc
        rw [List.getElem?_eq_none (by omega)] at hb
        simp at hb
      have hstep : rehashStep (some es) a =
          some (es.set j { b with hash := hash k, key := some k, value := some v }) := by
        simp [rehashStep, hv, hd, hk, hh, hf, hb]
      obtain ⟨hp', hr'⟩ := store_ok hp hr v hf hb hbm
      have hused : used (es.set j { b with hash := hash k, key := some k, value := some v })
          ≤ used es + 1 := countP_set_le _ _ _ _
      obtain ⟨es', m', h1, h2, h3, h4, h5, h6⟩ := ih _ _ hp' hr'
        (by
          intro e he w hw
          obtain ⟨k', hk', hh', hd', hm'⟩ := hsrc e (List.mem_cons_of_mem _ he) w hw
          refine ⟨k', hk', hh', hd', ?_⟩
          have : k' ≠ k := by
            intro hc
            subst hc
            exact hpw.1 e he k' v w hk hv hw hk'
          simp [this, hm'])
        hpw.2 (by rw [List.length_set]; omega)
      refine ⟨es', m', by rw [List.foldl_cons, hstep]; exact h1, h2, h3, ?_, ?_, ?_⟩
      · rw [h4, List.length_set]
      · have : used (a :: src) = used src + 1 := by
          unfold used
          simp [List.countP_cons, hv]
        omega
      · intro k' v'
        rw [h6]
        constructor
        · rintro (h | ⟨e, he, hh⟩)
          · by_cases hkk : k' = k
            · simp only [hkk, if_true, Option.some.injEq] at h
              subst h
              exact Or.inr ⟨a, List.mem_cons_self, by rw [hk, hkk], hv, hd⟩
            · simp only [hkk, if_false] at h
              exact Or.inl h
          · exact Or.inr ⟨e, List.mem_cons_of_mem _ he, hh⟩
        · rintro (h | ⟨e, he, hke, hve, hde⟩)
          · left
            have : k' ≠ k := by
              intro hc
              subst hc
              rw [hm] at h
              simp at h
            simp [this, h]
          · rcases List.mem_cons.mp he with rfl | he
            · rw [hk] at hke
              cases hke
              rw [hv] at hve
              cases hve
              left
              simp
            · exact Or.inr ⟨e, he, hke, hve, hde⟩

theorem placed_pairwise {hash : K → BitVec 32} {es : List (Entry K V)} (hp : Placed hash es) :
    es.Pairwise (fun a b => ∀ k v w, a.key = some k → a.value = some v →
        b.value = some w → b.key ≠ some k) := by
  rw [List.pairwise_iff_getElem]
  intro i j hi hj hij k v w hk hv hw hkb
  obtain ⟨k1, hk1, -, -, hf1⟩ := hp i es[i] (by simp [hi]) v hv
  obtain ⟨k2, hk2, -, -, hf2⟩ := hp j es[j] (by simp [hj]) w hw
  rw [hk] at hk1
  rw [hkb] at hk2
  cases hk1
  cases hk2
  rw [hf1] at hf2
  cases hf2
  omega

theorem expand_ok {hash : K → BitVec 32} {t : Table K V} {m : K → Option V} (hi : Inv hash t m) :
    ∃ t', expand t = some t' ∧ Inv hash t' m ∧ t'.count = t.count ∧
      t'.entries.length = nextCapacity t.entries.length := by
  obtain ⟨hp, hr, hu, hcl, hcap⟩ := hi
  have hz : ∀ e ∈ List.replicate (nextCapacity t.entries.length) (Entry.zero : Entry K V),
      e = Entry.zero := fun e he => List.eq_of_mem_replicate he
  obtain ⟨hp0, hr0⟩ := zero_ok hash _ hz
  have hlen : t.entries.length < nextCapacity t.entries.length := by
    unfold nextCapacity; split <;> omega
  obtain ⟨es', m', h1, h2, h3, h4, h5, h6⟩ := rehash_ok t.entries _ _ hp0 hr0
    (by
      intro e he v hv
      obtain ⟨j, hj⟩ := List.getElem?_of_mem he
      obtain ⟨k, hk, hh, hd, -⟩ := hp j e hj v hv
      exact ⟨k, hk, hh, hd, rfl⟩)
    (placed_pairwise hp)
    (by rw [used_zero _ hz, List.length_replicate]; omega)
  rw [used_zero _ hz] at h5
  rw [List.length_replicate] at h4
  have hm : m' = m := by
    funext k
    have key : ∀ v, m' k = some v ↔ m k = some v := by
      intro v
      rw [h6, hr]
      constructor
      · rintro (h | ⟨e, he, hk, hv, hd⟩)
        · simp at h
        · obtain ⟨j, hj⟩ := List.getElem?_of_mem he
          exact ⟨j, e, hj, hk, hv, hd⟩
      · rintro ⟨j, e, he, hk, hv, hd⟩
        exact Or.inr ⟨e, List.mem_of_getElem? he, hk, hv, hd⟩
    cases h : m' k with
    | some v => exact ((key v).mp h).symm
    | none =>
      cases h' : m k with
      | none => rfl
      | some v => rw [(key v).mpr h'] at h; simp at h
  refine ⟨⟨t.count, es'⟩, by unfold expand; rw [h1], ?_, rfl, h4⟩
  subst hm
  refine ⟨h2, h3, by simp; omega, ?_, ?_⟩
  · simp only [h4]; unfold nextCapacity; split <;> omega
  · simp only [h4]; unfold nextCapacity; split <;> omega

theorem insertCore_ok {hash : K → BitVec 32} {t : Table K V} {m : K → Option V}
    (hi : Inv hash t m) (hnf : isFull t = false) (k : K) (v : V) :
    ∃ t' w, insertCore hash t k v = some (t', w) ∧
      Inv hash t' (Spec.step m (.insert k v)).1 ∧ some w = (Spec.step m (.insert k v)).2 := by
  obtain ⟨hp, hr, hu, hcl, hcap⟩ := hi
  have hc : t.count < t.entries.length / 2 := by
    simpa [isFull] using hnf
  obtain ⟨j, hf⟩ := find_exists (es := t.entries) k (hash k) (by omega)
  obtain ⟨e, he, hd, hm, hkey⟩ := find_cases hp hr hf
  have h1 : t.entries.length ≠ 0 := by omega
  have h2 : t.count < t.entries.length - 1 := by omega
  cases hv : e.value with
  | some w =>
    obtain ⟨hh, hk⟩ := hkey w hv
    rw [hv] at hm
    refine ⟨t, w, ?_, ?_, ?_⟩
    · simp [insertCore, h1, h2, hf, he, hd, hv, hh, hk]
    · simp only [Spec.step, ← hm]
      exact ⟨hp, hr, hu, hcl, hcap⟩
    · simp [Spec.step, ← hm]
  | none =>
    rw [hv] at hm
    obtain ⟨hp', hr'⟩ := store_ok hp hr v hf he hv
    refine ⟨⟨t.count + 1, t.entries.set j { e with hash := hash k, key := some k, value := some v }⟩, v, ?_, ?_, ?_⟩
    · simp only [insertCore, h1, h2, hf, he, hd, hv]
      rfl
    · simp only [Spec.step, ← hm]
      refine ⟨hp', hr', ?_, ?_, ?_⟩
      · refine Nat.le_trans (countP_set_le _ _ _ _) ?_
        unfold used at hu
        simp only
        omega
      · simp only [List.length_set]; omega
      · simp only [List.length_set]; exact hcap
    · simp [Spec.step, ← hm]

theorem insert_ok {hash : K → BitVec 32} {t : Table K V} {m : K → Option V}
    (hi : Inv hash t m) (k : K) (v : V) :
    ∃ t' w, insert hash t k v = some (t', w) ∧
      Inv hash t' (Spec.step m (.insert k v)).1 ∧ some w = (Spec.step m (.insert k v)).2 := by
  unfold insert
  cases hfull : isFull t with
  | false => exact insertCore_ok hi hfull k v
  | true =>
    obtain ⟨t', h1, h2, h3, h4⟩ := expand_ok hi
    have hcl := hi.count_le
    have hcap := hi.cap
    have hnf : isFull t' = false := by
      simp only [isFull, h3, h4, nextCapacity, decide_eq_false_iff_not]
      split <;> omega
    simp only [if_true, h1, hnf]
    exact insertCore_ok h2 hnf k v

theorem lookup_ok {hash : K → BitVec 32} {t : Table K V} {m : K → Option V}
    (hi : Inv hash t m) (k : K) : lookup hash t k = some (m k) := by
  obtain ⟨hp, hr, hu, hcl, hcap⟩ := hi
  unfold lookup
  by_cases h0 : t.entries.length = 0
  · rw [if_pos h0]
    cases hm : m k with
    | none => rfl
    | some v =>
      obtain ⟨j, e, he, -⟩ := (hr k v).mp hm
      rw [List.getElem?_eq_none (by omega)] at he
      simp at he
  · rw [if_neg h0]
    obtain ⟨j, hf⟩ := find_exists (es := t.entries) k (hash k) (by omega)
    obtain ⟨e, he, hd, hm, hkey⟩ := find_cases hp hr hf
    simp [hf, he, hm]

theorem remove_ok {hash : K → BitVec 32} {t : Table K V} {m : K → Option V}
    (hi : Inv hash t m) (k : K) :
    ∃ t', remove hash t k = some t' ∧ Inv hash t' (Spec.step m (.remove k)).1 := by
  obtain ⟨hp, hr, hu, hcl, hcap⟩ := hi
  unfold remove
  have hsame : m k = none → (Spec.step m (Op.remove k : Op K V)).1 = m := by
    intro h
    funext k'
    simp only [Spec.step]
    split
    · rename_i hk; rw [hk, h]
    · rfl
  by_cases h0 : t.entries.length = 0
  · rw [if_pos h0]
    refine ⟨t, rfl, ?_⟩
    rw [hsame]
    · exact ⟨hp, hr, hu, hcl, hcap⟩
    · cases hm : m k with
      | none => rfl
      | some v =>
        obtain ⟨j, e, he, -⟩ := (hr k v).mp hm
        rw [List.getElem?_eq_none (by omega)] at he
        simp at he
  · rw [if_neg h0]
    obtain ⟨j, hf⟩ := find_exists (es := t.entries) k (hash k) (by omega)
    obtain ⟨e, he, hd, hm, hkey⟩ := find_cases hp hr hf
    cases hv : e.value with
    | none =>
      refine ⟨t, by simp [hf, he, hv], ?_⟩
      rw [hsame (by rw [← hm, hv])]
      exact ⟨hp, hr, hu, hcl, hcap⟩
    | some v =>
      obtain ⟨hp', hr'⟩ := delete_ok hp hr hf he hv
      refine ⟨⟨t.count, t.entries.set j { e with deleted := true, hash := 0, value := none }⟩,
        by simp [hf, he, hv], ?_⟩
      refine ⟨hp', hr', ?_, ?_, ?_⟩
      · have : used (t.entries.set j { e with deleted := true, hash := 0, value := none })
            = used t.entries := countP_set_eq _ _ _ _ e he (by simp [hv])
        simp only
        omega
      · simpa using hcl
      · simpa using hcap

theorem clear_ok {hash : K → BitVec 32} {t : Table K V} {m : K → Option V}
    (hi : Inv hash t m) : Inv hash (clear t) (fun _ => none) := by
  have hz : ∀ e ∈ t.entries.map (fun _ => (Entry.zero : Entry K V)), e = Entry.zero := by
    intro e he
    simp only [List.mem_map] at he
    obtain ⟨_, _, rfl⟩ := he
    rfl
  obtain ⟨hp, hr⟩ := zero_ok hash _ hz
  refine ⟨hp, hr, ?_, ?_, ?_⟩
  · simp only [clear]; rw [used_zero _ hz]
  · simp [clear]
  · have := hi.cap
    simpa [clear] using this

theorem empty_ok (hash : K → BitVec 32) :
    Inv hash (Table.empty : Table K V) (fun _ => none) := by
  obtain ⟨hp, hr⟩ := zero_ok hash ([] : List (Entry K V)) (by simp)
  exact ⟨hp, hr, by simp [Table.empty, used], by simp [Table.empty], by simp [Table.empty]⟩

theorem exec_ok {hash : K → BitVec 32} {t : Table K V} {m : K → Option V}
    (hi : Inv hash t m) (op : Op K V) :
    ∃ t', exec hash t op = some (t', (Spec.step m op).2) ∧ Inv hash t' (Spec.step m op).1 := by
  cases op with
  | insert k v =>
    obtain ⟨t', w, h1, h2, h3⟩ := insert_ok hi k v
    exact ⟨t', by simp [exec, h1, h3], h2⟩
  | lookup k => exact ⟨t, by simp [exec, lookup_ok hi k, Spec.step], hi⟩
  | remove k =>
    obtain ⟨t', h1, h2⟩ := remove_ok hi k
    exact ⟨t', by simp [exec, h1, Spec.step], h2⟩
  | clear => exact ⟨clear t, rfl, clear_ok hi⟩
  | destroy => exact ⟨Table.empty, rfl, empty_ok hash⟩

theorem run_ok {hash : K → BitVec 32} (ops : List (Op K V)) :
    ∀ {t : Table K V} {m : K → Option V}, Inv hash t m →
    ∃ t', run hash t ops = some (t', Spec.answers m ops) := by
  induction ops with
  | nil => intro t m _; exact ⟨t, rfl⟩
  | cons op ops ih =>
    intro t m hi
    obtain ⟨t', h1, h2⟩ := exec_ok hi op
    obtain ⟨t'', h3⟩ := ih h2
    exact ⟨t'', by simp [run, h1, h3, Spec.answers]⟩

end Verif.Hash
