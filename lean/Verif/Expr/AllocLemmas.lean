import Verif.Expr.Alloc
import Verif.Expr.Spec
import Verif.Expr.LowerLemmas

namespace Verif.Expr

open Verif.Abi (Place tempInt isTempInt)
open Verif.Types.Spec (Basic)

theorem size_le_eight {b : Basic} (h : b.isFloating = false) : size b ≤ 8 := by
  cases b <;> first | decide | (exact absurd h (by decide))

theorem registers_keys (l : List Local) : ∀ a, (registers a l).map (·.1) = l := by
  induction l with
  | nil => intro a; rfl
  | cons x r ih =>
    intro a
    cases x with
    | var i => simp only [registers, List.map_cons, ih]
    | tmp k => unfold registers; split_ifs <;> simp only [List.map_cons, ih]

theorem registers_mem (l : List Local) : ∀ a x b, (x, some b) ∈ registers a l → (∃ k, x = .tmp k) ∧ a ≤ b ∧ b < tempInt.length := by
  induction l with
  | nil => intro a x b h; simp [registers] at h
  | cons y r ih =>
    intro a x b h
    cases y with
    | var i =>
      simp only [registers, List.mem_cons, Prod.mk.injEq, reduceCtorEq, and_false, false_or] at h
      exact ih a x b h
    | tmp k =>
      unfold registers at h
      split_ifs at h with ha
      · simp only [List.mem_cons, Prod.mk.injEq, Option.some.injEq] at h
        rcases h with ⟨rfl, rfl⟩ | h
        · exact ⟨⟨k, rfl⟩, Nat.le_refl _, ha⟩
        · obtain ⟨h1, h2, h3⟩ := ih (a + 1) x b h
          exact ⟨h1, by omega, h3⟩
      · simp only [List.mem_cons, Prod.mk.injEq, reduceCtorEq, and_false, false_or] at h
        exact ih a x b h

theorem registers_apart (l : List Local) : ∀ a, (registers a l).Pairwise (fun p q => ∀ b c, p.2 = some b → q.2 = some c → b < c) := by
  induction l with
  | nil => intro a; exact List.Pairwise.nil
  | cons y r ih =>
    intro a
    cases y with
    | var i =>
      simp only [registers]
      exact List.pairwise_cons.mpr ⟨fun q _ b c h => by simp at h, ih a⟩
    | tmp k =>
      unfold registers
      split_ifs with ha
      · refine List.pairwise_cons.mpr ⟨?_, ih (a + 1)⟩
        rintro ⟨x, o⟩ hq b c hb hc
        simp only [Option.some.injEq] at hb hc
        subst hc
        have := (registers_mem r (a + 1) x c hq).2.1
        omega
      · exact List.pairwise_cons.mpr ⟨fun q _ b c h => by simp at h, ih a⟩

theorem locals_keys (reg : Int) (l : List (Local × Option Nat)) : ∀ so, (locals reg so l).map (·.1) = l.map (·.1) := by
  induction l with
  | nil => intro so; rfl
  | cons x r ih =>
    intro so
    obtain ⟨x, o⟩ := x
    cases o <;> simp only [locals, List.map_cons, ih]

theorem locals_temp (reg : Int) (l : List (Local × Option Nat)) : ∀ so x r, (x, .temp r) ∈ locals reg so l →
    ∃ a, (x, some a) ∈ l ∧ r = tempInt.getD a 0 := by
  induction l with
  | nil => intro so x r h; simp [locals] at h
  | cons y q ih =>
    obtain ⟨y, o⟩ := y
    intro so x r h
    cases o with
    | none =>
      simp only [locals, List.mem_cons, Prod.mk.injEq, reduceCtorEq, and_false, false_or] at h
      obtain ⟨a, h1, h2⟩ := ih _ x r h
      exact ⟨a, List.mem_cons_of_mem _ h1, h2⟩
    | some a =>
      simp only [locals, List.mem_cons, Prod.mk.injEq, Place.temp.injEq] at h
      rcases h with ⟨rfl, rfl⟩ | h
      · exact ⟨a, List.mem_cons_self, rfl⟩
      · obtain ⟨a, h1, h2⟩ := ih _ x r h
        exact ⟨a, List.mem_cons_of_mem _ h1, h2⟩

theorem locals_global (reg : Int) (l : List (Local × Option Nat)) : ∀ so x r, (x, .global r) ∉ locals reg so l := by
  induction l with
  | nil => intro so x r h; simp [locals] at h
  | cons y q ih =>
    obtain ⟨y, o⟩ := y
    intro so x r h
    cases o with
    | none =>
      simp only [locals, List.mem_cons, Prod.mk.injEq, reduceCtorEq, and_false, false_or] at h
      exact ih _ x r h
    | some a =>
      simp only [locals, List.mem_cons, Prod.mk.injEq, reduceCtorEq, and_false, false_or] at h
      exact ih _ x r h

theorem locals_below (reg : Int) (l : List (Local × Option Nat)) : ∀ so x o, (x, .frame o) ∈ locals reg so l → o + 8 ≤ so - reg := by
  induction l with
  | nil => intro so x o h; simp [locals] at h
  | cons y q ih =>
    obtain ⟨y, s⟩ := y
    intro so x o h
    cases s with
    | none =>
      simp only [locals, List.mem_cons, Prod.mk.injEq, Place.frame.injEq] at h
      rcases h with ⟨rfl, rfl⟩ | h
      · omega
      · have := ih _ x o h; omega
    | some a =>
      simp only [locals, List.mem_cons, Prod.mk.injEq, reduceCtorEq, and_false, false_or] at h
      exact ih _ x o h

theorem locals_apart (reg : Int) (l : List (Local × Option Nat)) : ∀ so,
    (locals reg so l).Pairwise (fun p q => ∀ o o', p.2 = .frame o → q.2 = .frame o' → o' + 8 ≤ o) := by
  induction l with
  | nil => intro so; exact List.Pairwise.nil
  | cons y q ih =>
    obtain ⟨y, s⟩ := y
    intro so
    cases s with
    | none =>
      simp only [locals]
      refine List.pairwise_cons.mpr ⟨?_, ih _⟩
      rintro ⟨x, p⟩ hq o o' h1 h2
      simp only [Place.frame.injEq] at h1 h2
      subst h1 h2
      have := locals_below reg q _ x o' hq
      omega
    | some a =>
      simp only [locals]
      exact List.pairwise_cons.mpr ⟨fun q _ o o' h => by simp at h, ih _⟩

theorem pairwise_or {α : Type} {R : α → α → Prop} {l : List α} (h : l.Pairwise R) {a b : α} (ha : a ∈ l) (hb : b ∈ l) (hn : a ≠ b) : R a b ∨ R b a := by
  induction h with
  | nil => cases ha
  | @cons c r h1 _ ih =>
    rw [List.mem_cons] at ha hb
    rcases ha with rfl | ha
    · rcases hb with rfl | hb
      · exact (hn rfl).elim
      · exact .inl (h1 b hb)
    · rcases hb with rfl | hb
      · exact .inr (h1 a ha)
      · exact ih ha hb

theorem placeOf_mem {p : List (Local × Place)} {l : Local} (h : l ∈ p.map (·.1)) : (l, placeOf p l) ∈ p := by
  induction p with
  | nil => simp at h
  | cons x r ih =>
    obtain ⟨y, q⟩ := x
    unfold placeOf
    by_cases e : y = l
    · subst e; simp
    · have : l ∈ r.map (·.1) := by
        simp only [List.map_cons, List.mem_cons] at h
        exact h.resolve_left (fun h => e h.symm)
      have := ih this
      rw [List.find?_cons_of_neg (by simpa using e)]
      exact List.mem_cons_of_mem _ this

theorem places_keys (so : Int) (l : List Local) : (places so l).map (·.1) = l := by
  unfold places
  rw [locals_keys, registers_keys]

theorem tempInt_is : ∀ a < tempInt.length, isTempInt (tempInt.getD a 0) := by decide
theorem tempInt_inj : ∀ a < tempInt.length, ∀ b < tempInt.length, tempInt.getD a 0 = tempInt.getD b 0 → a = b := by decide

/-- A register is a register for temporaries, of a temporary, and of one only. -/
theorem places_temp {so : Int} {l : List Local} {x : Local} {r : Nat} (h : (x, .temp r) ∈ places so l) : isTempInt r ∧ ∃ k, x = .tmp k := by
  obtain ⟨a, h1, rfl⟩ := locals_temp _ _ _ x r h
  obtain ⟨h2, _, h3⟩ := registers_mem l 0 x a h1
  exact ⟨tempInt_is a h3, h2⟩

theorem places_inj {so : Int} {l : List Local} {x y : Local} {r : Nat} (h : (x, .temp r) ∈ places so l) (g : (y, .temp r) ∈ places so l) : x = y := by
  obtain ⟨a, h1, e1⟩ := locals_temp _ _ _ x r h
  obtain ⟨b, g1, e2⟩ := locals_temp _ _ _ y r g
  have ha := (registers_mem l 0 x a h1).2.2
  have hb := (registers_mem l 0 y b g1).2.2
  have e := tempInt_inj a ha b hb (e1 ▸ e2)
  subst e
  by_contra hn
  rcases pairwise_or (registers_apart l 0) h1 g1 (by simpa using hn) with h | h
  · have := h a a rfl rfl; omega
  · have := h a a rfl rfl; omega

theorem places_apart {so : Int} {l : List Local} {x y : Local} {o o' : Int} (h : (x, .frame o) ∈ places so l) (g : (y, .frame o') ∈ places so l)
    (hn : x ≠ y) : o + 8 ≤ o' ∨ o' + 8 ≤ o := by
  rcases pairwise_or (locals_apart _ _ _) h g (by simp [hn]) with h | h
  · exact .inr (h o o' rfl rfl)
  · exact .inl (h o' o rfl rfl)

/-- The places of a function's locals are what `Layout.Good` asks for. -/
theorem allocate_good {Γ : Nat → Basic} {N M : Nat} {l : List Local} (so bp : Int) (hv : ∀ i < N, .var i ∈ l) (ht : ∀ k < M, .tmp k ∈ l)
    (hΓ : ∀ i < N, (Γ i).isFloating = false) : (allocate so l).Good Γ N M bp := by
  have mem : ∀ x ∈ l, (x, placeOf (places so l) x) ∈ places so l := by
    intro x hx
    exact placeOf_mem (by rw [places_keys]; exact hx)
  have frame : ∀ x ∈ l, (∀ r, placeOf (places so l) x ≠ .temp r) → ∃ o, placeOf (places so l) x = .frame o ∧ (x, .frame o) ∈ places so l := by
    intro x hx hn
    have h := mem x hx
    cases hp : placeOf (places so l) x with
    | temp r => exact (hn r hp).elim
    | frame o => exact ⟨o, rfl, by rw [hp] at h; exact h⟩
    | global a => rw [hp] at h; exact (locals_global _ _ _ x a h).elim
  have var : ∀ i < N, ∀ r, placeOf (places so l) (.var i) ≠ .temp r := by
    intro i hi r e
    have h := mem _ (hv i hi)
    rw [e] at h
    obtain ⟨_, k, hk⟩ := places_temp h
    cases hk
  refine ⟨var, ?_, ?_, ?_, ?_, ?_⟩
  · intro k hk
    have h := mem _ (ht k hk)
    by_cases e : ∃ r, placeOf (places so l) (.tmp k) = .temp r
    · obtain ⟨r, e⟩ := e
      rw [e] at h
      exact .inl ⟨r, e, (places_temp h).1⟩
    · obtain ⟨o, e, _⟩ := frame _ (ht k hk) (fun r h => e ⟨r, h⟩)
      exact .inr ⟨o, e⟩
  · intro k hk k' hk' r e e'
    have h := mem _ (ht k hk)
    have h' := mem _ (ht k' hk')
    simp only [allocate] at e e'
    rw [e] at h
    rw [e'] at h'
    have := places_inj h h'
    simpa using this
  · intro i hi j hj hn
    obtain ⟨o, e, h⟩ := frame _ (hv i hi) (var i hi)
    obtain ⟨o', e', h'⟩ := frame _ (hv j hj) (var j hj)
    simp only [allocate, e, e', home, Apart]
    have := places_apart h h' (by simpa using hn)
    have := size_le_eight (hΓ i hi)
    have := size_le_eight (hΓ j hj)
    omega
  · intro k hk k' hk' o o' hn e e'
    have h := mem _ (ht k hk)
    have h' := mem _ (ht k' hk')
    simp only [allocate] at e e'
    rw [e] at h
    rw [e'] at h'
    have := places_apart h h' (by simpa using hn)
    unfold Apart
    omega
  · intro i hi k hk o' e'
    obtain ⟨o, e, h⟩ := frame _ (hv i hi) (var i hi)
    have h' := mem _ (ht k hk)
    simp only [allocate] at e'
    rw [e'] at h'
    simp only [allocate, e, home, Apart]
    have := places_apart h h' (by simp)
    have := size_le_eight (hΓ i hi)
    omega

end Verif.Expr
