import Verif.Elf.Image

/-! Where symbols are, from the calls that declare them. -/

namespace Verif.Elf

open Encode (le Code Fix le_length)

variable {file : List Nat} {pic nc : Bool} {ops : List Op} {f : List Nat}

theorem pairwise_apart {l : List Decl} (h : Apart2 l) {x y : Decl} (hx : x ∈ l) (hy : y ∈ l) (hne : x ≠ y) :
    x.value + x.size ≤ y.value ∨ y.value + y.size ≤ x.value := by
  unfold Apart2 at h
  induction l with
  | nil => cases hx
  | cons z l ih =>
    rw [List.pairwise_cons] at h
    rcases List.mem_cons.mp hx with rfl | hx'
    · rcases List.mem_cons.mp hy with rfl | hy'
      · exact absurd rfl hne
      · exact .inl (h.1 y hy')
    · rcases List.mem_cons.mp hy with rfl | hy'
      · exact .inr (h.1 x hx')
      · exact ih h.2 hx' hy'

theorem cover_le {k e : Nat} {l : List Decl} (h : Cover k l e) : ∀ d ∈ l, k ≤ d.value ∧ d.value + d.size ≤ e := by
  induction l generalizing k with
  | nil => intro d hd; cases hd
  | cons x l ih =>
    obtain ⟨h1, h2⟩ := h
    have hk : k + x.size ≤ e := by
      cases l with
      | nil => simp only [Cover] at h2; omega
      | cons y l => have := ih h2 y (by simp); omega
    intro d hd
    rcases List.mem_cons.mp hd with rfl | hd
    · omega
    · have := ih h2 d hd
      omega

theorem cover_find {k e : Nat} {l : List Decl} (h : Cover k l e) (p : Nat) (h1 : k ≤ p) (h2 : p < e) :
    ∃ d ∈ l, d.value ≤ p ∧ p < d.value + d.size := by
  induction l generalizing k with
  | nil => simp only [Cover] at h; omega
  | cons x l ih =>
    obtain ⟨g1, g2⟩ := h
    by_cases q : p < k + x.size
    · exact ⟨x, by simp, by omega, by omega⟩
    · obtain ⟨d, d1, d2⟩ := ih g2 (by omega)
      exact ⟨d, by simp [d1], d2⟩

theorem cover_apart {k e : Nat} {l : List Decl} (h : Cover k l e) : Apart2 l := by
  induction l generalizing k with
  | nil => exact List.Pairwise.nil
  | cons x l ih =>
    obtain ⟨h1, h2⟩ := h
    refine List.Pairwise.cons ?_ (ih h2)
    intro y hy
    have := cover_le h2 y hy
    omega

/-- The declaration of a symbol as it is made. -/
theorem declared_here (o : Obj) (s : Sym) (hk : s.kind ≠ .label) :
    ∃ d0 ∈ (o.symbol s).decls, d0.sym = s ∧ (∀ df, s.kind = .func df → d0.size = 0 ∧ (df = true → d0.value = o.len))
      ∧ (∀ n al, s.kind = .data n al → d0.value = (o.symbol s).data.length) := by
  unfold Obj.symbol Obj.declare
  cases h : s.kind with
  | label => exact absurd h hk
  | func df =>
    refine ⟨_, List.mem_append_right _ (List.mem_singleton.mpr rfl), rfl, ?_, by intro n al q; cases q⟩
    intro df' q
    cases q
    exact ⟨rfl, by rintro rfl; rfl⟩
  | data n al =>
    refine ⟨_, List.mem_append_right _ (List.mem_singleton.mpr rfl), rfl, (by intro df q; cases q), ?_⟩
    intro n al q
    rfl
  | const b al =>
    exact ⟨_, List.mem_append_right _ (List.mem_singleton.mpr rfl), rfl, (by intro df q; cases q), by intro n al q; cases q⟩
  | object t n al =>
    simp only
    split_ifs <;>
      exact ⟨_, List.mem_append_right _ (List.mem_singleton.mpr rfl), rfl, (by intro df q; cases q),
        (by intro n al q; cases q)⟩

/-- Two entries are of different declarations. -/
theorem decl_ne {i j : Nat} {s t : Sym} (hi : (order ops)[i]? = some s) (hj : (order ops)[j]? = some t) (hne : i ≠ j)
    {d e : Decl} {off : Nat → Nat} (h : Made file pic nc ops f) (w : Written f ((obj0 file nc).run ops) pic off)
    (hd : d.sym = s) (he : e.sym = t) : d ≠ e := by
  rintro rfl
  obtain ⟨_, _, _, a, _⟩ := h.at w hi
  obtain ⟨_, _, _, b, _⟩ := h.at w hj
  rw [← hd] at a
  rw [← he] at b
  omega

theorem nodata_after {b1 b2 : List Op} {s : Sym} {n al : Nat} (h : s.kind = .data n al) :
    dataBytes (b1 ++ .symbol s :: b2) = dataBytes b1 := by
  induction b1 with
  | nil => simp only [List.nil_append, dataBytes, h]
  | cons op b1 ih =>
    cases op with
    | symbol t =>
      simp only [List.cons_append, dataBytes, ih]
    | text c => exact ih
    | data d => cases d <;> simp only [List.cons_append, dataBytes, ih]
    | endFunction => exact ih

theorem dataImage_length (loc : Nat → Int) (ops : List Op) : (dataImage loc ops).length = (dataBytes ops).length := by
  have hl : ∀ n x, (Reader.low n x).length = n := by
    intro n x
    rw [low_le, le_length]
  induction ops with
  | nil => rfl
  | cons op ops ih =>
    cases op with
    | symbol t =>
      simp only [dataImage, dataBytes]
      split
      · rename_i hk; rw [hk]
      · rename_i hn
        split
        · rename_i hk; exact absurd hk (hn _ _)
        · exact ih
    | text c => exact ih
    | data d => cases d <;> simp only [dataImage, dataBytes, List.length_append, ih, hl, List.length_replicate]
    | endFunction => exact ih

end Verif.Elf
