import Verif.Layout.AbiLemmas
import Verif.Props.C16
/-! # C17, C18: bit-fields and anonymous members -/
namespace Verif.Layout
open Spec

/-! ## C17 -/

/-- **No overlap.** For every sequence of plain members, bit-fields and zero-width fields that is accepted:
members follow each other in bits without overlap, and all lie inside the struct.  (The
sum is a bound that excludes sizes near LONG_MAX, see C19; alignments are at most 16 in the compiler.) -/
theorem C17_no_overlap_partial (ds : List Decl) (hd : ∀ d ∈ ds, Proper d) (hfit : (ds.map cost).sum ≤ longMax)
    (a : Agg) (h : layout false ds = .ok a) (hal : a.ty.align ≤ 2 ^ 62) :
    a.members.Pairwise (fun x y => x.start + x.bits ≤ y.start) ∧
    ∀ m ∈ a.members, m.start + m.bits ≤ 8 * a.size := by
  have hL : longMax = 2 ^ 63 - 1 := rfl
  unfold layout at h
  cases hb : addDecls { isUnion := false } ds with
  | error e => rw [hb] at h; simp [bind, Except.bind] at h
  | ok b =>
    rw [hb] at h
    have hgood : Good ({ isUnion := false } : Agg) := ⟨rfl, by simp, by simp, by simp, by simp⟩
    obtain ⟨g1, g2⟩ := good_decls ds _ b hgood hd (by simp only; omega) hb
    simp only [bind, Except.bind] at h
    unfold typeSeal at h
    simp only at h
    split_ifs at h with h0
    simp only [Except.ok.injEq] at h
    subst h
    simp only [Agg.ty] at g2 hal ⊢
    refine ⟨g1.sorted.sublist List.filter_sublist, fun m hm => ?_⟩
    have hm' := g1.ends m (List.mem_filter.1 hm).1
    have hle : b.size ≤ alignTo b.size (maxAlign (b.members.filter fun m => decide (m.name ≠ []))) := by
      rw [alignTo_eq (by omega) (by omega)]
      exact (lowest_up _ (by omega)).2.1
    have : m.start + m.bits ≤ 8 * b.size := hm'
    omega

/-- Shorthands for the examples. -/
def cchar : MTy := { size := 1, align := 1 }
def cshort : MTy := { size := 2, align := 2 }
def cint : MTy := { size := 4, align := 4 }
def clong : MTy := { size := 8, align := 8 }

/-- `struct { int a : 21; char : 0; char b : 3; long c; }`. -/
example : ∃ a, layout false [.field (str% "a") cint 21, .field [] cchar 0, .field (str% "b") cchar 3,
    .member (str% "c") clong] = .ok a ∧ a.ty.align ≤ 2 ^ 62 ∧
    (∀ d ∈ [Decl.field (str% "a") cint 21, .field [] cchar 0, .field (str% "b") cchar 3, .member (str% "c") clong],
      Proper d) := by
  have h : (layout false [.field (str% "a") cint 21, .field [] cchar 0, .field (str% "b") cchar 3,
      .member (str% "c") clong]).toOption.isSome = true := by decide +kernel
  revert h
  cases hl : layout false [.field (str% "a") cint 21, .field [] cchar 0, .field (str% "b") cchar 3,
    .member (str% "c") clong] with
  | error e => simp [Except.toOption]
  | ok a =>
    intro _
    refine ⟨a, rfl, ?_, ?_⟩
    · have : (layout false [.field (str% "a") cint 21, .field [] cchar 0, .field (str% "b") cchar 3,
        .member (str% "c") clong]).toOption.all (fun a => decide (a.ty.align ≤ 2 ^ 62)) = true := by decide +kernel
      rw [hl] at this
      simpa [Except.toOption] using this
    · intro d hd
      simp only [List.mem_cons, List.not_mem_nil, or_false] at hd
      rcases hd with rfl | rfl | rfl | rfl
      · exact ⟨by decide, rfl, rfl, rfl⟩
      · exact ⟨by decide, rfl, rfl, rfl⟩
      · exact ⟨by decide, rfl, rfl, rfl⟩
      · exact (by decide : 0 < 8)

/-- A valid declaration. -/
def ValidDecl : Decl → Prop
  | .member n t => n ≠ [] ∧ 0 < t.size ∧ 0 < t.align ∧ t.align ≤ 2 ^ 62 ∧ t.isFlexible = false
  | .field n t w => IntTy t ∧ w ≤ 8 * t.size ∧ (t.isBool → w ≤ 1) ∧ (n ≠ [] → w ≠ 0)
  | .anon _ => False

/-- Declared names. -/
def declName : Decl → List Bytes
  | .member n _ => [n]
  | .field n _ _ => if n = [] then [] else [n]
  | .anon _ => []

/-- Named members. -/
def named (ms : List Member) : List (Bytes × MTy) := (ms.map nt).filter fun x => x.1 ≠ []

def namedDecl : Decl → List (Bytes × MTy)
  | .member n t => [(n, t)]
  | .field n t _ => if n = [] then [] else [(n, t)]
  | .anon _ => []

theorem abi_fold (ds : List Decl) (a : Agg) (c : Option Nat) (p q : Nat) (os : List (Bytes × Nat × Nat))
    (hr : Run c p a) (hv : ∀ d ∈ ds, ValidDecl d) (hn : (ds.flatMap declName).Nodup)
    (hfresh : ∀ n ∈ ds.flatMap declName, ∀ m ∈ a.members, m.name ≠ n)
    (hu : Uniform c p (ds.map item)) (hb : AllBits p (ds.map item) os q) (hq : q + 64 ≤ 8 * longMax) :
    ∃ b c', addDecls a ds = .ok b ∧ Run c' q b ∧ outs b.members = outs a.members ++ os ∧
      named b.members = named a.members ++ ds.flatMap namedDecl ∧
      ((∃ s, c' = some s ∧ ∃ d ∈ ds, ∃ n t w, d = .field n t w ∧ t.size = s) ∨ c' = none ∨ c' = c) := by
  have bits_le : ∀ {p q : Nat} {i : Item Bytes} {o : List (Bytes × Nat × Nat)}, Bits p i o q → p ≤ q := by
    intro p q i o h
    cases h with
    | plain h => have := h.2.1; omega
    | field h _ _ => omega
    | zero h => exact h.2.1
  have all_le : ∀ {p q : Nat} {i : List (Item Bytes)} {o : List (Bytes × Nat × Nat)}, AllBits p i o q → p ≤ q := by
    intro p q i o h
    induction h with
    | nil => exact le_refl _
    | cons h _ ih => have := bits_le h; omega
  have unique : ∀ {p q q' : Nat} {i : Decl} {o o' : List (Bytes × Nat × Nat)}, ValidDecl i →
      Bits p (item i) o q → Bits p (item i) o' q' → q = q' := by
    intro p q q' i o o' hv h h'
    cases i with
    | member n t =>
      simp only [item] at h h'
      cases h with
      | plain h1 => cases h' with | plain h2 => rw [Lowest.unique h1 h2]
    | field n t w =>
      obtain ⟨v1, v2, _, _⟩ := hv
      have hs : 0 < t.size := by rcases v1.1 with h | h | h | h <;> omega
      by_cases hw : w = 0
      · simp only [item, if_pos hw] at h h'
        cases h with
        | zero h1 => cases h' with | zero h2 => exact Lowest.unique h1 h2
      · simp only [item, if_neg hw] at h h'
        cases h with
        | field a1 a2 a3 =>
          cases h' with
          | field b1 b2 b3 =>
            rw [field_unique hs v2 a1 a2 a3, field_unique hs v2 b1 b2 b3]
    | anon _ => exact absurd hv id
  induction ds generalizing a c p os with
  | nil =>
    simp only [List.map_nil] at hb
    cases hb
    exact ⟨a, c, rfl, hr, by simp, by simp, .inr (.inr rfl)⟩
  | cons d ds ih =>
    simp only [List.map_cons] at hb hu
    cases hb with
    | cons hb1 hb2 =>
      rename_i r o os
      have hle := all_le hb2
      have hvd := hv d (by simp)
      have hn' := hn
      rw [List.flatMap_cons, List.nodup_append] at hn
      -- one declaration
      have step : ∃ b c', addDecl a d = .ok b ∧ Run c' r b ∧ outs b.members = outs a.members ++ o ∧
          named b.members = named a.members ++ namedDecl d ∧ Uniform c' r (ds.map item) ∧
          (∀ n, n ∈ b.members.map (·.name) → n ∈ a.members.map (·.name) ∨ n = [] ∨ n ∈ declName d) ∧
          ((∃ s, c' = some s ∧ ∃ n t w, d = .field n t w ∧ t.size = s) ∨ c' = none ∨ c' = c) := by
        cases d with
        | member n t =>
          obtain ⟨v1, v2, v3, v4, v5⟩ := hvd
          simp only [item] at hb1 hu
          cases hu with
          | plain hu1 hu2 =>
            obtain rfl := unique (i := .member n t) (hv _ (by simp)) hu1 hb1
            obtain ⟨b, b1, b2, b3, b4, b5⟩ := run_member hr
              ⟨v1, fun m hm => hfresh n (by simp [declName]) m hm, .inl (by omega), .inl v5⟩ v2 v3 (by omega) hb1 (by omega)
            refine ⟨b, none, b1, b2, b3, ?_, hu2, ?_, .inr (.inl rfl)⟩
            · simp only [named, b5, List.filter_append, namedDecl, List.filter_cons, List.filter_nil]
              rw [if_pos (by simpa using v1)]
            · intro x hx
              have : b.members.map (·.name) = a.members.map (·.name) ++ [n] := by
                have := congrArg (List.map Prod.fst) b5
                simp only [List.map_map, List.map_append, List.map_cons, List.map_nil] at this
                exact this
              rw [this, List.mem_append] at hx
              rcases hx with hx | hx
              · exact .inl hx
              · exact .inr (.inr (by simpa [declName] using hx))
        | field n t w =>
          obtain ⟨v1, v2, v3, v4⟩ := hvd
          by_cases hw : w = 0
          · subst hw
            have hn0 : n = [] := by by_contra hc; exact v4 hc rfl
            subst hn0
            simp only [item, if_true] at hb1 hu
            cases hu with
            | zero hu0 hu1 hu2 =>
              obtain rfl := unique (i := .field [] t 0) (hv _ (by simp)) (by simpa only [item, if_true] using hu1)
                (by simpa only [item, if_true] using hb1)
              obtain ⟨b, b1, b2, b3, b4, l, b5, b6⟩ := run_zero hr v1 hu0 hb1 (by omega)
              refine ⟨b, c, b1, b2, b3, ?_, hu2, ?_, .inr (.inr rfl)⟩
              · simp only [named, b5, List.filter_append, namedDecl, if_true]
                congr 1
                rw [List.filter_eq_nil_iff]
                intro x hx
                simp [b6 x hx]
              · intro x hx
                have : b.members.map (·.name) = a.members.map (·.name) ++ l.map Prod.fst := by
                  have := congrArg (List.map Prod.fst) b5
                  simp only [List.map_map, List.map_append] at this
                  exact this
                rw [this, List.mem_append] at hx
                rcases hx with hx | hx
                · exact .inl hx
                · obtain ⟨y, hy, rfl⟩ := List.mem_map.1 hx
                  exact .inr (.inl (b6 y hy))
          · simp only [item, if_neg hw] at hb1 hu
            cases hu with
            | field hu0 hu1 hu2 =>
              obtain rfl := unique (i := .field n t w) (hv _ (by simp)) (by simpa only [item, if_neg hw] using hu1)
                (by simpa only [item, if_neg hw] using hb1)
              obtain ⟨b, b1, b2, b3, b4, b5⟩ := run_field (n := 3) hr (name := n)
                ⟨v1, v2, v3, fun h => ⟨hw, fun m hm => hfresh n (by simp [declName, h]) m hm⟩⟩ hw hu0 hb1 (by omega)
              refine ⟨b, some t.size, b1, b2, b3, ?_, hu2, ?_, .inl ⟨_, rfl, n, t, w, rfl, rfl⟩⟩
              · simp only [named, b5, List.filter_append, namedDecl, List.filter_cons, List.filter_nil]
                by_cases h0 : n = []
                · simp [h0]
                · simp [h0]
              · intro x hx
                have : b.members.map (·.name) = a.members.map (·.name) ++ [n] := by
                  have := congrArg (List.map Prod.fst) b5
                  simp only [List.map_map, List.map_append, List.map_cons, List.map_nil] at this
                  exact this
                rw [this, List.mem_append] at hx
                rcases hx with hx | hx
                · exact .inl hx
                · simp only [List.mem_singleton] at hx
                  subst hx
                  by_cases h0 : x = []
                  · exact .inr (.inl h0)
                  · exact .inr (.inr (by simp [declName, h0]))
        | anon _ => exact absurd hvd id
      obtain ⟨b, c', s1, s2, s3, s4, s5, s6, s7⟩ := step
      obtain ⟨e, c'', t1, t2, t3, t4, t5⟩ := ih b c' r os s2 (fun x hx => hv x (by simp [hx])) hn.2.1 (by
          intro n hnn m hm he
          rcases s6 n (List.mem_map.2 ⟨m, hm, he⟩) with h1 | h1 | h1
          · obtain ⟨m', hm', he'⟩ := List.mem_map.1 h1
            exact hfresh n (by simp only [List.flatMap_cons, List.mem_append]; exact .inr hnn) m' hm' he'
          · obtain ⟨d', hd', hx⟩ := List.mem_flatMap.1 hnn
            have hv' := hv d' (by simp [hd'])
            cases d' with
            | member n' t' => simp only [declName, List.mem_singleton] at hx; exact hv'.1 (hx.symm.trans h1)
            | field n' t' w' =>
              simp only [declName] at hx
              split_ifs at hx with h0
              · simp at hx
              · simp only [List.mem_singleton] at hx; exact h0 (hx.symm.trans h1)
            | anon _ => exact hv'
          · exact hn.2.2 n h1 n hnn rfl) s5 hb2
      refine ⟨e, c'', ?_, t2, ?_, ?_, ?_⟩
      · rw [addDecls, List.foldlM_cons, s1]; exact t1
      · rw [t3, s3, List.append_assoc]
      · rw [t4, s4, List.append_assoc, List.flatMap_cons]
      · rcases t5 with ⟨s, h1, d', hd', h2⟩ | h1 | h1
        · exact .inl ⟨s, h1, d', by simp [hd'], h2⟩
        · exact .inr (.inl h1)
        · subst h1
          rcases s7 with ⟨s, h1, h2⟩ | h1 | h1
          · exact .inl ⟨s, h1, d, by simp, h2⟩
          · exact .inr (.inl h1)
          · exact .inr (.inr h1)

theorem flatMap_congr_mem {α β : Type} {f g : α → List β} {l : List α} (h : ∀ x ∈ l, f x = g x) :
    l.flatMap f = l.flatMap g := by
  induction l with
  | nil => rfl
  | cons x l ih => rw [List.flatMap_cons, List.flatMap_cons, h x (by simp), ih (fun y hy => h y (by simp [hy]))]

/-- **ABI layout** of structs with bit-fields, for uniform runs of fields: every named member has the bit
position of the ABI, and the size of the struct is the number of bits in use rounded up to the largest
alignment of a named member.  Missing: runs of fields with different unit sizes and runs that do not
begin on a unit boundary; the violations below are all of this kind. -/
theorem C17_abi_layout_partial (ds : List Decl) (hv : ∀ d ∈ ds, ValidDecl d) (hn : (ds.flatMap declName).Nodup)
    (os : List (Bytes × Nat × Nat)) (q A : Nat) (hu : Uniform none 0 (ds.map item))
    (hb : AllBits 0 (ds.map item) os q) (hq : q + 64 ≤ 8 * longMax)
    (hA : Largest ((ds.map item).flatMap Item.aligns) A)
    (hdiv : ∀ n t w, Decl.field n t w ∈ ds → t.size ∣ A) :
    ∃ a, layout false ds = .ok a ∧ a.members.map (fun m => (m.name, m.start, m.width)) = os ∧
      Lowest (8 * A) q (8 * a.size) ∧ a.ty.align = A := by
  have hL : longMax = 2 ^ 63 - 1 := rfl
  obtain ⟨b, c, h1, h2, h3, h4, h5⟩ := abi_fold ds { isUnion := false } none 0 q os
    ⟨rfl, fun _ => ⟨rfl, by simp, by simp, by simp⟩, by simp⟩ hv hn (by simp) hu hb hq
  simp only [outs, List.filter_nil, List.map_nil, List.nil_append, named] at h3 h4
  have hal : (b.members.filter fun m => m.name ≠ []).map (fun m => m.ty.align) = (ds.map item).flatMap Item.aligns := by
    have e1 : (b.members.filter fun m => m.name ≠ []).map (fun m => m.ty.align) =
        ((b.members.map nt).filter fun x => x.1 ≠ []).map fun x => x.2.align := by
      rw [List.filter_map, List.map_map]; rfl
    rw [e1, h4, List.map_flatMap, List.flatMap_map]
    apply flatMap_congr_mem
    intro d hd
    have := hv d hd
    cases d with
    | member n t => rfl
    | field n t w =>
      simp only [namedDecl, item]
      by_cases h0 : n = []
      · subst h0; by_cases hw : w = 0 <;> simp [hw, Item.aligns]
      · rw [if_neg h0, if_neg (this.2.2.2 h0), if_neg h0]
        simp [Item.aligns, this.1.2.1]
    | anon _ => exact absurd this id
  have hmax : maxAlign (b.members.filter fun m => m.name ≠ []) = A := by
    have hne : (b.members.filter fun m => m.name ≠ []) ≠ [] := by
      intro h0
      rw [h0] at hal
      rw [← hal] at hA
      exact absurd hA.1 (by simp)
    have := largest_maxAlign hne
    rw [hal] at this
    exact Nat.le_antisymm (hA.2 _ this.1) (this.2 _ hA.1)
  have hApos : 0 < A ∧ A ≤ 2 ^ 62 := by
    obtain ⟨i, hi, hx⟩ := List.mem_flatMap.1 hA.1
    obtain ⟨d, hd, rfl⟩ := List.mem_map.1 hi
    have := hv d hd
    cases d with
    | member n t =>
      simp only [item, Item.aligns, List.mem_singleton] at hx
      have := this.2.2
      omega
    | field n t w =>
      have hs : 0 < t.size ∧ t.size ≤ 8 := by rcases this.1.1 with h | h | h | h <;> omega
      simp only [item] at hx
      split_ifs at hx <;> simp only [Item.aligns, List.mem_singleton, List.not_mem_nil] at hx
      omega
    | anon _ => exact absurd this id
  have hsz := h2.size_le
  refine ⟨{ b with members := b.members.filter fun m => m.name ≠ [], size := alignTo b.size A }, ?_, h3, ?_, hmax⟩
  · rw [layout, h1]
    simp only [bind, Except.bind, typeSeal]
    rw [hmax, if_neg (by omega)]
  · simp only
    rw [alignTo_eq hApos.1 (by omega)]
    have hl := lowest_up b.size hApos.1
    refine ⟨Nat.mul_dvd_mul_left _ hl.1, by have := hl.2.1; omega, ?_⟩
    rintro y ⟨k, rfl⟩ hy
    rw [Nat.mul_assoc] at hy ⊢
    have : b.size ≤ A * k := by
      rcases h5 with ⟨s, rfl, d, hd, n, t, w, rfl, rfl⟩ | rfl | rfl
      · obtain ⟨m, g1, g2, g3, g4, g5, g6, g7, g8⟩ := h2.some _ rfl
        obtain ⟨j, hj⟩ := hdiv n t w hd
        obtain ⟨i, hi⟩ := g4
        rw [hj, Nat.mul_assoc] at hy ⊢
        have : t.size * i < t.size * (j * k) := by omega
        have := Nat.lt_of_mul_lt_mul_left this
        have : t.size * (i + 1) ≤ t.size * (j * k) := Nat.mul_le_mul_left _ this
        rw [Nat.mul_add] at this
        omega
      · have := (h2.none rfl).1; omega
      · have := (h2.none rfl).1; omega
    have := hl.2.2 (A * k) ⟨k, rfl⟩ this
    omega

/-- The allocation of the specification, computed. -/
def abiOne (p : Nat) : Decl → List (Bytes × Nat × Nat) × Nat
  | .member n t => ([(n, 8 * up ((p + 7) / 8) t.align, 0)], 8 * up ((p + 7) / 8) t.align + 8 * t.size)
  | .field n t w =>
    if w = 0 then ([], 8 * up ((p + 7) / 8) t.size)
    else (((if n = [] then none else some n) : Option Bytes).toList.map fun n => (n, fieldPos p t.size w, w),
      fieldPos p t.size w + w)
  | .anon _ => ([], p)

def abiAll (p : Nat) : List Decl → List (Bytes × Nat × Nat) × Nat
  | [] => ([], p)
  | d :: ds => ((abiOne p d).1 ++ (abiAll (abiOne p d).2 ds).1, (abiAll (abiOne p d).2 ds).2)

theorem lowest8' (p : Nat) {a : Nat} (ha : 0 < a) : Lowest (8 * a) p (8 * up ((p + 7) / 8) a) := by
  have h := lowest_up p (show 0 < 8 * a by omega)
  rw [← lowest8 ha h]
  exact h

/-- The specification determines a layout for every list of valid declarations. -/
theorem abiOne_bits (d : Decl) (h : ValidDecl d) (p : Nat) : Bits p (item d) (abiOne p d).1 (abiOne p d).2 := by
  cases d with
  | member n t => exact .plain (lowest8' p h.2.2.1)
  | field n t w =>
    obtain ⟨v1, v2, _, _⟩ := h
    have hs : 0 < t.size := by rcases v1.1 with h | h | h | h <;> omega
    simp only [item, abiOne]
    by_cases hw : w = 0
    · simp only [if_pos hw]
      exact .zero (lowest8' p hs)
    · simp only [if_neg hw]
      obtain ⟨h1, h2, h3⟩ := fieldPos_spec (p := p) hs v2
      exact .field h1 h2 h3
  | anon _ => exact absurd h id

theorem abiAll_bits (ds : List Decl) (hv : ∀ d ∈ ds, ValidDecl d) (p : Nat) :
    AllBits p (ds.map item) (abiAll p ds).1 (abiAll p ds).2 := by
  induction ds generalizing p with
  | nil => exact .nil _
  | cons d ds ih =>
    exact .cons (abiOne_bits d (hv d (by simp)) p) (ih (fun x hx => hv x (by simp [hx])) _)

/-- `struct { char a; int b : 7, : 0, c : 20, d : 20; short e; }` meets the hypotheses (after the first `int`
unit is opened by the zero-width field). -/
def exampleFields : List Decl :=
  [.member (str% "a") cchar, .field [] cint 0, .field (str% "c") cint 20, .field (str% "d") cint 20,
   .member (str% "e") cshort]

theorem exampleFields_valid : ∀ d ∈ exampleFields, ValidDecl d := by
  intro d hd
  simp only [exampleFields, List.mem_cons, List.not_mem_nil, or_false] at hd
  rcases hd with rfl | rfl | rfl | rfl | rfl
  · exact ⟨by decide, by decide, by decide, by decide, rfl⟩
  · exact ⟨⟨by decide, rfl, rfl, rfl⟩, by decide, by decide, by decide⟩
  · exact ⟨⟨by decide, rfl, rfl, rfl⟩, by decide, by decide, by decide⟩
  · exact ⟨⟨by decide, rfl, rfl, rfl⟩, by decide, by decide, by decide⟩
  · exact ⟨by decide, by decide, by decide, by decide, rfl⟩

example : (exampleFields.flatMap declName).Nodup ∧ Uniform none 0 (exampleFields.map item) ∧
    AllBits 0 (exampleFields.map item) (abiAll 0 exampleFields).1 (abiAll 0 exampleFields).2 ∧
    Largest ((exampleFields.map item).flatMap Item.aligns) 4 ∧
    (∀ n t w, Decl.field n t w ∈ exampleFields → t.size ∣ 4) ∧
    (layout false exampleFields).toOption.map (fun a => (a.size, a.members.map fun m => (m.start, m.width))) =
      some (16, [(0, 0), (32, 20), (64, 20), (96, 0)]) := by
  have hb := abiAll_bits exampleFields exampleFields_valid 0
  refine ⟨by decide, ?_, hb, ⟨by decide, by decide⟩, ?_, by decide +kernel⟩
  · have v := exampleFields_valid
    exact .plain (abiOne_bits (.member (str% "a") cchar) (v _ (by simp [exampleFields])) 0)
      (.zero (.inr rfl) (abiOne_bits (.field [] cint 0) (v _ (by simp [exampleFields])) _)
        (.field (.inr ⟨rfl, ⟨1, rfl⟩⟩) (abiOne_bits (.field (str% "c") cint 20) (v _ (by simp [exampleFields])) _)
          (.field (.inl rfl) (abiOne_bits (.field (str% "d") cint 20) (v _ (by simp [exampleFields])) _)
            (.plain (abiOne_bits (.member (str% "e") cshort) (v _ (by simp [exampleFields])) _) .nil))))
  · intro n t w h
    simp only [exampleFields, List.mem_cons, Decl.field.injEq, reduceCtorEq, List.not_mem_nil, or_false, false_or] at h
    rcases h with ⟨_, rfl, _⟩ | ⟨_, rfl, _⟩ | ⟨_, rfl, _⟩ <;> decide

/-- What the code disagrees with: a list of declarations with the ABI's positions and size and the code's. -/
structure Disagrees (ds : List Decl) : Prop where
  valid : ∀ d ∈ ds, ValidDecl d
  differs : ∀ a, layout false ds = .ok a → ∀ os q, AllBits 0 (ds.map item) os q →
    a.members.map (fun m => (m.name, m.start, m.width)) ≠ os
  accepted : ∃ a, layout false ds = .ok a

theorem disagrees {ds : List Decl} (hv : ∀ d ∈ ds, ValidDecl d)
    (h : (layout false ds).toOption.map (fun a => decide (a.members.map (fun m => (m.name, m.start, m.width)) ≠ (abiAll 0 ds).1)) = some true) :
    Disagrees ds := by
  have unique : ∀ (ds : List Decl) (_ : ∀ d ∈ ds, ValidDecl d) (p : Nat) {os : List (Bytes × Nat × Nat)} {q : Nat},
      AllBits p (ds.map item) os q → os = (abiAll p ds).1 := by
    intro ds hv
    induction ds with
    | nil => intro p os q h; cases h; rfl
    | cons d ds ih =>
      intro p os q h
      cases h with
      | cons h1 h2 =>
        have hd := hv d (by simp)
        have key : ∀ {o : List (Bytes × Nat × Nat)} {r : Nat}, Bits p (item d) o r → o = (abiOne p d).1 ∧ r = (abiOne p d).2 := by
          intro o r hb
          cases d with
          | member n t =>
            simp only [item] at hb
            cases hb with
            | plain hx => rw [lowest8 hd.2.2.1 hx]; exact ⟨rfl, rfl⟩
          | field n t w =>
            obtain ⟨v1, v2, _, _⟩ := hd
            have hs : 0 < t.size := by rcases v1.1 with h | h | h | h <;> omega
            by_cases hw : w = 0
            · simp only [item, if_pos hw] at hb
              cases hb with
              | zero hx => simp only [abiOne, if_pos hw]; exact ⟨trivial, lowest8 hs hx⟩
            · simp only [item, if_neg hw] at hb
              cases hb with
              | field a1 a2 a3 => simp only [abiOne, if_neg hw]; rw [field_unique hs v2 a1 a2 a3]; exact ⟨rfl, rfl⟩
          | anon _ => exact absurd hd id
        obtain ⟨rfl, rfl⟩ := key h1
        rw [ih (fun x hx => hv x (by simp [hx])) _ h2, abiAll]
  cases hl : layout false ds with
  | error e => rw [hl] at h; simp [Except.toOption] at h
  | ok a =>
    rw [hl] at h
    refine ⟨hv, ?_, a, hl⟩
    intro a' ha' os q hb
    rw [hl] at ha'
    simp only [Except.ok.injEq] at ha'
    subst ha'
    rw [unique ds hv 0 hb]
    simp only [Except.toOption, Option.map_some, Option.some.injEq] at h
    exact of_decide_eq_true h

theorem int_field {n : Bytes} {t : MTy} {w : Nat} (h1 : t = cchar ∨ t = cshort ∨ t = cint ∨ t = clong)
    (h2 : w ≤ 8 * t.size) (h3 : n ≠ [] → w ≠ 0) : ValidDecl (.field n t w) := by
  refine ⟨?_, h2, ?_, h3⟩
  · rcases h1 with rfl | rfl | rfl | rfl <;> exact ⟨by decide, rfl, rfl, rfl⟩
  · rcases h1 with rfl | rfl | rfl | rfl <;> simp [cchar, cshort, cint, clong]

/-- `struct { char a; int b : 5; }`: `b` is at bit 32, not 8. -/
theorem C17_after_member_violated : Disagrees [.member (str% "a") cchar, .field (str% "b") cint 5] := by
  refine disagrees ?_ (by decide +kernel)
  intro d hd
  simp only [List.mem_cons, List.not_mem_nil, or_false] at hd
  rcases hd with rfl | rfl
  · exact ⟨by decide, by decide, by decide, by decide, rfl⟩
  · exact int_field (by simp) (by decide) (by decide)

/-- `struct { int a : 4; char b : 6; }`: `b` straddles a byte. -/
theorem C17_straddles_unit_violated : Disagrees [.field (str% "a") cint 4, .field (str% "b") cchar 6] := by
  refine disagrees ?_ (by decide +kernel)
  intro d hd
  simp only [List.mem_cons, List.not_mem_nil, or_false] at hd
  rcases hd with rfl | rfl
  · exact int_field (by simp) (by decide) (by decide)
  · exact int_field (by simp) (by decide) (by decide)

/-- `struct { short a : 4; int b : 5; char c; }`: `c` is at byte 4, not 2. -/
theorem C17_mixed_units_violated :
    Disagrees [.field (str% "a") cshort 4, .field (str% "b") cint 5, .member (str% "c") cchar] := by
  refine disagrees ?_ (by decide +kernel)
  intro d hd
  simp only [List.mem_cons, List.not_mem_nil, or_false] at hd
  rcases hd with rfl | rfl | rfl
  · exact int_field (by simp) (by decide) (by decide)
  · exact int_field (by simp) (by decide) (by decide)
  · exact ⟨by decide, by decide, by decide, by decide, rfl⟩

/-- `struct { int a : 21; char : 0; char b : 3; }`: `b` is at bit 26, not 24. -/
theorem C17_zero_width_violated :
    Disagrees [.field (str% "a") cint 21, .field [] cchar 0, .field (str% "b") cchar 3] := by
  refine disagrees ?_ (by decide +kernel)
  intro d hd
  simp only [List.mem_cons, List.not_mem_nil, or_false] at hd
  rcases hd with rfl | rfl | rfl
  · exact int_field (by simp) (by decide) (by decide)
  · exact int_field (by simp) (by decide) (by decide)
  · exact int_field (by simp) (by decide) (by decide)

/-! ## C18 -/

/-- What C18 asks: the struct with the anonymous member (`whole`) is laid out as with a member of that type
called `name` (`named`), and the inner members are at the offset of that member plus their own. -/
def FlattenedAs (inner whole named : Agg) (name : Bytes) : Prop :=
  whole.size = named.size ∧
  ∀ m ∈ named.members, if m.name = name then
      ∀ i ∈ inner.members, ∃ m' ∈ whole.members, m'.name = i.name ∧ m'.start = 8 * m.offset + i.start ∧ m'.width = i.width
    else ∃ m' ∈ whole.members, m'.name = m.name ∧ m'.start = m.start

instance (inner whole named : Agg) (name : Bytes) : Decidable (FlattenedAs inner whole named name) := by
  unfold FlattenedAs; infer_instance

/-- Folding `addMember` over members. -/
theorem addMembers_fold (ms : List Member) (a : Agg) (hs : ∀ m ∈ ms, m.ty.size ≠ 0) (hf : ∀ m ∈ ms, m.ty.isFlexible = false)
    (hn : (ms.map (·.name)).Nodup) (hfresh : ∀ m ∈ ms, ∀ x ∈ a.members, x.name ≠ m.name)
    (hfit : ∀ m ∈ ms, m.offset + m.ty.size ≤ longMax) :
    ∃ b, ms.foldlM (fun p m => addMember p m) a = .ok b ∧ b.members = a.members ++ ms ∧
      b.size = (ms.map fun m => m.offset + m.ty.size).foldl max a.size ∧ b.isUnion = a.isUnion := by
  induction ms generalizing a with
  | nil => exact ⟨a, rfl, by simp, rfl, rfl⟩
  | cons m ms ih =>
    rw [List.foldlM_cons, addMember_ok (fun _ => hfresh m (by simp)) (.inl (hs m (by simp))) (.inl (hf m (by simp)))
      (hfit m (by simp))]
    simp only [List.map_cons, List.nodup_cons] at hn
    obtain ⟨b, h1, h2, h3, h4⟩ := ih { a with
        members := a.members ++ [m]
        flexible := a.flexible || m.ty.size == 0 || m.ty.isFlexible
        size := max a.size (m.offset + m.ty.size) }
      (fun x hx => hs x (by simp [hx])) (fun x hx => hf x (by simp [hx])) hn.2
      (by
        intro x hx y hy
        rcases List.mem_append.1 hy with hy | hy
        · exact hfresh x (by simp [hx]) y hy
        · simp only [List.mem_singleton] at hy
          subst hy
          exact fun he => hn.1 (List.mem_map.2 ⟨x, hx, he.symm⟩)) (fun x hx => hfit x (by simp [hx]))
    exact ⟨b, h1, by rw [h2]; simp, by rw [h3]; simp, h4⟩

/-- Conditions for the positive cases: a complete inner type without flexible array and without tail padding (some
member ends where the type ends), and names that do not occur yet. -/
structure AnonOk (a inner : Agg) (name : Bytes) : Prop where
  sizes : ∀ m ∈ inner.members, m.ty.size ≠ 0
  flex : ∀ m ∈ inner.members, m.ty.isFlexible = false
  noFlex : inner.flexible = false
  distinct : (inner.members.map (·.name)).Nodup
  fresh : ∀ m ∈ inner.members, ∀ x ∈ a.members, x.name ≠ m.name
  inside : ∀ m ∈ inner.members, m.offset + m.ty.size ≤ inner.size
  tight : ∃ m ∈ inner.members, m.offset + m.ty.size = inner.size
  named : name ≠ []
  new : ∀ x ∈ a.members, x.name ≠ name
  align : 0 < maxAlign inner.members

theorem AnonOk.size_pos {a inner : Agg} {name : Bytes} (h : AnonOk a inner name) : inner.size ≠ 0 := by
  obtain ⟨m, hm, he⟩ := h.tight
  have := h.sizes m hm
  omega

theorem foldl_max_tight {l : List Nat} {x n : Nat} (h1 : ∀ y ∈ l, y ≤ n) (h2 : n ∈ l) : l.foldl max x = max x n := by
  obtain ⟨g1, g2, g3⟩ := le_foldl_max l x
  have := g2 n h2
  rcases g3 with h | h
  · omega
  · have := h1 _ h; omega

/-- An anonymous union in a struct, and an anonymous struct in a union, without tail padding.  Missing: inner types with
tail padding and the cases of one kind inside the same kind, see below. -/
theorem C18_mixed_partial (a inner : Agg) (name : Bytes) (h : AnonOk a inner name)
    (hkind : a.isUnion = !inner.isUnion) (hplain : ∀ m ∈ a.members, m.backing = 0)
    (hfit : up a.size (maxAlign inner.members) + inner.size ≤ longMax) :
    ∃ b b', addDecl a (.anon inner) = .ok b ∧ addDecl a (.member name inner.ty) = .ok b' ∧ FlattenedAs inner b b' name := by
  have hle := (lowest_up a.size h.align).2.1
  have hfr : Fresh a name inner.ty :=
    ⟨h.named, h.new, .inl h.size_pos, .inl h.noFlex⟩
  cases hu : a.isUnion with
  | false =>
    have hin : inner.isUnion = true := by rw [hu] at hkind; simpa using hkind.symm
    have hlast : ∀ m, a.members.getLast? = some m → m.backing = 0 := fun m hm => hplain m (List.mem_of_getLast? hm)
    have hm := typeAddMember_plain hfr hu hlast h.align hfit
    have hat : alignTo a.size (maxAlign inner.members) = up a.size (maxAlign inner.members) := by
      have hL : longMax = 2 ^ 63 - 1 := rfl
      clear hm
      unfold up at hfit
      unfold alignTo up
      by_cases h0 : a.size % maxAlign inner.members ≠ 0
      · rw [if_pos h0] at hfit
        rw [if_pos h0, if_pos h0]
        exact Nat.mod_eq_of_lt (by omega)
      · rw [if_neg h0, if_neg h0]
    have hadj : adjust a inner.ty = .ok ({ a with size := up a.size (maxAlign inner.members) }, up a.size (maxAlign inner.members)) := by
      have := h.align
      unfold adjust
      rw [hu]
      have h0 : ¬ inner.ty.align = 0 := by simp only [Agg.ty]; omega
      simp only [Bool.false_eq_true, if_false, release_plain hlast, bind, Except.bind, pure, Except.pure, if_neg h0]
      simp only [Agg.ty, hat, hu]
    have hL : longMax = 2 ^ 63 - 1 := rfl
    have hmap : ∀ m ∈ inner.members, (m.offset + up a.size (maxAlign inner.members)) % 2 ^ 64 =
        m.offset + up a.size (maxAlign inner.members) := by
      intro m hm
      have := h.inside m hm
      exact Nat.mod_eq_of_lt (by omega)
    have hfold : ∀ (l : List Member) (p : Agg),
        l.foldlM (fun p m => addMember p { m with offset := (m.offset + up a.size (maxAlign inner.members)) % 2 ^ 64 }) p =
        (l.map fun m => { m with offset := (m.offset + up a.size (maxAlign inner.members)) % 2 ^ 64 }).foldlM
          (fun p m => addMember p m) p := by
      intro l p
      rw [List.foldlM_map]
    obtain ⟨b, b1, b2, b3, b4⟩ := addMembers_fold
      (inner.members.map fun m => { m with offset := (m.offset + up a.size (maxAlign inner.members)) % 2 ^ 64 })
      { a with size := up a.size (maxAlign inner.members) }
      (by intro m hm; obtain ⟨x, hx, rfl⟩ := List.mem_map.1 hm; exact h.sizes x hx)
      (by intro m hm; obtain ⟨x, hx, rfl⟩ := List.mem_map.1 hm; exact h.flex x hx)
      (by rw [List.map_map]; exact h.distinct)
      (by intro m hm; obtain ⟨x, hx, rfl⟩ := List.mem_map.1 hm; exact h.fresh x hx)
      (by intro m hm
          obtain ⟨x, hx, rfl⟩ := List.mem_map.1 hm
          have := h.inside x hx
          simp only [hmap x hx]
          omega)
    refine ⟨b, _, ?_, hm, ?_, ?_⟩
    · simp only [addDecl, addAnonymous]
      rw [if_pos ⟨by simp [hu], hin⟩, hadj]
      simp only [bind, Except.bind]
      rw [hfold]
      exact b1
    · rw [b3, foldl_max_tight (n := up a.size (maxAlign inner.members) + inner.size)]
      · simp only [Agg.ty]; omega
      · intro y hy
        simp only [List.map_map, List.mem_map, Function.comp_apply] at hy
        obtain ⟨x, hx, rfl⟩ := hy
        have := h.inside x hx
        rw [hmap x hx]
        omega
      · obtain ⟨x, hx, he⟩ := h.tight
        simp only [List.map_map, List.mem_map, Function.comp_apply]
        exact ⟨x, hx, by rw [hmap x hx]; omega⟩
    · intro m hm
      rcases List.mem_append.1 hm with hm | hm
      · rw [if_neg (h.new m hm)]
        exact ⟨m, by rw [b2]; simp [hm], rfl, rfl⟩
      · simp only [List.mem_singleton] at hm
        subst hm
        rw [if_pos rfl]
        intro i hi
        refine ⟨{ i with offset := (i.offset + up a.size (maxAlign inner.members)) % 2 ^ 64 }, ?_, rfl, ?_, rfl⟩
        · rw [b2]
          exact List.mem_append_right _ (List.mem_map.2 ⟨i, hi, rfl⟩)
        · simp only [Member.start, hmap i hi, Agg.ty]
          omega
  | true =>
    have hin : inner.isUnion = false := by rw [hu] at hkind; simpa using hkind.symm
    have hm := typeAddMember_union hfr hu (by simp only [Agg.ty]; omega)
    obtain ⟨b, b1, b2, b3, b4⟩ := addMembers_fold inner.members a h.sizes h.flex h.distinct h.fresh
      (fun m hm => by have := h.inside m hm; omega)
    refine ⟨b, _, ?_, hm, ?_, ?_⟩
    · simp only [addDecl, addAnonymous]
      rw [if_neg (by simp [hu]), if_pos ⟨hu, by simp [hin]⟩]
      exact b1
    · rw [b3, foldl_max_tight (n := inner.size)]
      · rfl
      · intro y hy
        obtain ⟨x, hx, rfl⟩ := List.mem_map.1 hy
        exact h.inside x hx
      · obtain ⟨x, hx, he⟩ := h.tight
        exact List.mem_map.2 ⟨x, hx, he⟩
    · intro m hm
      rcases List.mem_append.1 hm with hm | hm
      · rw [if_neg (h.new m hm)]
        exact ⟨m, by rw [b2]; simp [hm], rfl, rfl⟩
      · simp only [List.mem_singleton] at hm
        subst hm
        rw [if_pos rfl]
        intro i hi
        exact ⟨i, by rw [b2]; simp [hi], rfl, by simp, rfl⟩

/-- `struct { char a; union { int b; short c[2]; }; }`. -/
example : AnonOk { isUnion := false, size := 1, members := [{ name := str% "a", ty := cchar, offset := 0 }] }
    { isUnion := true, size := 4, members := [{ name := str% "b", ty := cint, offset := 0 },
      { name := str% "c", ty := { size := 4, align := 2, isArray := true }, offset := 0 }] } (str% "x") :=
  ⟨by decide, by decide, rfl, by decide, by decide, by decide, by decide, by decide, by decide, by decide⟩

/-- An anonymous union in a union. -/
theorem C18_union_in_union_partial (a inner : Agg) (name : Bytes) (h : AnonOk a inner name)
    (hu : a.isUnion = true) (hin : inner.isUnion = true)
    (hoff : ∀ m ∈ inner.members, m.offset = 0 ∧ m.width = 0 ∧ m.fieldOffset = 0)
    (hfit : inner.size ≤ longMax) :
    ∃ b b', addDecl a (.anon inner) = .ok b ∧ addDecl a (.member name inner.ty) = .ok b' ∧ FlattenedAs inner b b' name := by
  have hfr : Fresh a name inner.ty := ⟨h.named, h.new, .inl h.size_pos, .inl h.noFlex⟩
  have hm := typeAddMember_union hfr hu (by simpa [Agg.ty] using hfit)
  obtain ⟨b, b1, b2, b3, b4⟩ := addMembers_fold
    (inner.members.map fun m => { name := m.name, ty := m.ty, offset := 0 }) a
    (by intro m hm; obtain ⟨x, hx, rfl⟩ := List.mem_map.1 hm; exact h.sizes x hx)
    (by intro m hm; obtain ⟨x, hx, rfl⟩ := List.mem_map.1 hm; exact h.flex x hx)
    (by rw [List.map_map]; exact h.distinct)
    (by intro m hm; obtain ⟨x, hx, rfl⟩ := List.mem_map.1 hm; exact h.fresh x hx)
    (by intro m hm; obtain ⟨x, hx, rfl⟩ := List.mem_map.1 hm; have := h.inside x hx; simp only; omega)
  have hfold : ∀ (l : List Member) (p : Agg), p.isUnion = true → l.foldlM (fun p m => typeAddMember p m.name m.ty) p =
      (l.map fun m => ({ name := m.name, ty := m.ty, offset := 0 } : Member)).foldlM (fun p m => addMember p m) p := by
    intro l
    induction l with
    | nil => intro p _; rfl
    | cons m l ih =>
      intro p hp
      rw [List.map_cons, List.foldlM_cons, List.foldlM_cons]
      have e : typeAddMember p m.name m.ty = addMember p { name := m.name, ty := m.ty, offset := 0 } := by
        unfold typeAddMember adjust
        rw [if_pos hp]
        rfl
      rw [e]
      cases hc : addMember p { name := m.name, ty := m.ty, offset := 0 } with
      | error e => rfl
      | ok c =>
        simp only [bind, Except.bind]
        exact ih c (by rw [(addMember_inv hc).1, hp])
  refine ⟨b, _, ?_, hm, ?_, ?_⟩
  · simp only [addDecl, addAnonymous]
    rw [if_neg (by simp [hu]), if_neg (by simp [hin]), hfold _ _ hu]
    exact b1
  · rw [b3, foldl_max_tight (n := inner.size)]
    · rfl
    · intro y hy
      simp only [List.map_map, List.mem_map, Function.comp_apply] at hy
      obtain ⟨x, hx, rfl⟩ := hy
      have := h.inside x hx
      omega
    · obtain ⟨x, hx, he⟩ := h.tight
      simp only [List.map_map, List.mem_map, Function.comp_apply]
      exact ⟨x, hx, by have := (hoff x hx).1; omega⟩
  · intro m hm
    rcases List.mem_append.1 hm with hm | hm
    · rw [if_neg (h.new m hm)]
      exact ⟨m, by rw [b2]; simp [hm], rfl, rfl⟩
    · simp only [List.mem_singleton] at hm
      subst hm
      rw [if_pos rfl]
      intro i hi
      obtain ⟨o1, o2, o3⟩ := hoff i hi
      refine ⟨{ name := i.name, ty := i.ty, offset := 0 }, ?_, rfl, ?_, o2.symm⟩
      · rw [b2]; exact List.mem_append_right _ (List.mem_map.2 ⟨i, hi, rfl⟩)
      · simp [Member.start, o1, o3]

/-- An anonymous struct in a struct whose size so far is a multiple of every inner alignment: inner members
(plain ones, with the offsets of the ABI) have the right offsets. -/
theorem C18_struct_in_struct_partial (ms : List (Bytes × MTy)) (offs : List Nat) (fin : Nat) (a : Agg)
    (hu : a.isUnion = false) (hplain : ∀ m ∈ a.members, m.backing = 0) (hv : Suffix a ms)
    (hp : Placed 0 (ms.map fun m => (m.2.size, m.2.align)) offs fin)
    (hal : ∀ m ∈ ms, m.2.align ∣ a.size) (hfit : a.size + fin ≤ longMax)
    (inner : Agg) (hk : inner.isUnion = false)
    (hin : inner.members = (ms.zip offs).map fun p => { name := p.1.1, ty := p.1.2, offset := p.2 }) :
    ∃ b, addDecl a (.anon inner) = .ok b ∧ b.size = a.size + fin ∧
      b.members = a.members ++ inner.members.map fun m => { m with offset := a.size + m.offset } := by
  have shift : ∀ (n : Nat) (l : List (Nat × Nat)) (s : Nat) (o : List Nat) (f : Nat), (∀ m ∈ l, m.2 ∣ n) →
      Placed s l o f → Placed (n + s) l (o.map (n + ·)) (n + f) := by
    intro n l s o f hd h
    induction h with
    | nil => exact .nil _
    | cons h1 h2 ih =>
      rename_i start size align offset ms offs fin
      have hdn := hd _ (List.mem_cons_self ..)
      refine .cons (offset := n + offset) ⟨Nat.dvd_add hdn h1.1, by have := h1.2.1; omega, ?_⟩ ?_
      · intro y hy hle
        have h3 : align ∣ y - n := Nat.dvd_sub hy hdn
        have := h1.2.2 (y - n) h3 (by omega)
        omega
      · have := ih (fun m hm => hd m (List.mem_cons_of_mem _ hm))
        rw [Nat.add_assoc]
        exact this
  have hp' := shift a.size _ 0 offs fin (by
    intro m hm
    obtain ⟨x, hx, rfl⟩ := List.mem_map.1 hm
    exact hal x hx) hp
  rw [Nat.add_zero] at hp'
  obtain ⟨b, b1, b2, b3⟩ := struct_fold ms a hu hv hplain hp' hfit
  have hlen : offs.length = ms.length := by simpa using Placed.length hp
  refine ⟨b, ?_, b2, ?_⟩
  · simp only [addDecl, addAnonymous]
    rw [if_neg (by simp [hk]), if_neg (by simp [hu])]
    rw [← b1, addDecls, plain, List.foldlM_map, hin, List.foldlM_map]
    have : (fun (p : Agg) (x : (Bytes × MTy) × Nat) => typeAddMember p x.1.1 x.1.2) =
      fun p x => (fun p (m : Bytes × MTy) => typeAddMember p m.1 m.2) p (Prod.fst x) := rfl
    simp only [addDecl]
    rw [this, ← List.foldlM_map (f := Prod.fst) (g := fun p (m : Bytes × MTy) => typeAddMember p m.1 m.2),
      List.map_fst_zip (by omega)]
  · rw [b3, hin, List.zip_map_right, List.map_map, List.map_map]
    rfl

/-- `struct { int a; struct { char b; int c; }; }`. -/
example : Suffix { isUnion := false, size := 4, members := [{ name := str% "a", ty := cint, offset := 0 }] }
      [(str% "b", cchar), (str% "c", cint)] ∧
    Placed 0 [(1, 1), (4, 4)] [0, 4] 8 :=
  ⟨⟨by decide, by decide, by decide, by decide, by decide, by simp [cchar, cint], by decide⟩,
    .cons (lowest_up 0 (by decide)) (.cons (lowest_up 1 (by decide)) (.nil _))⟩

/-- A disagreement with C18: the declarations before and after, the anonymous type and both results. -/
def Misplaced (pre : List Decl) (kind : Bool) (inner post : List Decl) : Prop :=
  ∃ i whole named, layout kind inner = .ok i ∧ layout false (pre ++ [.anon i] ++ post) = .ok whole ∧
    layout false (pre ++ [.member (str% "anonymous") i.ty] ++ post) = .ok named ∧
    ¬ FlattenedAs i whole named (str% "anonymous")

theorem misplaced {pre : List Decl} {kind : Bool} {inner post : List Decl}
    (h : ((layout kind inner).toOption.bind fun i =>
      (layout false (pre ++ [.anon i] ++ post)).toOption.bind fun whole =>
      (layout false (pre ++ [.member (str% "anonymous") i.ty] ++ post)).toOption.map fun named =>
        decide (¬ FlattenedAs i whole named (str% "anonymous"))) = some true) : Misplaced pre kind inner post := by
  have ok : ∀ {r : R Agg} {x : Agg}, r.toOption = some x → r = .ok x := by
    intro r x h; cases r with
    | error e => simp [Except.toOption] at h
    | ok y => simp only [Except.toOption, Option.some.injEq] at h; rw [h]
  rw [Option.bind_eq_some_iff] at h
  obtain ⟨i, h1, h⟩ := h
  rw [Option.bind_eq_some_iff] at h
  obtain ⟨w, h2, h⟩ := h
  rw [Option.map_eq_some_iff] at h
  obtain ⟨n, h3, h⟩ := h
  exact ⟨i, w, n, ok h1, ok h2, ok h3, of_decide_eq_true h⟩

/-- `struct { char a; struct { char b; int c; }; }`: `b` is at offset 1, not 4. -/
theorem C18_inner_alignment_violated :
    Misplaced [.member (str% "a") cchar] false [.member (str% "b") cchar, .member (str% "c") cint] [] :=
  misplaced (by decide +kernel)

/-- `struct { struct { int a; char b; }; char c; }`: `c` is placed in the padding of the anonymous struct. -/
theorem C18_struct_padding_violated :
    Misplaced [] false [.member (str% "a") cint, .member (str% "b") cchar] [.member (str% "c") cchar] :=
  misplaced (by decide +kernel)

/-- `struct { union { char a[5]; int b; }; char c; }`: `c` is placed in the padding of the anonymous union. -/
theorem C18_union_padding_violated :
    Misplaced [] true [.member (str% "a") { size := 5, align := 1, isArray := true }, .member (str% "b") cint]
      [.member (str% "c") cchar] :=
  misplaced (by decide +kernel)

/-- `struct { struct { int a : 3; int b : 4; }; }`: the fields become plain members. -/
theorem C18_fields_violated :
    Misplaced [] false [.field (str% "a") cint 3, .field (str% "b") cint 4] [] :=
  misplaced (by decide +kernel)

end Verif.Layout
