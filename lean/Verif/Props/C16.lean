import Verif.Layout.Lemmas
/-! # C16, C19, C70: layout without bit-fields, array sizes, incomplete members -/
namespace Verif.Layout
open Spec

/-- Member lists of valid plain members: named, distinct names, an alignment, size not zero except for at
most one array (a flexible array member), no members that have a flexible array. -/
structure Valid (ms : List (Bytes × MTy)) : Prop where
  nonempty : ms ≠ []
  named : ∀ m ∈ ms, m.1 ≠ []
  distinct : (ms.map Prod.fst).Nodup
  align : ∀ m ∈ ms, 0 < m.2.align ∧ m.2.align ≤ 2 ^ 63
  size : ∀ m ∈ ms, m.2.size = 0 → m.2.isArray
  once : ms.Pairwise fun x y => x.2.size ≠ 0 ∨ y.2.size ≠ 0
  flex : ∀ m ∈ ms, m.2.isFlexible = false

/-- The declarations. -/
def plain (ms : List (Bytes × MTy)) : List Decl := ms.map fun m => .member m.1 m.2

/-- Steps of the two inductions. -/
structure Suffix (a : Agg) (ms : List (Bytes × MTy)) : Prop where
  named : ∀ m ∈ ms, m.1 ≠ []
  distinct : (ms.map Prod.fst).Nodup
  fresh : ∀ m ∈ ms, ∀ x ∈ a.members, x.name ≠ m.1
  align : ∀ m ∈ ms, 0 < m.2.align ∧ m.2.align ≤ 2 ^ 63
  size : ∀ m ∈ ms, m.2.size = 0 → m.2.isArray ∧ a.flexible = false
  once : ms.Pairwise fun x y => x.2.size ≠ 0 ∨ y.2.size ≠ 0
  flex : ∀ m ∈ ms, m.2.isFlexible = false

theorem Suffix.fresh' {a : Agg} {m : Bytes × MTy} {ms : List (Bytes × MTy)} (h : Suffix a (m :: ms)) :
    Fresh a m.1 m.2 where
  named := h.named m (by simp)
  new := h.fresh m (by simp)
  size := by
    by_cases h0 : m.2.size = 0
    · exact .inr (h.size m (by simp) h0)
    · exact .inl h0
  flex := .inl (h.flex m (by simp))

theorem Suffix.step {a : Agg} {m : Bytes × MTy} {ms : List (Bytes × MTy)} (h : Suffix a (m :: ms))
    (b : Agg) (x : Member) (hb : b.members = a.members ++ [x]) (hx : x.name = m.1)
    (hf : b.flexible = (a.flexible || m.2.size == 0 || m.2.isFlexible)) : Suffix b ms where
  named := fun y hy => h.named y (by simp [hy])
  distinct := by have := h.distinct; simp only [List.map_cons, List.nodup_cons] at this; exact this.2
  fresh := by
    intro y hy z hz
    rw [hb, List.mem_append] at hz
    rcases hz with hz | hz
    · exact h.fresh y (by simp [hy]) z hz
    · simp only [List.mem_singleton] at hz
      subst hz
      have := h.distinct
      simp only [List.map_cons, List.nodup_cons, List.mem_map, not_exists, not_and] at this
      rw [hx]
      exact fun he => this.1 y hy he.symm
  align := fun y hy => h.align y (by simp [hy])
  size := by
    intro y hy h0
    obtain ⟨h1, h2⟩ := h.size y (by simp [hy]) h0
    refine ⟨h1, ?_⟩
    rw [hf, h2, h.flex m (by simp)]
    have := (List.pairwise_cons.1 h.once).1 y hy
    rcases this with h3 | h3
    · simp [h3]
    · exact absurd h0 h3
  once := (List.pairwise_cons.1 h.once).2
  flex := fun y hy => h.flex y (by simp [hy])

theorem struct_fold (ms : List (Bytes × MTy)) (a : Agg) (hs : a.isUnion = false) (hv : Suffix a ms)
    (hl : ∀ m ∈ a.members, m.backing = 0) {offs : List Nat} {fin : Nat}
    (hp : Placed a.size (ms.map fun m => (m.2.size, m.2.align)) offs fin) (hfin : fin ≤ longMax) :
    ∃ b, addDecls a (plain ms) = .ok b ∧ b.size = fin ∧
      b.members = a.members ++ (ms.zip offs).map fun p => { name := p.1.1, ty := p.1.2, offset := p.2 } := by
  induction ms generalizing a offs fin with
  | nil => cases hp; exact ⟨a, rfl, rfl, by simp⟩
  | cons m ms ih =>
    obtain ⟨n, t⟩ := m
    have hal := (hv.align (n, t) (by simp)).1
    rw [List.map_cons] at hp
    cases hp with
    | cons hlow hp =>
      rename_i o offs
      simp only at hlow hp
      obtain rfl : o = up a.size t.align := Lowest.unique hlow (lowest_up a.size hal)
      have hle := Placed.le hp
      have hadd := typeAddMember_plain (hv.fresh') hs
        (fun m hm => hl m (List.mem_of_getLast? hm)) hal (by simp only; omega)
      simp only at hadd
      obtain ⟨b, hb1, hb2, hb3⟩ := ih { a with
          members := a.members ++ [{ name := n, ty := t, offset := up a.size t.align }]
          flexible := a.flexible || t.size == 0 || t.isFlexible
          size := up a.size t.align + t.size } (hs) (hv.step _ _ rfl rfl rfl) (by
        intro m hm
        rcases List.mem_append.1 hm with hm | hm
        · exact hl m hm
        · simp only [List.mem_singleton] at hm; subst hm; rfl) hp hfin
      refine ⟨b, ?_, hb2, ?_⟩
      · rw [plain, List.map_cons, addDecls, List.foldlM_cons]
        simp only [addDecl]
        rw [hadd]
        exact hb1
      · rw [hb3]; simp

/-- The total is the largest size. -/
theorem union_fold (ms : List (Bytes × MTy)) (a : Agg) (hs : a.isUnion = true) (hv : Suffix a ms)
    (hfit : ∀ m ∈ ms, m.2.size ≤ longMax) :
    ∃ b, addDecls a (plain ms) = .ok b ∧ b.size = (ms.map fun m => m.2.size).foldl max a.size ∧
      b.members = a.members ++ ms.map fun p => { name := p.1, ty := p.2, offset := 0 } := by
  induction ms generalizing a with
  | nil => exact ⟨a, rfl, rfl, by simp⟩
  | cons m ms ih =>
    obtain ⟨n, t⟩ := m
    have hadd := typeAddMember_union (hv.fresh') hs (hfit (n, t) (by simp))
    simp only at hadd
    obtain ⟨b, hb1, hb2, hb3⟩ := ih { a with
      members := a.members ++ [{ name := n, ty := t, offset := 0 }]
      flexible := a.flexible || t.size == 0 || t.isFlexible
      size := max a.size t.size } (hs) (hv.step _ _ rfl rfl rfl) (fun m hm => hfit m (by simp [hm]))
    refine ⟨b, ?_, ?_, ?_⟩
    · rw [plain, List.map_cons, addDecls, List.foldlM_cons]
      simp only [addDecl]
      rw [hadd]
      exact hb1
    · rw [hb2]; simp
    · rw [hb3]; simp

theorem typeSeal_named {b : Agg} (hn : ∀ m ∈ b.members, m.name ≠ []) (ha : ∀ m ∈ b.members, 0 < m.ty.align)
    (hne : b.members ≠ []) :
    typeSeal b = .ok { b with size := alignTo b.size (maxAlign b.members) } := by
  have hf : (b.members.filter fun m => m.name ≠ []) = b.members := by
    rw [List.filter_eq_self]; intro m hm; simpa using hn m hm
  unfold typeSeal
  simp only [hf]
  rw [if_neg]
  obtain ⟨m, hm, he⟩ := maxAlign_mem hne
  have := ha m hm
  omega

theorem valid_suffix {ms : List (Bytes × MTy)} (hv : Valid ms) (u : Bool) : Suffix { isUnion := u } ms where
  named := hv.named
  distinct := hv.distinct
  fresh := by simp
  align := hv.align
  size := fun m hm h => ⟨hv.size m hm h, rfl⟩
  once := hv.once
  flex := hv.flex

/-- **C16, structs.** The members of a struct get the offsets of the ABI, its size is the end rounded up to the
largest alignment, and its own alignment is the largest one.  (`Placed` exists and is unique for every
member list, see below.) -/
theorem C16_struct_layout (ms : List (Bytes × MTy)) (hv : Valid ms) (offs : List Nat) (fin : Nat)
    (hp : Placed 0 (ms.map fun m => (m.2.size, m.2.align)) offs fin) (hfin : fin ≤ longMax) :
    ∃ a, layout false (plain ms) = .ok a ∧
      a.members.map (fun m => (m.name, m.offset)) = (ms.map Prod.fst).zip offs ∧
      Lowest a.ty.align fin a.ty.size ∧ Largest (ms.map fun m => m.2.align) a.ty.align := by
  obtain ⟨b, hb1, hb2, hb3⟩ := struct_fold ms { isUnion := false } rfl (valid_suffix hv false) (by simp) hp hfin
  have hlen : offs.length = ms.length := by
    simpa using Placed.length hp
  have hal : b.members.map (fun m => m.ty.align) = ms.map fun m => m.2.align := by
    rw [hb3]
    simp only [List.nil_append, List.map_map]
    rw [show ((fun m : Member => m.ty.align) ∘ fun p : (Bytes × MTy) × Nat =>
      ({ name := p.1.1, ty := p.1.2, offset := p.2 } : Member)) = (fun m => m.2.align) ∘ Prod.fst from rfl,
      ← List.map_map, List.map_fst_zip (by omega)]
  have hne : b.members ≠ [] := by
    intro h
    rw [h] at hal
    exact hv.nonempty (by simpa using hal.symm)
  have hmem : ∀ m ∈ b.members, ∃ x ∈ ms, m.name = x.1 ∧ m.ty = x.2 := by
    intro m hm
    rw [hb3] at hm
    simp only [List.nil_append, List.mem_map] at hm
    obtain ⟨p, hp, rfl⟩ := hm
    exact ⟨p.1, (List.of_mem_zip hp).1, rfl, rfl⟩
  have hseal := typeSeal_named (b := b)
    (fun m hm => by obtain ⟨x, hx, h1, _⟩ := hmem m hm; rw [h1]; exact hv.named x hx)
    (fun m hm => by obtain ⟨x, hx, _, h1⟩ := hmem m hm; rw [h1]; exact (hv.align x hx).1) hne
  have hlarge := largest_maxAlign hne
  rw [hal] at hlarge
  obtain ⟨x, hx, hxe⟩ := List.mem_map.1 hlarge.1
  have hA := hv.align x hx
  rw [hxe] at hA
  refine ⟨{ b with size := alignTo b.size (maxAlign b.members) }, ?_, ?_, ?_, hlarge⟩
  · rw [layout, hb1]; exact hseal
  · rw [hb3]
    simp only [List.nil_append, List.map_map]
    rw [List.zip_map_left]
    rfl
  · simp only [Agg.ty]
    rw [hb2, alignTo_eq hA.1 (by have : longMax = 2 ^ 63 - 1 := rfl; omega)]
    exact lowest_up _ hA.1

/-- The placement of the specification always exists and is unique. -/
theorem C16_placement (ms : List (Nat × Nat)) (h : ∀ m ∈ ms, 0 < m.2) :
    ∃ offs fin, Placed 0 ms offs fin ∧ ∀ offs' fin', Placed 0 ms offs' fin' → offs' = offs ∧ fin' = fin := by
  obtain ⟨o, f, hp⟩ := Placed.exists 0 ms h
  exact ⟨o, f, hp, fun o' f' hp' => Placed.unique hp' hp⟩

theorem le_foldl_max (l : List Nat) (x : Nat) : x ≤ l.foldl max x ∧ (∀ y ∈ l, y ≤ l.foldl max x) ∧
    (l.foldl max x = x ∨ l.foldl max x ∈ l) := by
  induction l generalizing x with
  | nil => simp
  | cons y l ih =>
    obtain ⟨h1, h2, h3⟩ := ih (max x y)
    simp only [List.foldl_cons]
    refine ⟨by omega, ?_, ?_⟩
    · intro z hz
      rcases List.mem_cons.1 hz with rfl | hz
      · omega
      · exact h2 z hz
    · rcases h3 with h3 | h3
      · rcases Nat.le_total x y with h | h
        · right; rw [h3]; simp; left; omega
        · left; rw [h3]; omega
      · right; simp [h3]

/-- **C16, unions.** All members of a union are at offset 0; the size is the largest size rounded up to the
largest alignment. -/
theorem C16_union_layout (ms : List (Bytes × MTy)) (hv : Valid ms) (big : Nat)
    (hb : Largest (ms.map fun m => m.2.size) big) (hfit : big ≤ longMax) :
    ∃ a, layout true (plain ms) = .ok a ∧
      a.members.map (fun m => (m.name, m.offset)) = ms.map (fun m => (m.1, 0)) ∧
      Lowest a.ty.align big a.ty.size ∧ Largest (ms.map fun m => m.2.align) a.ty.align := by
  obtain ⟨b, hb1, hb2, hb3⟩ := union_fold ms { isUnion := true } rfl (valid_suffix hv true)
    (fun m hm => Nat.le_trans (hb.2 _ (List.mem_map.2 ⟨m, hm, rfl⟩)) hfit)
  have hbig : b.size = big := by
    obtain ⟨_, h2, h3⟩ := le_foldl_max (ms.map fun m => m.2.size) 0
    rw [hb2]
    apply Nat.le_antisymm
    · rcases h3 with h3 | h3
      · rw [h3]; omega
      · exact hb.2 _ h3
    · exact h2 _ hb.1
  have hal : b.members.map (fun m => m.ty.align) = ms.map fun m => m.2.align := by
    rw [hb3]; simp
  have hne : b.members ≠ [] := by
    intro h
    rw [h] at hal
    exact hv.nonempty (by simpa using hal.symm)
  have hmem : ∀ m ∈ b.members, ∃ x ∈ ms, m.name = x.1 ∧ m.ty = x.2 := by
    intro m hm
    rw [hb3] at hm
    simp only [List.nil_append, List.mem_map] at hm
    obtain ⟨p, hp, rfl⟩ := hm
    exact ⟨p, hp, rfl, rfl⟩
  have hseal := typeSeal_named (b := b)
    (fun m hm => by obtain ⟨x, hx, h1, _⟩ := hmem m hm; rw [h1]; exact hv.named x hx)
    (fun m hm => by obtain ⟨x, hx, _, h1⟩ := hmem m hm; rw [h1]; exact (hv.align x hx).1) hne
  have hlarge := largest_maxAlign hne
  rw [hal] at hlarge
  obtain ⟨x, hx, hxe⟩ := List.mem_map.1 hlarge.1
  have hA := hv.align x hx
  rw [hxe] at hA
  refine ⟨{ b with size := alignTo b.size (maxAlign b.members) }, ?_, ?_, ?_, hlarge⟩
  · rw [layout, hb1]; exact hseal
  · rw [hb3]; simp
  · simp only [Agg.ty]
    rw [hbig, alignTo_eq hA.1 (by have : longMax = 2 ^ 63 - 1 := rfl; omega)]
    exact lowest_up _ hA.1

def exampleMembers : List (Bytes × MTy) :=
  [(str% "a", { size := 1, align := 1 }), (str% "b", { size := 8, align := 8 }), (str% "c", { size := 6, align := 2, isArray := true })]

/-- `struct { char a; long b; short c[3]; }`. -/
example : Valid exampleMembers ∧ Placed 0 [(1, 1), (8, 8), (6, 2)] [0, 8, 16] 22 ∧
    (layout false (plain exampleMembers)).map (fun a => (a.size, a.members.map (·.offset))) = .ok (24, [0, 8, 16]) := by
  refine ⟨⟨by decide, by decide, by decide, by decide, by decide, by simp [exampleMembers], by decide⟩, ?_, by decide +kernel⟩
  exact .cons (lowest_up 0 (by decide)) (.cons (lowest_up 1 (by decide)) (.cons (lowest_up 16 (by decide)) (.nil _)))

/-! ## C19 -/

/-- An array whose total size is at most LONG_MAX is accepted with exactly that size; an array with a
total size in (LONG_MAX, 2^64) is rejected.  Missing: total sizes of 2^64 and more. -/
theorem C19_array_size_partial (elem : MTy) (count : Nat) (h : count * elem.size < 2 ^ 64) :
    (count * elem.size ≤ longMax → ∃ t, createArray elem count = .ok t ∧ t.size = count * elem.size ∧
      t.align = elem.align) ∧
    (longMax < count * elem.size → createArray elem count = .error .diagnosed) := by
  unfold createArray
  rw [Nat.mod_eq_of_lt h]
  constructor
  · intro h'
    rw [if_neg (by omega)]
    exact ⟨_, rfl, rfl, rfl⟩
  · intro h'
    rw [if_pos h']

example : 3 * ({ size := 12, align := 4 } : MTy).size < 2 ^ 64 := by decide

/-- `int a[4611686018427387904]` is accepted and has size 0. -/
theorem C19_array_wraps_violated :
    createArray { size := 4, align := 4 } (2 ^ 62) = .ok { size := 0, align := 4, isArray := true } ∧
    2 ^ 62 * 4 > longMax := by decide +kernel

/-- For every element size above one there are counts that wrap: the total size is above LONG_MAX and the array is
accepted. -/
theorem C19_every_element_size_violated (elem : MTy) (h : 1 < elem.size) (hs : elem.size ≤ longMax) :
    ∃ count t, count < 2 ^ 64 ∧ longMax < count * elem.size ∧ createArray elem count = .ok t := by
  have hL : longMax = 2 ^ 63 - 1 := rfl
  have hd := Nat.mod_add_div (2 ^ 64) elem.size
  have hm := Nat.mod_lt (2 ^ 64) (show 0 < elem.size by omega)
  have hc : (2 ^ 64 / elem.size + 1) * elem.size = 2 ^ 64 + (elem.size - 2 ^ 64 % elem.size) := by
    rw [Nat.add_mul, Nat.mul_comm]; omega
  refine ⟨2 ^ 64 / elem.size + 1,
    { size := elem.size - 2 ^ 64 % elem.size, align := elem.align, isArray := true }, ?_, ?_, ?_⟩
  · have : 2 ^ 64 / elem.size ≤ 2 ^ 64 / 2 := Nat.div_le_div_left (by omega) (by omega)
    omega
  · omega
  · unfold createArray
    rw [hc]
    have : (2 ^ 64 + (elem.size - 2 ^ 64 % elem.size)) % 2 ^ 64 = elem.size - 2 ^ 64 % elem.size := by
      omega
    rw [this, if_neg (by omega)]

/-- `struct { char a[9223372036854775807]; int b; }` is accepted, with a size above LONG_MAX. -/
theorem C19_struct_too_large_violated :
    ∃ a, layout false [.member (str% "a") { size := 2 ^ 63 - 1, align := 1, isArray := true },
        .member (str% "b") { size := 4, align := 4 }] = .ok a ∧ a.size > longMax :=
  ⟨{ isUnion := false, size := 2 ^ 63 + 4, members := [⟨str% "a", ⟨2 ^ 63 - 1, 1, true, false, false⟩, 0, 0, 0, 0⟩,
     ⟨str% "b", ⟨4, 4, false, false, false⟩, 2 ^ 63, 0, 0, 0⟩], flexible := false }, by decide +kernel, by decide⟩

/-! ## C70: members without a size -/

/-- A member of a union whose type has no size (void, an incomplete struct) is diagnosed, and so is
a member of a struct whose type has an alignment but no size and is no array. Missing: types without
alignment in a struct. -/
theorem C70_incomplete_member_partial (a : Agg) (name : Bytes) (ty : MTy) (hs : ty.size = 0)
    (harr : ty.isArray = false) (h : a.isUnion = true ∨ (0 < ty.align ∧ ∀ m ∈ a.members, m.backing = 0)) :
    typeAddMember a name ty = .error .diagnosed := by
  have key : ∀ (b : Agg) (o : Nat), addMember b { name := name, ty := ty, offset := o } = .error .diagnosed := by
    intro b o
    unfold addMember
    split_ifs <;> simp_all
  unfold typeAddMember adjust
  rcases h with h | ⟨h1, h2⟩
  · rw [if_pos h]
    exact key _ _
  · cases hu : a.isUnion with
    | true => exact key _ _
    | false =>
      simp only [Bool.false_eq_true, if_false,
        release_plain (fun m hm => h2 m (List.mem_of_getLast? hm)), bind, Except.bind, pure, Except.pure]
      rw [if_neg (by omega)]
      exact key _ _

example : typeAddMember { isUnion := true } (str% "v") { size := 0, align := 0 } = .error .diagnosed :=
  C70_incomplete_member_partial _ _ _ rfl rfl (.inl rfl)

/-- `struct { void v; }`, or a member of incomplete struct type: the compiler divides by zero (or fails an
assertion) instead of a diagnostic. -/
theorem C70_incomplete_in_struct_violated (name : Bytes) :
    typeAddMember { isUnion := false } name { size := 0, align := 0 } = .error .crash := rfl

end Verif.Layout
