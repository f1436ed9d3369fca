import Verif.Init.Lemmas

/-!
# C26, C27: initialised objects
-/

namespace Verif.Init

/-- The size of the storage unit at an offset, as the merging code sees it. -/
noncomputable def unitSize (vs : List Asg) (o : Nat) : Nat :=
  open Classical in if ∃ a ∈ vs, a.off = o ∧ a.fw ≠ 0 ∧ a.size = 8 then 8 else 4

/-- A bit-field initialised by a constant, in a unit of at least `int` size. -/
def ConstField (a : Asg) : Prop :=
  (∃ v, a.val = .imm v) ∧ a.fo + a.fw ≤ max 4 a.size * 8 ∧ (a.size = 1 ∨ a.size = 2 ∨ a.size = 4 ∨ a.size = 8)

/-- The unit of `a` is not left full at byte 3, 5, 6 or 7 directly before another member, or the end, at `next`. -/
def NotAtOddByte (a : Asg) (next : Nat) : Prop :=
  a.off < next → a.stop = next * 8 → a.fo + a.fw = 8 ∨ a.fo + a.fw = 16 ∨ a.fo + a.fw = 32 ∨ a.fo + a.fw = 64

/-- **C27**, for bit-fields with constant initialisers, in order within their unit, where no unit mixes types of 8 bytes with
smaller ones, no unit is left full at an odd byte before the next member, and no field is the whole object.  The completed
list stores every bit of the object exactly once, in order and in whole bytes, and leaves the object with the bits that the
initialisers in the order written would give to a zeroed object.

The full statement has no such conditions; `C27_odd_byte_violated`, `C27_single_field_violated`, `C27_order_violated`,
`C27_mixed_types_violated` and `C27_variable_violated` show that they are needed. -/
theorem C27_fields_partial (size : Nat) (vs : List Asg) (hin : ∀ a ∈ vs, Inside size a) (hc : vs.Pairwise Compat)
    (hf : ∀ a ∈ vs, a.fw ≠ 0 → ConstField a)
    (hu : ∀ a ∈ vs, ∀ b ∈ vs, a.fw ≠ 0 → b.fw ≠ 0 → a.off = b.off → a.size = 8 → b.size = 8)
    (hg : ∀ a ∈ vs, a.fw ≠ 0 → NotAtOddByte a size ∧ ∀ b ∈ vs, NotAtOddByte a b.off)
    (hw : ∀ a ∈ vs, a.fw ≠ size * 8 ∨ a.fw = 0) :
    ∃ out, postprocess size vs = .ok out ∧ Contiguous 0 out (size * 8) ∧ (∀ e ∈ out, e.fo = 0 ∧ e.fw % 8 = 0) ∧
      ∀ m i, run out m i = if i < size * 8 then wanted vs i else m i := by
  obtain ⟨sorted, s1, s2, s3, s4⟩ := sortFrom_ok vs [] (fun y hy => ⟨(hin y (by simpa using hy)).1, (hin y (by simpa using hy)).2.1⟩)
    (by simp) hc List.Pairwise.nil
  replace s3 : ∀ z ∈ sorted, z ∈ vs := fun z hz => by simpa using s3 z hz
  have hU : ∀ o, unitSize vs o = 4 ∨ unitSize vs o = 8 := by
    intro o; unfold unitSize; split <;> simp
  have hUf : ∀ a ∈ vs, a.fw ≠ 0 → max 4 a.size = unitSize vs a.off := by
    intro a ha h0
    unfold unitSize
    split
    · rename_i h
      obtain ⟨b, hb, h1, h2, h3⟩ := h
      rw [hu b hb a ha h2 h0 h1 h3]
      rfl
    · rename_i h
      have h8 : a.size ≠ 8 := fun h8 => h ⟨a, ha, rfl, h0, h8⟩
      have := (hf a ha h0).2.2
      omega
  have hgap : ∀ a ∈ vs, a.fw ≠ 0 → ∀ o, NotAtOddByte a o → GoodGap a.off (a.fo + a.fw) o := by
    intro a ha h0 o h h1 h2 h3
    apply h h1
    unfold Asg.stop Asg.start Asg.len
    simp only [h0, if_false]
    omega
  have hstop : ∀ a ∈ vs, a.stop ≤ size * 8 := fun a ha => (hin a ha).2.2.2
  let x : Asg := zero (size + 1) 0 0 1
  obtain ⟨out, o1, o2, o3, o4, o5, o6, o7⟩ := fill_ok (unitSize vs) hU size sorted 0 0 x
    ⟨fun _ o _ ho => by simp only [x, zero]; omega, fun h => absurd rfl h⟩
    (fun a ha => by
      have hv := s3 a ha
      refine ⟨⟨(hin a hv).1, (hin a hv).2.1, fun h0 => ⟨(hf a hv h0).1, ?_, ?_⟩⟩, hUf a hv, (hin a hv).2.2⟩
      · rw [← hUf a hv h0]; exact (hf a hv h0).2.1
      · rw [← hUf a hv h0]; omega)
    s2 (fun a ha => ⟨Nat.zero_le _, Nat.zero_le _, fun _ => by omega⟩) (Nat.zero_le _) (Nat.zero_le _)
    (fun a _ _ h => absurd rfl h) (fun _ h => absurd rfl h)
    (fun a ha b hb h0 => hgap a (s3 a ha) h0 _ ((hg a (s3 a ha) h0).2 b (s3 b hb)))
    (fun a ha h0 => hgap a (s3 a ha) h0 _ (hg a (s3 a ha) h0).1)
  have himage : ∀ m i, run out m i = if i < size * 8 then wanted vs i else m i := by
    intro m i
    rw [o7, s4]
    simp only [List.reverse_nil, run_nil, Nat.zero_mul, Nat.zero_add]
    exact run_clear vs (size * 8) hstop m i
  simp only [Nat.zero_mul, Nat.zero_add] at o2
  have hfinal : ∀ r, Contiguous 0 r (size * 8) → (∀ e ∈ r, WholeBytes e) →
      normalizeIf sorted out = .ok r → postprocess size vs = .ok r := by
    intro r h1 h2 h3
    unfold postprocess sortAndTrim
    rw [s1]
    show (do let b ← fill size 0 0 sorted
             let b ← normalizeIf sorted b
             let n ← validate none 0 b
             if n = size then .ok b else .error .crash) = _
    rw [o1]
    show (do let b ← normalizeIf sorted out
             let n ← validate none 0 b
             if n = size then .ok b else .error .crash) = _
    rw [h3]
    show (do let n ← validate none 0 r
             if n = size then .ok r else .error .crash) = _
    rw [validate_ok r none 0 size h2 h1]
    show (if size = size then _ else _) = _
    rw [if_pos rfl]
  by_cases hany : (sorted.any fun a => a.fw ≠ 0) = true
  · obtain ⟨a, ha, h0⟩ := List.any_eq_true.1 hany
    simp only [decide_eq_true_eq] at h0
    match out, o1, o2, o3, o4, o6, himage, hfinal with
    | [], _, o2, _, o4, _, _, _ => exact absurd (o4 a ha) (by simp)
    | [e], _, o2, _, o4, _, _, _ =>
      have he := o4 a ha
      simp only [List.mem_singleton] at he
      subst he
      have h1 : a.start = 0 := o2.1
      have h2 : 0 + a.len = size * 8 := o2.2
      have h3 := hw a (s3 a ha)
      simp only [Asg.len, h0, if_false] at h2
      omega
    | e :: b :: bs, o1, o2, o3, o4, o6, himage, hfinal =>
      have hl : Linked (unitSize vs) e (b :: bs) := o6.2
      have he0 : e.fo = 0 := by
        have h1 : e.start = 0 := o2.1
        unfold Asg.start at h1
        split at h1
        · rename_i h; exact (o3 e (by simp)).2.1 h
        · omega
      have hes : e.stop = 0 + e.len := by have h1 : e.start = 0 := o2.1; rw [← h1]; rfl
      obtain ⟨r, r1, r2, r3, r4⟩ := mergeAll_ok (unitSize vs) hU size (b :: bs) e (o3 e (by simp)) he0
        (fun z hz => o3 z (by simp [hz])) (by rw [hes]; exact o2.2) hl
      rw [o2.1] at r2
      refine ⟨r, hfinal r r2 r3 ?_, r2, r3, fun m i => by rw [r4]; exact himage m i⟩
      rw [normalizeIf, if_pos hany]
      exact r1
  · have hz : ∀ a ∈ sorted, a.fw = 0 := by
      intro a ha
      by_contra h0
      exact hany (List.any_eq_true.2 ⟨a, ha, by simpa using h0⟩)
    have hob : ∀ e ∈ out, WholeBytes e := by
      intro e he
      have h0 := o5 rfl hz e he
      exact ⟨(o3 e he).2.1 h0, by rw [h0]⟩
    exact ⟨out, hfinal out o2 hob (by rw [normalizeIf, if_neg hany]), o2, hob, himage⟩

/-- `struct { int a : 3, : 4, b : 9; char c[2]; int d : 20, e : 12; } x = { 5, 300, { [1] = 7, [0] = 8 }, 1, 2 }` -/
def sampleFields : List Asg :=
  [{ off := 0, fo := 0, fw := 3, size := 4, val := .imm 5 }, { off := 0, fo := 7, fw := 9, size := 4, val := .imm 300 },
   { off := 3, size := 1, val := .imm 7 }, { off := 2, size := 1, val := .imm 8 },
   { off := 4, fo := 0, fw := 20, size := 4, val := .imm 1 }, { off := 4, fo := 20, fw := 12, size := 4, val := .imm 2 }]

instance (a b : Asg) : Decidable (Same a b) := inferInstanceAs (Decidable (_ ∧ _))
instance (a b : Asg) : Decidable (Before a b) := inferInstanceAs (Decidable (_ ∧ _))
instance (a b : Asg) : Decidable (Compat a b) := inferInstanceAs (Decidable (_ ∨ _))
instance (s : Nat) (a : Asg) : Decidable (Inside s a) := inferInstanceAs (Decidable (_ ∧ _))
instance (a : Asg) (n : Nat) : Decidable (NotAtOddByte a n) := inferInstanceAs (Decidable (_ → _))

/-- The hypotheses of `C27_fields_partial` hold for it, and of the result: one statement for the fields `a` and `b`, two
elements, and one for `d` and `e`. -/
example : (∀ a ∈ sampleFields, Inside 8 a) ∧ sampleFields.Pairwise Compat ∧ (∀ a ∈ sampleFields, a.fw ≠ 0 → ConstField a) ∧
    (∀ a ∈ sampleFields, ∀ b ∈ sampleFields, a.fw ≠ 0 → b.fw ≠ 0 → a.off = b.off → a.size = 8 → b.size = 8) ∧
    (∀ a ∈ sampleFields, a.fw ≠ 0 → NotAtOddByte a 8 ∧ ∀ b ∈ sampleFields, NotAtOddByte a b.off) ∧
    (∀ a ∈ sampleFields, a.fw ≠ 8 * 8 ∨ a.fw = 0) ∧
    (postprocess 8 sampleFields).toOption.map (·.map fun a => (a.off, a.fo, a.fw, a.size, a.const?.map (·.toNat))) =
      some [(0, 0, 16, 4, some (5 + 300 * 128)), (2, 0, 0, 1, some 8), (3, 0, 0, 1, some 7), (4, 0, 0, 4, some (1 + 2 * 2 ^ 20))] := by
  refine ⟨by decide, by decide, ?_, by decide, by decide, by decide, by decide⟩
  simp [sampleFields, ConstField]

/-- **C26**: for objects without bit-fields.  The completed list stores every byte of the object exactly once, in increasing
order, and the object gets what the initialisers, in the order written, give to a zeroed object; other memory is kept.  Two
initialisers are either for the same scalar element or for separate ones. -/
theorem C26_objects_partial (size : Nat) (vs : List Asg) (hin : ∀ a ∈ vs, Inside size a) (hc : vs.Pairwise Compat)
    (hf : ∀ a ∈ vs, a.fw = 0) :
    ∃ out, postprocess size vs = .ok out ∧ Contiguous 0 out (size * 8) ∧ (∀ e ∈ out, e.fo = 0 ∧ e.fw % 8 = 0) ∧
      ∀ m i, run out m i = if i < size * 8 then wanted vs i else m i :=
  C27_fields_partial size vs hin hc (fun a ha h => absurd (hf a ha) h) (fun a ha _ _ h => absurd (hf a ha) h)
    (fun a ha h => absurd (hf a ha) h) (fun a ha => .inr (hf a ha))

/-- `struct { char *s; short k[5]; } x = { .k[3] = 4, .k = { 1 }, .s = p, .k[3] = 9 }` -/
def sampleObject : List Asg :=
  [{ off := 14, size := 2, val := .imm 4 }, { off := 8, size := 2, val := .imm 1 },
   { off := 0, size := 8, val := .data fun i => i % 3 = 0 }, { off := 14, size := 2, val := .imm 9 }]

example : (∀ a ∈ sampleObject, Inside 24 a) ∧ sampleObject.Pairwise Compat ∧ (∀ a ∈ sampleObject, a.fw = 0) ∧
    (postprocess 24 sampleObject).toOption.map (·.map fun a => (a.off, a.size, a.const?.map (·.toNat))) =
      some [(0, 8, none), (8, 2, some 1), (10, 4, some 0), (14, 2, some 9), (16, 8, some 0)] := by
  refine ⟨by decide, by decide, by decide, by decide⟩

/-- What initialised objects should be like: the completion succeeds and the object gets the bits of the initialisers in the
order written. -/
def Completes (size : Nat) (vs : List Asg) : Prop :=
  ∃ out, postprocess size vs = .ok out ∧ ∀ i, i < size * 8 → run out (fun _ => false) i = wanted vs i

theorem not_completes_of_crash {size : Nat} {vs : List Asg} (h : postprocess size vs = .error .crash) : ¬ Completes size vs := by
  rintro ⟨out, h', -⟩
  rw [h] at h'
  cases h'

theorem not_completes_of_bit {size : Nat} {vs : List Asg} (i : Nat) (hi : i < size * 8)
    (h : (postprocess size vs).toOption.map (fun out => run out (fun _ => false) i) ≠ some (wanted vs i)) : ¬ Completes size vs := by
  rintro ⟨out, h', h2⟩
  apply h
  rw [h']
  simp [Except.toOption, h2 i hi]

/-- `struct { struct { int a, b; } s; } x = { .s = y, .s.a = 1 }`: the initialiser of the member replaces the whole structure,
and `x.s.b` is zero.  Here `y.b` has its bit 0 set, which is bit 32 of the object. -/
theorem C26_member_override_violated :
    ¬ Completes 8 [{ off := 0, size := 8, val := .data fun i => i = 32 }, { off := 0, size := 4, val := .imm 1 }] :=
  not_completes_of_bit 32 (by decide) (by decide)

/-- `struct { int a : 24; char c; } x = { 1, 2 }` fails. -/
theorem C27_odd_byte_violated :
    ¬ Completes 4 [{ off := 0, fo := 0, fw := 24, size := 4, val := .imm 1 }, { off := 3, size := 1, val := .imm 2 }] :=
  not_completes_of_crash rfl

/-- `struct { int a : 32; } x = { 1 }` fails. -/
theorem C27_single_field_violated : ¬ Completes 4 [{ off := 0, fo := 0, fw := 32, size := 4, val := .imm 1 }] :=
  not_completes_of_crash rfl

/-- `struct { int a : 4, b : 4; } x = { .b = 1, .a = 2 }` fails: fields of one unit are not sorted. -/
theorem C27_order_violated :
    ¬ Completes 4 [{ off := 0, fo := 4, fw := 4, size := 4, val := .imm 1 }, { off := 0, fo := 0, fw := 4, size := 4, val := .imm 2 }] :=
  not_completes_of_crash rfl

/-- `struct { int a : 16, b : 16; long c : 32; } x = { 1, 2, 3 }` fails: the three fields share an offset. -/
theorem C27_mixed_types_violated :
    ¬ Completes 8 [{ off := 0, fo := 0, fw := 16, size := 4, val := .imm 1 }, { off := 0, fo := 16, fw := 16, size := 4, val := .imm 2 },
      { off := 0, fo := 32, fw := 32, size := 8, val := .imm 3 }] :=
  not_completes_of_crash rfl

/-- `struct { int a : 4, b : 4, c : 4; } x = { y, 1, 2 }` with a variable `y`: the constants after it are shifted twice, and
`x.b` is 0. -/
theorem C27_variable_violated :
    ¬ Completes 4 [{ off := 0, fo := 0, fw := 4, size := 4, val := .data fun _ => false },
      { off := 0, fo := 4, fw := 4, size := 4, val := .imm 1 }, { off := 0, fo := 8, fw := 4, size := 4, val := .imm 2 }] :=
  not_completes_of_bit 4 (by decide) (by decide)

end Verif.Init
