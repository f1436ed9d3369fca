import Verif.Abi.AssignSpec
import Verif.Abi.PushLemmas

/-!
# C40: assignment of a structure or union

The code for `target = l`, of structure or union type of `n` bytes, run in any state of the
machine.  Both operands are variables, or objects behind pointers in variables or registers;
`S` and `T` are their addresses, and as the language requires the objects are the same or do
not overlap.

* `C40_copy_partial`: the bytes of the target are those of the source, and no other byte of
  memory is written.
* `C40_touches_partial`: every access is to a byte of one of the objects, or to a variable
  with a pointer to it.
* `C40_x87_partial`: the same for a structure or union which is a `long double`, for which the
  code uses 16 bytes under the top of the stack; the ten bytes with the value are copied.
* `C40_large_partial`: for more than 64 bytes, `memcpy` is called with the target, the source and
  the size.

Missing: sizes 3, 5, 6 and 7, where the code copies 4 or 8 bytes (`C40_width_violated`),
objects of more than 8 bytes where the second eightbyte has no member at all, what `memcpy`
does, and position independent code.  An argument on the stack is copied in whole eightbytes, which
reads behind the object (`C40_push_violated`).
-/

namespace Verif.Abi

/-- The size is not one of those for which too much is copied, and not all of the second
eightbyte is padding. -/
def Ty.Exact (t : Ty) : Prop :=
  (t.size ≠ 3 ∧ t.size ≠ 5 ∧ t.size ≠ 6 ∧ t.size ≠ 7) ∧
    (8 < t.size → ∀ pc, classify t = some pc → pc[1]? ≠ some .no)

theorem assign_exact {lib : Bool} {t : Ty} {l target : Src} {s : M} {S T : Int} {code : List Ins} (ht : t.scalar = none)
    (he : t.Exact) (hx : copyKind t ≠ some .x87) (hs : t.size ≤ 64 ∨ lib = false) (h : assign lib t l target = some code)
    (hS : l.At s S) (hT : target.At s T) (hov : S = T ∨ S + t.size ≤ T ∨ T + t.size ≤ S) :
    (∀ j : Nat, j < t.size → (run s code).mem (T + j) = s.mem (S + j)) ∧
      (∀ x, x < T ∨ T + t.size ≤ x → (run s code).mem x = s.mem x) ∧
      (∀ r, r = SP ∨ r = BP ∨ isTempInt r ∨ isTempSse r → (run s code).reg r = s.reg r) ∧
      ∀ y ∈ touches s code, ∀ x, y.1 ≤ x → x < y.1 + y.2 → l.own s S t.size x ∨ target.own s T t.size x := by
  obtain ⟨k, hk, h⟩ := Option.bind_eq_some_iff.mp h
  cases k with
  | x87 => exact absurd hk hx
  | reg w real =>
    obtain ⟨rfl, hw, hr⟩ := copyKind_reg ht hk he.1 he.2
    simp only at h
    obtain ⟨c, hc, h⟩ := Option.bind_eq_some_iff.mp h
    obtain ⟨d, hd, h⟩ := Option.bind_eq_some_iff.mp h
    simp only [Option.some.injEq] at h
    subst h
    obtain ⟨a1, a2, a3, a4⟩ := assign_reg rfl hw hr hS hT hc hd
    refine ⟨a1, a2, fun r hr => a3 r ?_ ?_, a4⟩
    · rintro rfl; cases real <;> exact absurd hr (by decide)
    · rintro rfl; exact absurd hr (by decide)
  | object =>
    simp only at h
    obtain ⟨c, hc, h⟩ := Option.bind_eq_some_iff.mp h
    obtain ⟨d, hd, h⟩ := Option.bind_eq_some_iff.mp h
    simp only [if_pos hs, Option.some.injEq] at h
    subst h
    obtain ⟨a1, a2, a3, a4⟩ := assign_object hS hT hov hc hd
    refine ⟨a1, a2, fun r hr => a3 r ?_ ?_ ?_ ?_, a4⟩ <;> (rintro rfl; exact absurd hr (by decide))

theorem C40_copy_partial {lib : Bool} {t : Ty} {l target : Src} {s : M} {S T : Int} {code : List Ins} (ht : t.scalar = none)
    (he : t.Exact) (hx : copyKind t ≠ some .x87) (hs : t.size ≤ 64 ∨ lib = false) (h : assign lib t l target = some code)
    (hS : l.At s S) (hT : target.At s T) (hov : S = T ∨ S + t.size ≤ T ∨ T + t.size ≤ S) :
    rd (run s code).mem T t.size = rd s.mem S t.size ∧
      (∀ x, x < T ∨ T + t.size ≤ x → (run s code).mem x = s.mem x) ∧
      ∀ r, r = SP ∨ r = BP ∨ isTempInt r ∨ isTempSse r → (run s code).reg r = s.reg r := by
  obtain ⟨a1, a2, a3, _⟩ := assign_exact ht he hx hs h hS hT hov
  exact ⟨rd_ext a1, a2, a3⟩

theorem C40_touches_partial {lib : Bool} {t : Ty} {l target : Src} {s : M} {S T : Int} {code : List Ins} (ht : t.scalar = none)
    (he : t.Exact) (hx : copyKind t ≠ some .x87) (hs : t.size ≤ 64 ∨ lib = false) (h : assign lib t l target = some code)
    (hS : l.At s S) (hT : target.At s T) (hov : S = T ∨ S + t.size ≤ T ∨ T + t.size ≤ S) :
    ∀ y ∈ touches s code, ∀ x, y.1 ≤ x → x < y.1 + y.2 →
      (S ≤ x ∧ x < S + t.size) ∨ (T ≤ x ∧ x < T + t.size) ∨ l.cell s x ∨ target.cell s x := by
  intro y hy x h1 h2
  rcases (assign_exact ht he hx hs h hS hT hov).2.2.2 y hy x h1 h2 with (h | h) | (h | h)
  · exact .inl h
  · exact .inr (.inr (.inl h))
  · exact .inr (.inl h)
  · exact .inr (.inr (.inr h))

theorem C40_x87_partial {lib : Bool} {t : Ty} {l target : Src} {s : M} {S T : Int} {code : List Ins}
    (hx : copyKind t = some .x87) (h : assign lib t l target = some code) (hS : l.At s S)
    (hT : target.Fixed (fun x => s.reg SP - 16 ≤ x ∧ x < s.reg SP) (fun _ => False) s T)
    (h1 : s.reg SP ≤ S ∨ S + 16 ≤ s.reg SP - 16) (h2 : s.reg SP ≤ T ∨ T + 16 ≤ s.reg SP - 16) :
    rd (run s code).mem T 10 = rd s.mem S 10 ∧
      (∀ x, (x < T ∨ T + 16 ≤ x) → (x < s.reg SP - 16 ∨ s.reg SP ≤ x) → (run s code).mem x = s.mem x) ∧
      (∀ r, r = SP ∨ r = BP ∨ isTempInt r ∨ isTempSse r → (run s code).reg r = s.reg r) ∧
      ∀ y ∈ touches s code, ∀ x, y.1 ≤ x → x < y.1 + y.2 →
        (S ≤ x ∧ x < S + 16) ∨ (T ≤ x ∧ x < T + 16) ∨ l.cell s x ∨ target.cell s x ∨ (s.reg SP - 16 ≤ x ∧ x < s.reg SP) := by
  obtain ⟨k, hk, h⟩ := Option.bind_eq_some_iff.mp h
  rw [hx] at hk
  simp only [Option.some.injEq] at hk
  subst hk
  simp only at h
  obtain ⟨c, hc, h⟩ := Option.bind_eq_some_iff.mp h
  obtain ⟨d, hd, h⟩ := Option.bind_eq_some_iff.mp h
  simp only [Option.some.injEq] at h
  subst h
  obtain ⟨a1, a2, a3, a4⟩ := assign_x87 hS hT h1 h2 hc hd
  refine ⟨rd_ext a1, a2, fun r hr => a3 r ?_ ?_ ?_ ?_ ?_, fun y hy x g1 g2 => ?_⟩
  · rintro rfl; exact absurd hr (by decide)
  · rintro rfl; exact absurd hr (by decide)
  · rintro rfl; exact absurd hr (by decide)
  · rintro rfl; exact absurd hr (by decide)
  · rintro rfl; exact absurd hr (by decide)
  · rcases a4 y hy x g1 g2 with (h | h) | (h | h) | h
    · exact .inl h
    · exact .inr (.inr (.inl h))
    · exact .inr (.inl h)
    · exact .inr (.inr (.inr (.inl h)))
    · exact .inr (.inr (.inr (.inr h)))

/-- What is in the registers of the first three arguments when `memcpy` is called. -/
theorem C40_large_partial {t : Ty} {l target : Src} {s : M} {S T : Int} {code : List Ins} (hn : 64 < t.size)
    (hn' : t.size < 256 ^ 8) (hk : copyKind t = some .object) (h : assign true t l target = some code) (hS : l.At s S)
    (hT : target.At s T) :
    (run s code).reg DI = T ∧ (run s code).reg SI = S ∧ (run s code).reg DX = t.size ∧ (run s code).mem = s.mem ∧
      ∀ r, r = SP ∨ r = BP ∨ isTempInt r ∨ isTempSse r → (run s code).reg r = s.reg r := by
  obtain ⟨k, hk', h⟩ := Option.bind_eq_some_iff.mp h
  rw [hk] at hk'
  simp only [Option.some.injEq] at hk'
  subst hk'
  simp only at h
  obtain ⟨c, hc, h⟩ := Option.bind_eq_some_iff.mp h
  obtain ⟨d, hd, h⟩ := Option.bind_eq_some_iff.mp h
  have : ¬ (t.size ≤ 64 ∨ true = false) := by simp; omega
  simp only [if_neg this, Option.some.injEq] at h
  subst h
  obtain ⟨e1, e2, e3, e4, _⟩ := assign_addresses hS hT hc hd
  rw [run_append, run_cons, run_nil]
  simp only [step]
  refine ⟨?_, ?_, ?_, e1, fun r hr => ?_⟩
  · rw [set_reg, if_neg (by decide), e3]
  · rw [set_reg, if_neg (by decide), e2]
  · rw [set_reg, if_pos rfl]
    show (t.size : Int) % 256 ^ 8 = _
    exact Int.emod_eq_of_lt (by omega) (by exact_mod_cast hn')
  · rw [set_reg, if_neg, e4]
    all_goals (rintro rfl; exact absurd hr (by decide))

/-! ## Examples -/

/-- Memory where the byte at `x` is `x`. -/
def plain (sp : Int) : M where
  reg r := if r = SP then sp else if r = BP then sp + 100 else if r = BX then 3000 else 0
  mem x := UInt8.ofNat (x % 251).toNat

/-- `struct { long a; int b; }`, in pieces of 8 and 4 bytes: 16 bytes as there is padding. -/
def pair : Ty := .agg 16 8 false (.cons 0 (.int 8 true) (.cons 8 (.int 4 true) .nil))

/-- `*p = g`, with `p` in a register. -/
example : ∃ code, assign true pair (.place (.global 2000)) (.deref (.temp BX) 8) = some code ∧ pair.scalar = none ∧ pair.Exact ∧
    copyKind pair = some .object ∧ (Src.place (.global 2000)).At (plain 5000) 2000 ∧
    (Src.deref (.temp BX) 8).At (plain 5000) 3008 ∧ rd (run (plain 5000) code).mem 3008 16 = rd (plain 5000).mem 2000 16 := by
  refine ⟨_, rfl, rfl, ⟨by decide, fun _ pc h => ?_⟩, by decide, ⟨by simp, rfl⟩, ⟨⟨by decide, by simp, by decide, by decide⟩, ?_⟩, ?_⟩
  · have : classify pair = some [.integer, .integer, .no, .no] := by decide
    rw [this, Option.some.injEq] at h
    subst h
    decide
  · rw [word_temp (by decide) (by decide)]; decide
  · decide +kernel

/-- `struct { float f; }`, in a vector register. -/
example : ∃ code, assign true (.agg 4 4 false (.cons 0 .float .nil)) (.place (.frame (-8))) (.place (.global 3000)) = some code ∧
    (Ty.agg 4 4 false (.cons 0 .float .nil)).Exact ∧ copyKind (.agg 4 4 false (.cons 0 .float .nil)) = some (.reg 4 true) ∧
    touches (plain 5000) code = [(5092, 4), (3000, 4)] :=
  ⟨_, rfl, ⟨by decide, by decide⟩, by decide, by decide +kernel⟩

/-- `struct { long double x; }`. -/
def wrap : Ty := .agg 16 16 false (.cons 0 .ldouble .nil)

example : ∃ code, copyKind wrap = some .x87 ∧ assign true wrap (.deref (.temp BX) 0) (.deref (.global 1000) 0) = some code ∧
    (Src.deref (.temp BX) 0).At (plain 50000) 3000 ∧
    (Src.deref (.global 1000) 0).Fixed (fun x => (plain 50000).reg SP - 16 ≤ x ∧ x < (plain 50000).reg SP) (fun _ => False)
      (plain 50000) ((Place.global 1000).word (plain 50000)) ∧
    50000 ≤ (Place.global 1000).word (plain 50000) ∧
    rd (run (plain 50000) code).mem ((Place.global 1000).word (plain 50000)) 10 = rd (plain 50000).mem 3000 10 := by
  refine ⟨_, by decide, rfl, ⟨⟨by decide, by simp, by decide, by decide⟩, ?_⟩, ⟨?_, by simp⟩, by decide +kernel, by decide +kernel⟩
  · rw [word_temp (by decide) (by decide)]; decide
  · intro j hj h
    have h1 : 50000 - 16 ≤ (1000 + (j : Int)) := h.1
    omega

/-- 80 bytes. -/
example : ∃ code, copyKind (.agg 80 8 false (.cons 0 (.array 10 .ptr) .nil)) = some .object ∧
    assign true (.agg 80 8 false (.cons 0 (.array 10 .ptr) .nil)) (.place (.global 2000)) (.place (.frame (-80))) = some code ∧
    (run (plain 5000) code).reg DI = 5020 ∧ (run (plain 5000) code).reg SI = 2000 ∧ (run (plain 5000) code).reg DX = 80 :=
  ⟨_, by decide, rfl, by decide +kernel, by decide +kernel, by decide +kernel⟩

/-! ## Violations -/

def chars (n : Nat) : Ty := .agg n 1 false (.cons 0 (.array n (.int 1 true)) .nil)

/-- `struct { char c[n]; }` with 3, 5, 6 or 7 bytes: one byte or more behind the target is
overwritten, and as many behind the source are read. -/
theorem C40_width_violated : ∀ n ∈ [3, 5, 6, 7], ∃ code,
    assign true (chars n) (.place (.global 2000)) (.place (.global 3000)) = some code ∧
      (run (plain 5000) code).mem (3000 + n) = (plain 5000).mem (2000 + n) ∧
      (plain 5000).mem (2000 + n) ≠ (plain 5000).mem (3000 + n) ∧
      ∃ y ∈ touches (plain 5000) code, y.1 = 2000 ∧ (n : Int) < y.2 := by
  intro n hn
  simp only [List.mem_cons, List.not_mem_nil, or_false] at hn
  rcases hn with rfl | rfl | rfl | rfl
  all_goals exact ⟨_, rfl, by decide +kernel, by decide +kernel, ⟨_, List.mem_cons_self, by decide +kernel, by decide +kernel⟩⟩

/-- An argument of 20 bytes on the stack: 24 bytes are read. -/
theorem C40_push_violated :
    (push ⟨chars 20, .place (.global 2000)⟩).map (fun code => decide ((2000, 24) ∈ touches (plain 5000) code)) = some true := by
  decide +kernel

end Verif.Abi
