import Verif.Brace.Whole

/-!
# C92: each expression of an initialiser is for the element that C says

Full statement: for each type of object and each list of initialisers between braces that C99 6.7.8 allows for it, with braces around inner objects or
without, and with designators or without, the list is accepted, and each of its expressions is assigned to the element that 6.7.8 gives it.

The code does not do this in the cases below.  The theorem is for all types and all lists (`Items.Good`) without

* a union without braces around it that is followed by an item without designator, or with an index;
* an index after a larger one, or in the middle of an array's element that has no braces;
* designators like `[0].x` that are followed by an index or by an item without designator;
* a designator after the last member was given without one;
* a comma at the end of the braces around a scalar;
* a second item for the members of a union, where the last counts (the code has this, but it is not in the specification here).

Anonymous members and flexible array members are not modelled.
-/

namespace Verif.Brace

/-- Lists are read to their closing brace, with all assignments in order, each to an element that can be assigned the value. -/
theorem C92_elements_partial (t : T) (ht : t.Ok) (hs : t.isScalar = false) (l : Items) (w : List (Path × Ex)) (hw : l.fill t [] = some w) (hg : l.Good t)
    (rest : List Tok) :
    (∃ F, ∀ f, F ≤ f → braced f t ⟨(I.list l).toks ++ rest, none, []⟩ = .ok ⟨rest, none, w⟩) ∧
      ∀ x ∈ w, ∃ u, t.at x.1 = some u ∧ u.takes x.2 = true := by
  constructor
  · obtain ⟨F, h⟩ := lists (sizeOf l + 1) l t [] w rest [] (by omega) ht hs hw hg
    refine ⟨F, fun f hf => ?_⟩
    have h := h f hf
    have ht : (I.list l).toks ++ rest = .lb :: (l.toks ++ .rb :: rest) := by simp [I.toks]
    rw [ht]
    cases t with
    | scalar => cases hs
    | arr n e => exact h
    | struct k ms => exact h
    | union k ms => exact h
  · intro x hx
    obtain ⟨q, v, h1, h2, h3⟩ := Items.typed_fill l hw x hx
    exact ⟨v, by rw [h1]; exact h2, h3⟩

/-! ### An instance -/

def anInt : T := .scalar false
def aPoint : T := .struct 0 [anInt, anInt]
def val (n : Nat) : I := .ex (.scalar n)

/-- `struct { struct P a[2]; char s[4]; int x; }` -/
def aRecord : T := .struct 1 [.arr 2 aPoint, .arr 4 (.scalar true), anInt]

/-- `{ 1, 2, {3}, "..", .a = 4, 5, p, .x = 7 }` -/
def aList : Items := .cons [] (val 1) (.cons [] (val 2) (.cons [] (.list (.one [] (val 3) false)) (.cons [] (.ex (.string 0))
  (.cons [.field 0] (val 4) (.cons [] (val 5) (.cons [] (.ex (.record 0 6)) (.one [.field 2] (val 7) true)))))))

def aResult : List (Path × Ex) := [([0, 0, 0], .scalar 1), ([0, 0, 1], .scalar 2), ([0, 1, 0], .scalar 3), ([1], .string 0), ([0, 0, 0], .scalar 4),
  ([0, 0, 1], .scalar 5), ([0, 1], .record 0 6), ([2], .scalar 7)]

theorem aList_fill : aList.fill aRecord [] = some aResult := by decide

theorem aPoint_ok : aPoint.Ok := by
  refine .struct ?_ ?_ (by simp) ?_
  · intro u hu; simp [anInt] at hu; subst hu; exact .scalar
  · intro u hu v; simp [anInt] at hu; subst hu; simp
  · intro u hu v; simp [anInt] at hu; subst hu; rfl

theorem aRecord_ok : aRecord.Ok := by
  refine .struct ?_ ?_ (by simp) ?_
  · intro u hu
    simp at hu
    rcases hu with rfl | rfl | rfl
    · exact .arr aPoint_ok (by simp [aPoint])
    · exact .arr .scalar (by simp)
    · exact .scalar
  · intro u hu v
    simp at hu
    rcases hu with rfl | rfl | rfl <;> simp [anInt]
  · intro u hu v
    simp at hu
    rcases hu with rfl | rfl | rfl <;> rfl

theorem aList_good : aList.Good aRecord := by
  simp [aList, aRecord, aPoint, anInt, val, Items.Good, Items.Tame, I.Tame, I.behind, Allowed, shutAfter, place, T.at, T.child, T.next, T.reach, T.takes, T.go, T.select,
    T.clear, T.isUnion, T.isScalar, Items.dot, Items.des]

example : ∃ F, ∀ f, F ≤ f → braced f aRecord ⟨(I.list aList).toks, none, []⟩ = .ok ⟨[], none, aResult⟩ := by
  have := (C92_elements_partial aRecord aRecord_ok rfl aList aResult aList_fill aList_good []).1
  simpa using this

/-- The same, as a test of the model. -/
example : braced 40 aRecord ⟨(I.list aList).toks, none, []⟩ = .ok ⟨[], none, aResult⟩ := by decide +kernel

/-! ### Where the code does not do it -/

/-- `struct { union { int a, b; } u; int c; } = { 1, 2 }` is rejected: the loop for the union takes the comma (lines 222-240). -/
theorem C92_union_violated : ∃ w, (Items.cons [] (val 1) (.one [] (val 2) false)).fill (.struct 1 [.union 2 [anInt, anInt], anInt]) [] = some w ∧
    braced 40 (.struct 1 [.union 2 [anInt, anInt], anInt]) ⟨(I.list (.cons [] (val 1) (.one [] (val 2) false))).toks, none, []⟩ = .error :=
  ⟨[([0, 0], .scalar 1), ([1], .scalar 2)], by decide, by decide +kernel⟩

/-- `int a[3] = { [2] = 1, [0] = 2, 3 }` is rejected: the number of elements so far is compared, not the index (line 484). -/
theorem C92_backwards_violated : ∃ w,
    (Items.cons [.index 2] (val 1) (.cons [.index 0] (val 2) (.one [] (val 3) false))).fill (.arr 3 anInt) [] = some w ∧
    braced 40 (.arr 3 anInt) ⟨(I.list (.cons [.index 2] (val 1) (.cons [.index 0] (val 2) (.one [] (val 3) false)))).toks, none, []⟩ = .error :=
  ⟨[([2], .scalar 1), ([0], .scalar 2), ([1], .scalar 3)], by decide, by decide +kernel⟩

/-- `struct P a[2] = { [0].x = 1, [1].x = 2 }` is rejected: `next_element` does not stop at `[`. -/
theorem C92_index_violated : ∃ w,
    (Items.cons [.index 0, .field 0] (val 1) (.one [.index 1, .field 0] (val 2) false)).fill (.arr 2 aPoint) [] = some w ∧
    braced 40 (.arr 2 aPoint) ⟨(I.list (.cons [.index 0, .field 0] (val 1) (.one [.index 1, .field 0] (val 2) false))).toks, none, []⟩ = .error :=
  ⟨[([0, 0], .scalar 1), ([1, 0], .scalar 2)], by decide, by decide +kernel⟩

/-- `struct P s = { 1, 2, .x = 3 }` is rejected: the loop ends at the last member before it looks for a designator. -/
theorem C92_last_violated : ∃ w,
    (Items.cons [] (val 1) (.cons [] (val 2) (.one [.field 0] (val 3) false))).fill aPoint [] = some w ∧
    braced 40 aPoint ⟨(I.list (.cons [] (val 1) (.cons [] (val 2) (.one [.field 0] (val 3) false)))).toks, none, []⟩ = .error :=
  ⟨[([0], .scalar 1), ([1], .scalar 2), ([0], .scalar 3)], by decide, by decide +kernel⟩

/-- `struct P a[2] = { [0].y = 1, 2 }` reads a member behind the last: the assertion in `get_member` fails (src/parser/typetree.c:608-616). -/
theorem C92_bounds_violated : ∃ w,
    (Items.cons [.index 0, .field 1] (val 1) (.one [] (val 2) false)).fill (.arr 2 aPoint) [] = some w ∧
    braced 40 (.arr 2 aPoint) ⟨(I.list (.cons [.index 0, .field 1] (val 1) (.one [] (val 2) false))).toks, none, []⟩ = .bounds :=
  ⟨[([0, 1], .scalar 1), ([1, 0], .scalar 2)], by decide, by decide +kernel⟩

/-- `int a[2] = { {1,}, 2 }` is rejected. -/
theorem C92_comma_violated : ∃ w,
    (Items.cons [] (.list (.one [] (val 1) true)) (.one [] (val 2) false)).fill (.arr 2 anInt) [] = some w ∧
    braced 40 (.arr 2 anInt) ⟨(I.list (.cons [] (.list (.one [] (val 1) true)) (.one [] (val 2) false))).toks, none, []⟩ = .error :=
  ⟨[([0], .scalar 1), ([1], .scalar 2)], by decide, by decide +kernel⟩

end Verif.Brace
