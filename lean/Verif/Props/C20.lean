import Verif.Types.CompatLemmas

/-!
# C20 arithmetic conversions, C21 type compatibility, C71 derived types
-/

namespace Verif.Types
open Spec

/-! ## C20 -/

/-- **C20**: the common type of two arithmetic operands, whatever their qualifiers, is the one of C99 6.3.1.8. -/
theorem C20_usual_conversions (H : Heap) (a b : Basic) (qa qb : Quals) (t1 t2 : Ty)
    (h1 : Den H (.basic a qa) t1) (h2 : Den H (.basic b qb) t2) :
    ∃ t, usualConversion t1 t2 = .ok t ∧ Den H (.basic (a.common b) {}) t := by
  rw [show t1 = _ from h1, show t2 = _ from h2]
  cases a <;> cases b <;> exact ⟨_, rfl, rfl⟩

/-- **C20**: integer promotion. -/
theorem C20_promotion (H : Heap) (a : Basic) (q : Quals) (t : Ty) (hi : a.isFloating = false)
    (h : Den H (.basic a q) t) : ∃ t', promoteInteger t = .ok t' ∧ Den H (.basic a.promote {}) t'.unqualified := by
  rw [show t = _ from h]
  cases a <;> first | exact ⟨_, rfl, rfl⟩ | simp [Basic.isFloating, Basic.range] at hi

/-- **C20**: default argument promotion. -/
theorem C20_argument_promotion (H : Heap) (a : Basic) (q : Quals) (t : Ty) (h : Den H (.basic a q) t) :
    ∃ t', defaultPromotion t = .ok t' ∧ Den H (.basic a.argPromote {}) t'.unqualified := by
  rw [show t = _ from h]
  cases a <;> exact ⟨_, rfl, rfl⟩

/-- `unsigned int` and `long`: `long`; `const unsigned short` and `char`: `int`. -/
example : Basic.uint.common .long = .long ∧ Basic.ulong.common .long = .ulong ∧ Basic.ushort.common .char = .int ∧
    usualConversion { kind := .short, uns := true, q := { const := true } } { kind := .char } = .ok { kind := .int } := by
  decide

example : Den [] (.basic .uint { const := true }) { kind := .int, uns := true, q := { const := true } } := rfl

/-! ## C71 -/

theorem short_eq {n : Nat} (h : n < 2 ^ 15) : short n = n := by
  unfold short
  rw [BitVec.toInt_eq_toNat_cond, BitVec.toNat_ofNat]
  have : n % 2 ^ 16 = n := Nat.mod_eq_of_lt (by omega)
  rw [this, if_pos (by omega)]

theorem handle_create {H : Heap} {t : Tree} (h : H.length < 2 ^ 15 - 1) :
    handle (create H t).1 (create H t).2.ref = .ok t := by
  have hr : (create H t).2.ref = ((H.length + 1 : Nat) : Int) := short_eq (by omega)
  rw [hr]
  have : (((H.length + 1 : Nat) : Int) - 1).toNat = H.length := by omega
  unfold handle
  rw [if_pos (by omega), this]
  simp [create]

theorem handle_mono {H H' : Heap} {r : Int} {t : Tree} (h : handle H r = .ok t) : handle (H ++ H') r = .ok t := by
  simp only [handle] at h ⊢
  split_ifs at h ⊢ with h0
  generalize (r - 1).toNat = k at *
  cases hg : H[k]? with
  | none => simp [hg] at h
  | some x =>
    rw [List.getElem?_append_left (List.getElem?_eq_some_iff.1 hg).1, hg]
    simpa [hg] using h

mutual
  /-- Growing the table does not change what a type stands for. -/
  theorem den_mono {H H' : Heap} : ∀ {c : CTy} {t : Ty}, Den H c t → Den (H ++ H') c t
    | .void _, _, h => h
    | .basic _ _, _, h => h
    | .ptr _ _, _, .inl ⟨h1, h2, h3⟩ => .inl ⟨h1, h2, den_mono h3⟩
    | .ptr _ _, _, .inr ⟨h1, h2, tr, h3, h4, h5, h6, h7⟩ => .inr ⟨h1, h2, tr, handle_mono h3, h4, h5, h6, den_mono h7⟩
    | .array _ _, _, ⟨h1, h2, tr, h3, h4, h5⟩ => ⟨h1, h2, tr, handle_mono h3, h4, den_mono h5⟩
    | .func _ _ _, _, ⟨h1, tr, h3, h4, h5, h6⟩ => ⟨h1, tr, handle_mono h3, h4, den_mono h5, denParams_mono h6⟩
    | .oldFunc _, _, ⟨h1, tr, h3, h4, h5⟩ => ⟨h1, tr, handle_mono h3, h4, den_mono h5⟩
    | .tagged _ _ _, _, ⟨h1, tr, h2⟩ => ⟨h1, tr, handle_mono h2⟩
  theorem denParams_mono {H H' : Heap} : ∀ {ps : Params} {ms : List Member}, DenParams H ps ms → DenParams (H ++ H') ps ms
    | .nil, _, h => h
    | .cons _ _, _, ⟨m, rest, e, h1, h2⟩ => ⟨m, rest, e, den_mono h1, denParams_mono h2⟩
end

/-- The table entry for a pointer to the pointer `t`. -/
def ptrNode (t : Ty) : Tree :=
  { kind := .pointer, q := { const := t.pq.const, volatile := t.pq.volatile }, next := { t.unqualified with isPtr := false } }

/-- **C71** (partial): the pointer made from a representation of `c`, of any depth, stands for "pointer to `c`", and the
types made before are unchanged.  Missing: a pointed-to pointer qualified `restrict`, and tables of more than 32766
entries; both fail, see below. -/
theorem C71_pointer_partial (H : Heap) (c : CTy) (t : Ty) (h : Den H c t) (hlen : H.length < 2 ^ 15 - 1)
    (hr : t.isPtr = true → t.pq.restrict = false) :
    Den (createPointer H t).1 (.ptr {} c) (createPointer H t).2 ∧
    (∀ d s, Den H d s → Den (createPointer H t).1 d s) ∧
    next (createPointer H t).1 (createPointer H t).2 = .ok t := by
  unfold createPointer
  cases hp : t.isPtr with
  | false =>
    have hpq := den_pq h hp
    refine ⟨.inl ⟨rfl, hpq, ?_⟩, fun d s hs => hs, ?_⟩
    · have : ({ t with isPtr := true } : Ty).base = t := by
        have := base_self hp hpq
        simpa [Ty.base] using this
      simp only [Bool.false_eq_true, if_false]
      rw [this]
      exact h
    · simp [next, Ty.of, deref, Ty.unqualified]
      cases t; simp_all
  | true =>
    have hq : t.quals = t.pq := by simp [Ty.quals, hp]
    have hres := hr hp
    simp only [if_true, hq]
    have hh := handle_create (H := H) (t := ptrNode t) hlen
    have ht : ({ (ptrNode t).next with isPtr := true, pq := (ptrNode t).q } : Ty) = t := by
      rcases t with ⟨k, u, q, ip, ⟨a, b, r⟩, ref⟩
      simp_all [Ty.unqualified, ptrNode]
    change Den (create H (ptrNode t)).1 (.ptr {} c) (create H (ptrNode t)).2 ∧
      (∀ d s, Den H d s → Den (create H (ptrNode t)).1 d s) ∧
      next (create H (ptrNode t)).1 (create H (ptrNode t)).2 = .ok t
    refine ⟨.inr ⟨rfl, rfl, _, hh, rfl, rfl, ?_, ?_⟩, fun d s hs => den_mono hs, ?_⟩
    · simp [Ty.unqualified, hp, ptrNode]
    · rw [ht]
      exact den_mono h
    · have h1 : next (create H (ptrNode t)).1 (create H (ptrNode t)).2 =
          typeHandle (create H (ptrNode t)).1 (create H (ptrNode t)).2.ref := by
        simp [next, create, Ty.of, ptrNode, deref]
      rw [h1, typeHandle_ptr hh rfl rfl]
      exact congrArg _ ht

/-- **C71** (partial): arrays. -/
theorem C71_array_partial (H : Heap) (c : CTy) (t : Ty) (n : Nat) (hn : 0 < n) (h : Den H c t) (hlen : H.length < 2 ^ 15 - 1) :
    Den (createArray H t n).1 (.array (some n) c) (createArray H t n).2 ∧
    (∀ d s, Den H d s → Den (createArray H t n).1 d s) ∧
    next (createArray H t n).1 (createArray H t n).2 = .ok t := by
  have hh := handle_create (H := H) (t := { kind := .array, size := n, next := t }) hlen
  refine ⟨⟨rfl, by simp; omega, _, hh, rfl, den_mono h⟩, fun d s hs => den_mono hs, ?_⟩
  simp only [next, createArray]
  rw [hh]
  rfl

/-- **C71** (partial): arrays of unspecified length. -/
theorem C71_incomplete_array_partial (H : Heap) (c : CTy) (t : Ty) (h : Den H c t) (hlen : H.length < 2 ^ 15 - 1) :
    Den (createIncomplete H t).1 (.array none c) (createIncomplete H t).2 ∧
    next (createIncomplete H t).1 (createIncomplete H t).2 = .ok t := by
  have hh := handle_create (H := H) (t := { kind := .array, next := t, incomplete := true }) hlen
  refine ⟨⟨rfl, by simp, _, hh, rfl, den_mono h⟩, ?_⟩
  simp only [next, createIncomplete]
  rw [hh]
  rfl

/-- **C71** (partial): functions without prototype. -/
theorem C71_function_partial (H : Heap) (c : CTy) (t : Ty) (h : Den H c t) (hlen : H.length < 2 ^ 15 - 1) :
    Den (createFunction H t).1 (.oldFunc c) (createFunction H t).2 ∧
    next (createFunction H t).1 (createFunction H t).2 = .ok t := by
  have hh := handle_create (H := H) (t := { kind := .function, next := t, incomplete := true }) hlen
  refine ⟨⟨rfl, _, hh, rfl, den_mono h⟩, ?_⟩
  simp only [next, createFunction]
  rw [hh]
  rfl

/-- A representation stands for one C type only. -/
theorem C71_unique (H : Heap) (c c' : CTy) (t : Ty) (h : Den H c t) (h' : Den H c' t) : c = c' := den_unique h h'

/-- `volatile char *const **`: three levels. -/
example : let t0 : Ty := { kind := .char, q := { volatile := true } }
    let (h1, t1) := createPointer [] t0
    let (h2, t2) := createPointer h1 (t1.addQuals { const := true })
    let (h3, t3) := createPointer h2 t2
    (next h3 t3, next h3 t2) = (.ok t2, .ok (t1.addQuals { const := true })) := by decide +kernel

/-- `int *restrict *p`: `*p` has type `int *`, the qualifier is lost. -/
theorem C71_restrict_violated :
    let t : Ty := { kind := .int, isPtr := true, pq := { restrict := true } }
    Den [] (.ptr { restrict := true } (.basic .int {})) t ∧
    ∃ t', next (createPointer [] t).1 (createPointer [] t).2 = .ok t' ∧ t'.quals.restrict = false :=
  ⟨.inl ⟨rfl, rfl, rfl⟩, _, rfl, rfl⟩

/-- After 32767 derived types the reference of the next one is negative and its use fails an assertion. -/
theorem C71_many_types_violated (H : Heap) (t : Ty) (n : Nat) (hlen : H.length = 2 ^ 15 - 1) :
    next (createArray H t n).1 (createArray H t n).2 = .error .crash := by
  simp only [next, createArray, create, Ty.of, handle, hlen]
  rfl

/-- Qualifiers added to a C type that is not an array or function. -/
def withQuals (o : Quals) : CTy → CTy
  | .void q => .void ⟨q.const || o.const, q.volatile || o.volatile, q.restrict || o.restrict⟩
  | .basic b q => .basic b ⟨q.const || o.const, q.volatile || o.volatile, q.restrict || o.restrict⟩
  | .ptr q c => .ptr ⟨q.const || o.const, q.volatile || o.volatile, q.restrict || o.restrict⟩ c
  | .tagged u i q => .tagged u i ⟨q.const || o.const, q.volatile || o.volatile, q.restrict || o.restrict⟩
  | c => c

/-- **C71** (partial): qualifying a type that is not an array or function. -/
theorem C71_qualify_partial (H : Heap) (c : CTy) (t : Ty) (o : Quals) (h : Den H c t)
    (ha : headKind c ≠ .array) (hf : headKind c ≠ .function) : Den H (withQuals o c) (t.addQuals o) := by
  cases c with
  | void q => rw [show t = _ from h]; rfl
  | basic b q => rw [show t = _ from h]; rfl
  | ptr q d =>
    rcases h with ⟨h1, h2, h3⟩ | ⟨h1, h2, h3⟩
    · refine .inl ⟨by simp [Ty.addQuals, h1], by simp [Ty.addQuals, h1, h2], ?_⟩
      simpa [Ty.addQuals, h1, Ty.base] using h3
    · refine .inr ⟨by simp [Ty.addQuals, h1], ?_, ?_⟩
      · generalize t.ref = r at h2
        subst h2
        rfl
      · have : (t.addQuals o).ref = t.ref := by simp [Ty.addQuals, h1]
        rw [this]
        exact h3
  | array => exact absurd rfl ha
  | func => exact absurd rfl hf
  | oldFunc => exact absurd rfl hf
  | tagged u i q => exact ⟨by rw [h.1]; rfl, h.2⟩

example : Den [] (withQuals { volatile := true } (.ptr { const := true } (.void {})))
    (Ty.addQuals { kind := .void, isPtr := true, pq := { const := true } } { volatile := true }) :=
  C71_qualify_partial [] _ _ _ (.inl ⟨rfl, rfl, rfl⟩) (by decide) (by decide)

/-- `typedef int A[3]; const A a;`: the element type of `a` is not qualified. -/
theorem C71_qualified_array_violated (H : Heap) (hlen : H.length < 2 ^ 15 - 1) :
    let (H', t) := createArray H { kind := .int } 3
    ∃ e, next H' (t.addQuals { const := true }) = .ok e ∧ e.quals.const = false := by
  have hh := handle_create (H := H) (t := { kind := .array, size := 3, next := { kind := .int } }) hlen
  refine ⟨{ kind := .int }, ?_, rfl⟩
  have : handle (create H { kind := .array, size := 3, next := { kind := .int } }).1
      (Ty.addQuals (create H { kind := .array, size := 3, next := { kind := .int } }).2 { const := true }).ref = .ok
        { kind := .array, size := 3, next := { kind := .int } } := hh
  change next (create H { kind := .array, size := 3, next := { kind := .int } }).1
      (Ty.addQuals (create H { kind := .array, size := 3, next := { kind := .int } }).2 { const := true }) = _
  unfold next
  rw [this]
  rfl

/-! ## C21 -/

/-- **C21** (partial): the comparison of two types returns (it neither fails nor runs for ever), it accepts only types
that are compatible when signedness and ellipses are disregarded, provided all function types have prototypes, and it
accepts all compatible types provided function types return types without arrays of unspecified length or functions.
The structs and unions in both must be the same or differ in size, number of members or kind.  Missing: exactly these
conditions; the theorems below show that each is needed. -/
theorem C21_compatible_partial (H : Heap) (c c' : CTy) (t t' : Ty) (h : Den H c t) (h' : Den H c' t')
    (hd : Dist H c.tags c'.tags) (fuel : Nat) (hf : csize c < fuel) :
    ∃ b, isCompatible H fuel t t' = .ok b ∧
      (c.prototyped = true → c'.prototyped = true → b = true → Compatible c.erase c'.erase) ∧
      (c.rigidReturns = true → c'.rigidReturns = true → Compatible c c' → b = true) := by
  obtain ⟨b, e1, e2⟩ := cmpOk H fuel c c' t t' hf h h' hd
  exact ⟨b, e1, fun h1 h2 hb => lax_sound (e2.1 hb) h1 h2, fun h1 h2 hc => e2.2 (lax_complete hc h1 h2)⟩

/-- **C21** (partial): without unsigned types, ellipses and unprototyped functions the answer is exact. -/
theorem C21_exact_partial (H : Heap) (c c' : CTy) (t t' : Ty) (h : Den H c t) (h' : Den H c' t')
    (hd : Dist H c.tags c'.tags) (fuel : Nat) (hf : csize c < fuel)
    (hc : c.erase = c) (hc' : c'.erase = c') (hp : c.prototyped = true) (hp' : c'.prototyped = true)
    (hr : c.rigidReturns = true) (hr' : c'.rigidReturns = true) :
    ∃ b, isCompatible H fuel t t' = .ok b ∧ (b = true ↔ Compatible c c') := by
  obtain ⟨b, e1, e2, e3⟩ := C21_compatible_partial H c c' t t' h h' hd fuel hf
  refine ⟨b, e1, fun hb => ?_, e3 hr hr'⟩
  have := e2 hp hp' hb
  rwa [hc, hc'] at this

/-- `type_equal` decides identity of types. -/
theorem C21_equal_partial (H : Heap) (c c' : CTy) (t t' : Ty) (h : Den H c t) (h' : Den H c' t')
    (hd : Dist H c.tags c'.tags) (fuel : Nat) (hf : csize c ≤ fuel) :
    ∃ b, typeEqual H fuel t t' = .ok b ∧ (b = true ↔ c = c') :=
  eqOk H fuel c c' t t' hf h h' hd

/-- A table with `int [3]`, `int []`, `int (*)(int (*)[3])` and `int (*)(int (*const)[])`. -/
def exampleHeap : Heap :=
  [{ kind := .array, size := 3, next := { kind := .int } },
   { kind := .array, incomplete := true, next := { kind := .int } },
   { kind := .function, next := { kind := .int }, members := [{ name := [], ty := { kind := .array, isPtr := true, ref := 1 } }] },
   { kind := .function, next := { kind := .int },
     members := [{ name := [], ty := { kind := .array, isPtr := true, pq := { const := true }, ref := 2 } }] }]

def exampleTy1 : CTy := .ptr {} (.func (.basic .int {}) (.cons (.ptr {} (.array (some 3) (.basic .int {}))) .nil) false)
def exampleTy2 : CTy :=
  .ptr {} (.func (.basic .int {}) (.cons (.ptr { const := true } (.array none (.basic .int {}))) .nil) false)

theorem example_den : Den exampleHeap exampleTy1 { kind := .function, isPtr := true, ref := 3 } ∧
    Den exampleHeap exampleTy2 { kind := .function, isPtr := true, ref := 4 } :=
  ⟨.inl ⟨rfl, rfl, rfl, _, rfl, rfl, rfl, _, _, rfl, .inl ⟨rfl, rfl, rfl, by simp, _, rfl, rfl, rfl⟩, rfl⟩,
   .inl ⟨rfl, rfl, rfl, _, rfl, rfl, rfl, _, _, rfl, .inl ⟨rfl, rfl, rfl, by simp, _, rfl, rfl, rfl⟩, rfl⟩⟩

example : Dist exampleHeap exampleTy1.tags exampleTy2.tags ∧ exampleTy1.erase = exampleTy1 ∧ exampleTy2.erase = exampleTy2 ∧
    exampleTy1.prototyped = true ∧ exampleTy2.prototyped = true ∧ exampleTy1.rigidReturns = true ∧
    exampleTy2.rigidReturns = true ∧ Compatible exampleTy1 exampleTy2 :=
  ⟨by intro i hi; simp [exampleTy1, CTy.tags, Params.tags] at hi, rfl, rfl, rfl, rfl, rfl, rfl,
   .ptr (.func .basic (.cons (.ptr (.array (.inr (.inl rfl)) .basic)) .nil))⟩

/-- Accepted although not compatible. -/
def WronglyAccepted (H : Heap) (c c' : CTy) : Prop :=
  ∃ t t' fuel, Den H c t ∧ Den H c' t' ∧ isCompatible H fuel t t' = .ok true ∧ ¬ Compatible c c'

/-- `extern int x; extern unsigned x;` -/
theorem C21_signedness_violated : WronglyAccepted [] (.basic .int {}) (.basic .uint {}) :=
  ⟨_, _, 1, rfl, rfl, rfl, by intro h; cases h⟩

/-- `int f(int); int f(int, ...);` -/
theorem C21_ellipsis_violated :
    WronglyAccepted [{ kind := .function, next := { kind := .int }, members := [⟨[], { kind := .int }, 0⟩] },
        { kind := .function, next := { kind := .int }, members := [⟨[], { kind := .int }, 0⟩], vararg := true }]
      (.func (.basic .int {}) (.cons (.basic .int {}) .nil) false) (.func (.basic .int {}) (.cons (.basic .int {}) .nil) true) :=
  ⟨{ kind := .function, ref := 1 }, { kind := .function, ref := 2 }, 3, ⟨rfl, _, rfl, rfl, rfl, _, _, rfl, rfl, rfl⟩,
    ⟨rfl, _, rfl, rfl, rfl, _, _, rfl, rfl, rfl⟩, by decide +kernel, by intro h; cases h⟩

/-- `int f(); int f(char);` -/
theorem C21_unpromoted_violated :
    WronglyAccepted [{ kind := .function, next := { kind := .int }, incomplete := true },
        { kind := .function, next := { kind := .int }, members := [⟨[], { kind := .char }, 0⟩] }]
      (.oldFunc (.basic .int {})) (.func (.basic .int {}) (.cons (.basic .char {}) .nil) false) :=
  ⟨{ kind := .function, ref := 1 }, { kind := .function, ref := 2 }, 3, ⟨rfl, _, rfl, rfl, rfl⟩,
    ⟨rfl, _, rfl, rfl, rfl, _, _, rfl, rfl, rfl⟩, by decide +kernel, by
      intro h
      cases h with
      | oldLeft _ h => cases h⟩

/-- `struct a { int x; }; struct b { int x; };` in one file: different types, accepted as compatible. -/
theorem C21_structs_violated :
    WronglyAccepted [{ kind := .struct, size := 4, members := [⟨str% "x", { kind := .int }, 0⟩] },
        { kind := .struct, size := 4, members := [⟨str% "x", { kind := .int }, 0⟩] }]
      (.tagged false 1 {}) (.tagged false 2 {}) :=
  ⟨_, _, 3, ⟨rfl, _, rfl⟩, ⟨rfl, _, rfl⟩, by decide +kernel, by intro h; cases h⟩

/-- `int (*f())[]; int (*f())[3];` are compatible and rejected. -/
theorem C21_return_type_violated :
    ∃ (H : Heap) (c c' : CTy) (t t' : Ty) (fuel : Nat), Den H c t ∧ Den H c' t' ∧ Compatible c c' ∧
      isCompatible H fuel t t' = .ok false :=
  ⟨[{ kind := .array, incomplete := true, next := { kind := .int } }, { kind := .array, size := 3, next := { kind := .int } },
    { kind := .function, incomplete := true, next := { kind := .array, isPtr := true, ref := 1 } },
    { kind := .function, incomplete := true, next := { kind := .array, isPtr := true, ref := 2 } }],
    .oldFunc (.ptr {} (.array none (.basic .int {}))), .oldFunc (.ptr {} (.array (some 3) (.basic .int {}))),
    { kind := .function, ref := 3 }, { kind := .function, ref := 4 }, 3,
    ⟨rfl, _, rfl, rfl, .inl ⟨rfl, rfl, rfl, by simp, _, rfl, rfl, rfl⟩⟩,
    ⟨rfl, _, rfl, rfl, .inl ⟨rfl, rfl, rfl, by simp, _, rfl, rfl, rfl⟩⟩,
    .old (.ptr (.array (.inl rfl) .basic)), by decide +kernel⟩

/-- `struct a { struct a *n; }; struct b { struct b *n; };`: comparing the two never ends. -/
theorem C21_recursive_structs_violated :
    let H : Heap := [{ kind := .struct, size := 8, members := [⟨str% "n", { kind := .struct, isPtr := true, ref := 1 }, 0⟩] },
        { kind := .struct, size := 8, members := [⟨str% "n", { kind := .struct, isPtr := true, ref := 2 }, 0⟩] }]
    ∀ fuel, isCompatible H fuel { kind := .struct, ref := 1 } { kind := .struct, ref := 2 } = .error .more := by
  intro H fuel
  have key : ∀ (f : Nat) (p : Bool), typeEqual H f { kind := .struct, isPtr := p, ref := 1 } { kind := .struct, isPtr := p, ref := 2 } = .error .more := by
    intro f
    induction f with
    | zero => intro p; rfl
    | succ f ih =>
      intro p
      have hs : Ty.sameFlags { kind := .struct, isPtr := p, ref := 1 } { kind := .struct, isPtr := p, ref := 2 } = true := by
        cases p <;> rfl
      rw [typeEqual_trees (ta := H[0]) (tb := H[1]) hs (by simp) rfl rfl, if_neg (by decide +kernel)]
      cases f with
      | zero => rfl
      | succ f =>
        have e : typeEqual H (f + 1) (H[0]).next (H[1]).next = .ok true := rfl
        rw [e]
        change membersEqual (typeEqual H (f + 1)) _ (H[0]).members (H[1]).members = _
        simp only [H, List.getElem_cons_zero, List.getElem_cons_succ, membersEqual]
        rw [ih true]
        rfl
  cases fuel with
  | zero => rfl
  | succ f =>
    have := key f false
    simpa [isCompatible, Ty.of, Ty.quals] using this

end Verif.Types
