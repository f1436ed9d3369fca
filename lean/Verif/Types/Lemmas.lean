import Verif.Types.Spec
import Verif.Tac

/-!
# Which C type a representation stands for, and what the comparison functions compute on it
-/

namespace Verif.Types
open Spec

/-- Kind of an arithmetic type. -/
def kindOf : Basic → Kind
  | .bool => .bool
  | .char | .uchar => .char
  | .short | .ushort => .short
  | .int | .uint => .int
  | .long | .ulong => .long
  | .float => .float
  | .double => .double
  | .ldouble => .ldouble

def unsOf : Basic → Bool
  | .uchar | .ushort | .uint | .ulong => true
  | _ => false

/-- The type without its folded pointer level. -/
def Ty.base (t : Ty) : Ty := { t with isPtr := false, pq := {} }

mutual
  /-- `t` stands for the C type `c`. -/
  def Den (H : Heap) : CTy → Ty → Prop
    | .void q, t => t = { kind := .void, q := q }
    | .basic b q, t => t = { kind := kindOf b, uns := unsOf b, q := q }
    | .ptr q c, t => (t.isPtr = true ∧ t.pq = q ∧ Den H c t.base) ∨
        (t.isPtr = false ∧ t = { kind := .pointer, q := q, ref := t.ref } ∧ ∃ tr, handle H t.ref = .ok tr ∧
          tr = { kind := .pointer, q := tr.q, next := tr.next } ∧ tr.next.isPtr = false ∧ tr.next.pq = {} ∧
          Den H c { tr.next with isPtr := true, pq := tr.q })
    | .array n c, t => t = { kind := .array, ref := t.ref } ∧ n ≠ some 0 ∧ ∃ tr, handle H t.ref = .ok tr ∧
        tr = { kind := .array, size := n.getD 0, incomplete := n.isNone, next := tr.next } ∧ Den H c tr.next
    | .func r ps v, t => t = { kind := .function, ref := t.ref } ∧ ∃ tr, handle H t.ref = .ok tr ∧
        tr = { kind := .function, vararg := v, members := tr.members, next := tr.next } ∧ Den H r tr.next ∧
        DenParams H ps tr.members
    | .oldFunc r, t => t = { kind := .function, ref := t.ref } ∧ ∃ tr, handle H t.ref = .ok tr ∧
        tr = { kind := .function, incomplete := true, next := tr.next } ∧ Den H r tr.next
    | .tagged u i q, t => t = { kind := if u then .union else .struct, q := q, ref := i } ∧ ∃ tr, handle H i = .ok tr
  def DenParams (H : Heap) : Params → List Member → Prop
    | .nil, ms => ms = []
    | .cons p ps, ms => ∃ m rest, ms = m :: rest ∧ Den H p m.ty ∧ DenParams H ps rest
end

mutual
  def csize : CTy → Nat
    | .ptr _ c => csize c + 1
    | .array _ c => csize c + 1
    | .func r ps _ => csize r + psize ps + 1
    | .oldFunc r => csize r + 1
    | _ => 1
  def psize : Params → Nat
    | .nil => 1
    | .cons p ps => csize p + psize ps + 1
end

theorem csize_pos (c : CTy) : 0 < csize c := by cases c <;> simp [csize]

/-- Number of outer pointer levels is odd. -/
def odd : CTy → Bool
  | .ptr _ c => !odd c
  | _ => false

theorem den_odd {H : Heap} : ∀ {c : CTy} {t : Ty}, Den H c t → t.isPtr = odd c
  | .void _, t, h => by rw [show t = _ from h]; rfl
  | .basic _ _, t, h => by rw [show t = _ from h]; rfl
  | .ptr q c, t, h => by
    rcases h with ⟨h1, _, h3⟩ | ⟨h1, _, tr, _, _, _, _, h7⟩
    · have := den_odd h3
      simp only [Ty.base] at this
      simp [odd, h1, ← this]
    · have := den_odd h7
      simp only at this
      simp [odd, h1, ← this]
  | .array _ _, t, h => by rw [h.1]; rfl
  | .func _ _ _, t, h => by rw [h.1]; rfl
  | .oldFunc _, t, h => by rw [h.1]; rfl
  | .tagged _ _ _, t, h => by rw [h.1]; rfl

/-- A folded pointer level is always that of a pointer type. -/
theorem den_isPtr {H : Heap} {c : CTy} {t : Ty} (h : Den H c t) (hp : t.isPtr = true) :
    ∃ d, c = .ptr t.pq d ∧ Den H d t.base := by
  have ho := den_odd h
  rw [hp] at ho
  cases c with
  | ptr q d =>
    rcases h with ⟨_, h2, h3⟩ | ⟨h1, _⟩
    · exact ⟨d, by rw [h2], h3⟩
    · rw [hp] at h1; cases h1
  | _ => simp [odd] at ho

theorem den_pq {H : Heap} {c : CTy} {t : Ty} (h : Den H c t) (hp : t.isPtr = false) : t.pq = {} := by
  cases c with
  | ptr q d =>
    rcases h with ⟨h1, _⟩ | ⟨_, h2, _⟩
    · rw [hp] at h1; cases h1
    · rw [h2]
  | void q => rw [show t = _ from h]
  | basic b q => rw [show t = _ from h]
  | array => rw [h.1]
  | func => rw [h.1]
  | oldFunc => rw [h.1]
  | tagged => rw [h.1]

theorem base_self {t : Ty} (h1 : t.isPtr = false) (h2 : t.pq = {}) : t.base = t := by
  cases t; simp_all [Ty.base]

/-- The second level of an unfolded pointer. -/
theorem den_node {H : Heap} {c : CTy} {tr : Tree} (h1 : tr.next.isPtr = false) (h2 : tr.next.pq = {})
    (h : Den H c { tr.next with isPtr := true, pq := tr.q }) : ∃ d, c = .ptr tr.q d ∧ Den H d tr.next := by
  obtain ⟨d, hd, hn⟩ := den_isPtr h rfl
  refine ⟨d, hd, ?_⟩
  have : ({ tr.next with isPtr := true, pq := tr.q } : Ty).base = tr.next := by
    have := base_self h1 h2
    simpa [Ty.base] using this
  rwa [this] at hn

theorem handle_pos {H : Heap} {r : Int} {t : Tree} (h : handle H r = .ok t) : r ≠ 0 := by
  intro h0; subst h0; simp [handle] at h

theorem kind_basic (b : Basic) : kindOf b ≠ .pointer ∧ kindOf b ≠ .void ∧ kindOf b ≠ .array ∧ kindOf b ≠ .function ∧
    kindOf b ≠ .struct ∧ kindOf b ≠ .union := by cases b <;> decide

theorem basic_inj {b b' : Basic} (h1 : kindOf b = kindOf b') (h2 : unsOf b = unsOf b') : b = b' := by
  revert h1 h2; cases b <;> cases b' <;> decide

/-! ## The representation determines the C type -/

theorem tree_det {H : Heap} {r : Int} {a b : Tree} (h1 : handle H r = .ok a) (h2 : handle H r = .ok b) : a = b := by
  rw [h1] at h2; injection h2

/-- The kind of a non-pointer type. -/
def headKind : CTy → Kind
  | .void _ => .void
  | .basic b _ => kindOf b
  | .ptr _ _ => .pointer
  | .array _ _ => .array
  | .func _ _ _ => .function
  | .oldFunc _ => .function
  | .tagged u _ _ => if u then .union else .struct

theorem den_of {H : Heap} {c : CTy} {t : Ty} (h : Den H c t) : t.of = headKind c := by
  cases c with
  | ptr q d =>
    rcases h with ⟨h1, _⟩ | ⟨h1, h2, _⟩
    · simp [Ty.of, h1, headKind]
    · simp only [Ty.of, h1]; rw [h2]; rfl
  | void q => rw [show t = _ from h]; rfl
  | basic b q => rw [show t = _ from h]; rfl
  | array => rw [h.1]; rfl
  | func => rw [h.1]; rfl
  | oldFunc => rw [h.1]; rfl
  | tagged => rw [h.1]; rfl

/-- Qualifiers at the top level. -/
def topQuals : CTy → Quals
  | .void q => q
  | .basic _ q => q
  | .ptr q _ => q
  | .tagged _ _ q => q
  | _ => {}

theorem den_quals {H : Heap} {c : CTy} {t : Ty} (h : Den H c t) : t.quals = topQuals c := by
  cases c with
  | ptr q d =>
    rcases h with ⟨h1, h2, _⟩ | ⟨h1, h2, _⟩
    · simp [Ty.quals, h1, h2, topQuals]
    · simp only [Ty.quals, h1]; rw [h2]; rfl
  | void q => rw [show t = _ from h]; rfl
  | basic b q => rw [show t = _ from h]; rfl
  | array => rw [h.1]; rfl
  | func => rw [h.1]; rfl
  | oldFunc => rw [h.1]; rfl
  | tagged => rw [h.1]; rfl

theorem den_next_ptr {H : Heap} {q : Quals} {c : CTy} {t : Ty} (h : Den H (.ptr q c) t) :
    ∃ t', next H t = .ok t' ∧ Den H c t' := by
  have ho := den_of h
  rcases h with ⟨h1, h2, h3⟩ | ⟨h1, h2, tr, h3, h4, h5, h6, h7⟩
  · refine ⟨t.base, ?_, h3⟩
    simp [next, Ty.of, h1, deref, Ty.unqualified, Ty.base]
  · refine ⟨_, ?_, h7⟩
    have hk : t.kind = .pointer := by rw [h2]
    simp only [next, Ty.of, h1, hk, deref, typeHandle, h3, bind, Except.bind]
    rw [h4]
    simp [h5]

theorem typeHandle_ptr {H : Heap} {r : Int} {tr : Tree} (h : handle H r = .ok tr) (h4 : tr.kind = .pointer)
    (h5 : tr.next.isPtr = false) : typeHandle H r = .ok { tr.next with isPtr := true, pq := tr.q } := by
  simp [typeHandle, h, bind, Except.bind, h4, h5]

mutual
  theorem den_unique {H : Heap} : ∀ {c c' : CTy} {t : Ty}, Den H c t → Den H c' t → c = c'
    | .void q, c', t, h, h' => by
      have ho := den_of h'
      have hq := den_quals h'
      rw [den_of h] at ho
      rw [den_quals h] at hq
      cases c' with
      | void q' => simp only [topQuals] at hq; rw [hq]
      | basic b => exact absurd ho.symm (kind_basic b).2.1
      | tagged u => cases u <;> simp [headKind] at ho
      | _ => simp [headKind] at ho
    | .basic b q, c', t, h, h' => by
      have ho := den_of h'
      have hq := den_quals h'
      rw [den_of h] at ho
      rw [den_quals h] at hq
      obtain ⟨k1, k2, k3, k4, k5, k6⟩ := kind_basic b
      cases c' with
      | basic b' q' =>
        simp only [topQuals] at hq
        have e : ({ kind := kindOf b, uns := unsOf b, q := q } : Ty) = { kind := kindOf b', uns := unsOf b', q := q' } := by
          rw [← show t = _ from h, ← show t = _ from h']
        injection e with e1 e2
        rw [hq, basic_inj e1 e2]
      | void => exact absurd ho k2
      | tagged u => cases u <;> simp [headKind] at ho <;> contradiction
      | ptr => exact absurd ho k1
      | array => exact absurd ho k3
      | func => exact absurd ho k4
      | oldFunc => exact absurd ho k4
    | .ptr q c, c', t, h, h' => by
      have ho := den_of h'
      have hq := den_quals h'
      rw [den_of h] at ho
      rw [den_quals h] at hq
      cases c' with
      | ptr q' d =>
        obtain ⟨t1, e1, d1⟩ := den_next_ptr h
        obtain ⟨t2, e2, d2⟩ := den_next_ptr h'
        rw [e1] at e2
        injection e2 with e2
        subst e2
        simp only [topQuals] at hq
        rw [hq, den_unique d1 d2]
      | basic b => exact absurd ho.symm (kind_basic b).1
      | tagged u => cases u <;> simp [headKind] at ho
      | _ => simp [headKind] at ho
    | .array n c, c', t, h, h' => by
      have ho := den_of h'
      rw [den_of h] at ho
      cases c' with
      | array n' d =>
        obtain ⟨_, hn, tr, h3, h4, h5⟩ := h
        obtain ⟨_, hn', tr', h3', h4', h5'⟩ := h'
        have := tree_det h3 h3'
        subst this
        rw [den_unique h5 h5']
        rw [h4] at h4'
        injection h4' with e1 e2 e3 e4 e5 e6 e7 e8
        congr 1
        clear h4 h3 h3' h5 h5' ho
        cases n <;> cases n' <;> simp at e7 e8 ⊢ <;> omega
      | basic b => exact absurd ho.symm (kind_basic b).2.2.1
      | tagged u => cases u <;> simp [headKind] at ho
      | _ => simp [headKind] at ho
    | .func r ps v, c', t, h, h' => by
      have ho := den_of h'
      rw [den_of h] at ho
      cases c' with
      | func r' ps' v' =>
        obtain ⟨_, tr, h3, h4, h5, h6⟩ := h
        obtain ⟨_, tr', h3', h4', h5', h6'⟩ := h'
        have := tree_det h3 h3'
        subst this
        rw [den_unique h5 h5', denParams_unique h6 h6']
        rw [h4] at h4'
        injection h4' with e1 e2 e3 e4
        rw [e4]
      | oldFunc r' =>
        obtain ⟨_, tr, h3, h4, h5, h6⟩ := h
        obtain ⟨_, tr', h3', h4', h5'⟩ := h'
        have := tree_det h3 h3'
        subst this
        rw [h4] at h4'
        injection h4' with e1 e2 e3 e4 e5 e6 e7
        cases e7
      | basic b => exact absurd ho.symm (kind_basic b).2.2.2.1
      | tagged u => cases u <;> simp [headKind] at ho
      | _ => simp [headKind] at ho
    | .oldFunc r, c', t, h, h' => by
      have ho := den_of h'
      rw [den_of h] at ho
      cases c' with
      | oldFunc r' =>
        obtain ⟨_, tr, h3, h4, h5⟩ := h
        obtain ⟨_, tr', h3', h4', h5'⟩ := h'
        have := tree_det h3 h3'
        subst this
        rw [den_unique h5 h5']
      | func r' ps' v' =>
        obtain ⟨_, tr, h3, h4, h5⟩ := h
        obtain ⟨_, tr', h3', h4', h5', _⟩ := h'
        have := tree_det h3 h3'
        subst this
        rw [h4] at h4'
        injection h4' with e1 e2 e3 e4 e5 e6 e7
        cases e7
      | basic b => exact absurd ho.symm (kind_basic b).2.2.2.1
      | tagged u => cases u <;> simp [headKind] at ho
      | _ => simp [headKind] at ho
    | .tagged u i q, c', t, h, h' => by
      have ho := den_of h'
      have hq := den_quals h'
      rw [den_of h] at ho
      rw [den_quals h] at hq
      cases c' with
      | tagged u' i' q' =>
        have e := h.1.symm.trans h'.1
        injection e with e1 e2 e3 e4 e5 e6
        simp only [topQuals] at hq
        rw [e6, hq]
        cases u <;> cases u' <;> simp_all
      | basic b =>
        obtain ⟨_, _, _, _, k5, k6⟩ := kind_basic b
        cases u <;> simp [headKind] at ho
        · exact absurd ho.symm k5
        · exact absurd ho.symm k6
      | _ => cases u <;> simp [headKind] at ho
  theorem denParams_unique {H : Heap} : ∀ {ps ps' : Params} {ms : List Member}, DenParams H ps ms → DenParams H ps' ms → ps = ps'
    | .nil, ps', ms, h, h' => by
      cases ps' with
      | nil => rfl
      | cons p ps' =>
        obtain ⟨m, rest, e, _⟩ := h'
        rw [show ms = [] from h] at e
        cases e
    | .cons p ps, ps', ms, h, h' => by
      obtain ⟨m, rest, e, h1, h2⟩ := h
      cases ps' with
      | nil =>
        rw [show ms = [] from h'] at e
        cases e
      | cons p' ps' =>
        obtain ⟨m', rest', e', h1', h2'⟩ := h'
        rw [e] at e'
        injection e' with e1 e2
        subst e1 e2
        rw [den_unique h1 h1', denParams_unique h2 h2']
end

/-! ## `type_equal` -/

/-- The struct and union declarations of both types are the same or differ visibly. -/
def Dist (H : Heap) (l r : List Int) : Prop :=
  ∀ i ∈ l, ∀ j ∈ r, i = j ∨ ∃ a b, handle H i = .ok a ∧ handle H j = .ok b ∧ a.differ b = true

theorem Dist.mono {H : Heap} {l r l' r' : List Int} (h : Dist H l r) (h1 : ∀ i ∈ l', i ∈ l) (h2 : ∀ i ∈ r', i ∈ r) :
    Dist H l' r' := fun i hi j hj => h i (h1 i hi) j (h2 j hj)

theorem typeEqual_flags {H : Heap} {f : Nat} {a b : Ty} (h : a.sameFlags b = false) : typeEqual H (f + 1) a b = .ok false := by
  simp [typeEqual, h]

/-- One folded level is compared by its qualifiers. -/
theorem typeEqual_ptr {H : Heap} {f : Nat} {a b : Ty} (ha : a.isPtr = true) (hb : b.isPtr = true) :
    typeEqual H (f + 1) a b = if a.pq = b.pq then typeEqual H (f + 1) a.base b.base else .ok false := by
  have hs : a.sameFlags b = (decide (a.pq = b.pq) && a.base.sameFlags b.base) := by
    rw [Bool.eq_iff_iff]
    simp only [Ty.sameFlags, Ty.base, decide_eq_true_eq, Bool.and_eq_true]
    simp [ha, hb]
    tauto
  by_cases hq : a.pq = b.pq
  · rw [if_pos hq]
    simp only [typeEqual, hs, hq, decide_true, Bool.true_and]
    rfl
  · rw [if_neg hq, typeEqual_flags (by simp [hs, hq])]

/-- What the recursive calls of `type_equal` have to satisfy. -/
def EqOk (H : Heap) (f : Nat) : Prop :=
  ∀ (c c' : CTy) (t t' : Ty), csize c ≤ f → Den H c t → Den H c' t' → Dist H c.tags c'.tags →
    ∃ b, typeEqual H f t t' = .ok b ∧ (b = true ↔ c = c')

theorem membersEqual_ok {H : Heap} {f : Nat} (ih : EqOk H f) : ∀ (ps ps' : Params) (ms ms' : List Member),
    psize ps ≤ f → DenParams H ps ms → DenParams H ps' ms' → Dist H ps.tags ps'.tags →
    ∃ b, membersEqual (typeEqual H f) true ms ms' = .ok b ∧ (b = true ↔ ps = ps')
  | .nil, ps', ms, ms', hs, h, h', hd => by
    rw [show ms = [] from h]
    cases ps' with
    | nil => rw [show ms' = [] from h']; exact ⟨true, rfl, by simp⟩
    | cons p ps' =>
      obtain ⟨m, rest, e, _⟩ := h'
      subst e
      exact ⟨false, rfl, by simp⟩
  | .cons p ps, ps', ms, ms', hs, h, h', hd => by
    obtain ⟨m, rest, e, h1, h2⟩ := h
    subst e
    simp only [psize] at hs
    cases ps' with
    | nil => rw [show ms' = [] from h']; exact ⟨false, rfl, by simp⟩
    | cons p' ps' =>
      obtain ⟨m', rest', e, h1', h2'⟩ := h'
      subst e
      simp only [Params.tags] at hd
      obtain ⟨b, e1, e2⟩ := ih p p' m.ty m'.ty (by omega) h1 h1' (hd.mono (by simp +contextual) (by simp +contextual))
      obtain ⟨b', e1', e2'⟩ := membersEqual_ok ih ps ps' rest rest' (by omega) h2 h2' (hd.mono (by simp +contextual) (by simp +contextual))
      cases b with
      | false =>
        refine ⟨false, by simp [membersEqual, e1, bind, Except.bind], ?_⟩
        simp only [Params.cons.injEq, Bool.false_eq_true, false_iff, not_and]
        intro hc
        exact absurd (e2.2 hc) (by simp)
      | true =>
        refine ⟨b', by simp [membersEqual, e1, bind, Except.bind, e1'], ?_⟩
        rw [e2', Params.cons.injEq]
        simp [e2.1 rfl]

theorem sameFlags_iff {a b : Ty} : a.sameFlags b = true ↔
    a.kind = b.kind ∧ a.uns = b.uns ∧ a.q = b.q ∧ a.isPtr = b.isPtr ∧ a.pq = b.pq := by
  simp [Ty.sameFlags]

theorem den_flags {H : Heap} {c : CTy} {t t' : Ty} (h : Den H c t) (h' : Den H c t') (hp : t.isPtr = false)
    (hp' : t'.isPtr = false) : t.sameFlags t' = true := by
  rw [sameFlags_iff]
  cases c with
  | void q => rw [show t = _ from h, show t' = _ from h']; simp
  | basic b q => rw [show t = _ from h, show t' = _ from h']; simp
  | ptr q d =>
    rcases h with ⟨h1, _⟩ | ⟨_, h2, _⟩
    · rw [hp] at h1; cases h1
    rcases h' with ⟨h1, _⟩ | ⟨_, h2', _⟩
    · rw [hp'] at h1; cases h1
    rw [h2, h2']; simp
  | array => rw [h.1, h'.1]; simp
  | func => rw [h.1, h'.1]; simp
  | oldFunc => rw [h.1, h'.1]; simp
  | tagged => rw [h.1, h'.1]; simp

theorem ty_ext {a b : Ty} (h : a.sameFlags b = true) (hr : a.ref = b.ref) : a = b := by
  rw [sameFlags_iff] at h
  cases a; cases b; simp_all

theorem differ_iff {a b : Tree} : a.differ b = false ↔
    a.kind = b.kind ∧ a.size = b.size ∧ a.q = b.q ∧ a.uns = b.uns ∧ a.vararg = b.vararg ∧ a.flexible = b.flexible ∧
    a.vla = b.vla ∧ a.incomplete = b.incomplete ∧ a.members.length = b.members.length := by
  simp only [Tree.differ, decide_eq_false_iff_not]
  tauto

/-- `type_equal` on two different table entries. -/
theorem typeEqual_trees {H : Heap} {f : Nat} {a b : Ty} {ta tb : Tree} (hf : a.sameFlags b = true) (hr : a.ref ≠ b.ref)
    (ha : handle H a.ref = .ok ta) (hb : handle H b.ref = .ok tb) :
    typeEqual H (f + 1) a b = if ta.differ tb = true then .ok false else
      (typeEqual H f ta.next tb.next).bind fun e =>
        if e = true then membersEqual (typeEqual H f) (ta.kind == .function) ta.members tb.members else .ok false := by
  have h1 := handle_pos ha
  have h2 := handle_pos hb
  rw [typeEqual]
  simp only [hf, hr, h1, h2, Bool.not_true, if_false, or_self, ha, hb, bind, Except.bind]
  simp

theorem length_eq_of_params {H : Heap} : ∀ {ps : Params} {ms ms' : List Member}, DenParams H ps ms → DenParams H ps ms' →
    ms.length = ms'.length
  | .nil, ms, ms', h, h' => by rw [show ms = [] from h, show ms' = [] from h']
  | .cons _ _, _, _, ⟨_, _, e, _, h⟩, ⟨_, _, e', _, h'⟩ => by
    subst e e'
    simp [length_eq_of_params h h']

theorem eqOk (H : Heap) : ∀ f, EqOk H f
  | 0 => fun c c' t t' hs => by have := csize_pos c; omega
  | f + 1 => by
    have ih := eqOk H f
    have nonptr : ∀ (c c' : CTy) (t t' : Ty), csize c ≤ f + 1 → Den H c t → Den H c' t' → Dist H c.tags c'.tags →
        t.isPtr = false → t'.isPtr = false → ∃ b, typeEqual H (f + 1) t t' = .ok b ∧ (b = true ↔ c = c') := by
      intro c c' t t' hs h h' hd hp hp'
      by_cases hf : t.sameFlags t' = true
      swap
      · rw [Bool.not_eq_true] at hf
        refine ⟨false, typeEqual_flags hf, ?_⟩
        simp only [Bool.false_eq_true, false_iff]
        rintro rfl
        rw [den_flags h h' hp hp'] at hf
        cases hf
      by_cases hr : t.ref = t'.ref
      · have := ty_ext hf hr
        subst this
        refine ⟨true, ?_, by simp [den_unique h h']⟩
        simp [typeEqual, hf]
      have ho := den_of h
      have ho' := den_of h'
      have hk := sameFlags_iff.1 hf
      have hh : headKind c = headKind c' := by
        rw [← ho, ← ho']
        simp [Ty.of, hp, hp', hk.1]
      cases c with
      | void q =>
        exfalso
        cases c' with
        | void q' => exact hr (by rw [show t = _ from h, show t' = _ from h'])
        | basic b => exact absurd hh.symm (kind_basic b).2.1
        | tagged u => cases u <;> simp [headKind] at hh
        | _ => simp [headKind] at hh
      | basic b q =>
        exfalso
        obtain ⟨k1, k2, k3, k4, k5, k6⟩ := kind_basic b
        cases c' with
        | basic b' q' => exact hr (by rw [show t = _ from h, show t' = _ from h'])
        | void => exact absurd hh k2
        | tagged u => cases u <;> simp [headKind] at hh <;> contradiction
        | ptr => exact absurd hh k1
        | array => exact absurd hh k3
        | func => exact absurd hh k4
        | oldFunc => exact absurd hh k4
      | ptr q d =>
        cases c' with
        | ptr q' d' =>
          rcases h with ⟨h1, _⟩ | ⟨_, h2, tr, h3, h4, h5, h6, h7⟩
          · rw [hp] at h1; cases h1
          rcases h' with ⟨h1, _⟩ | ⟨_, h2', tr', h3', h4', h5', h6', h7'⟩
          · rw [hp'] at h1; cases h1
          obtain ⟨e, he, hn⟩ := den_node h5 h6 h7
          obtain ⟨e', he', hn'⟩ := den_node h5' h6' h7'
          subst he he'
          have hq : q = q' := by
            have := hk.2.2.1
            rwa [h2, h2'] at this
          subst hq
          simp only [csize] at hs
          rw [typeEqual_trees hf hr h3 h3']
          by_cases hdiff : tr.differ tr' = true
          · rw [if_pos hdiff]
            refine ⟨false, rfl, ?_⟩
            simp only [Bool.false_eq_true, CTy.ptr.injEq, true_and, false_iff, not_and]
            intro hq
            have : tr.differ tr' = false := by
              rw [differ_iff, h4, h4']; simp [hq]
            rw [this] at hdiff
            cases hdiff
          · rw [if_neg hdiff]
            rw [Bool.not_eq_true, differ_iff] at hdiff
            obtain ⟨b, e1, e2⟩ := ih e e' tr.next tr'.next (by omega) hn hn' (hd.mono (by simp [CTy.tags]) (by simp [CTy.tags]))
            have hm : tr.members = [] := by rw [h4]
            have hm' : tr'.members = [] := by rw [h4']
            refine ⟨b, ?_, by rw [e2]; simp [hdiff.2.2.1]⟩
            rw [e1, hm, hm']
            cases b <;> rfl
        | basic b => exact absurd hh.symm (kind_basic b).1
        | tagged u => cases u <;> simp [headKind] at hh
        | _ => simp [headKind] at hh
      | array n d =>
        cases c' with
        | array n' d' =>
          obtain ⟨_, hn0, tr, h3, h4, h5⟩ := h
          obtain ⟨_, hn0', tr', h3', h4', h5'⟩ := h'
          simp only [csize] at hs
          rw [typeEqual_trees hf hr h3 h3']
          have hm : tr.members = [] := by rw [h4]
          have hm' : tr'.members = [] := by rw [h4']
          have hsz : tr.size = n.getD 0 ∧ tr.incomplete = n.isNone := by rw [h4]; simp
          have hsz' : tr'.size = n'.getD 0 ∧ tr'.incomplete = n'.isNone := by rw [h4']; simp
          by_cases hdiff : tr.differ tr' = true
          · rw [if_pos hdiff]
            refine ⟨false, rfl, ?_⟩
            simp only [Bool.false_eq_true, CTy.array.injEq, false_iff, not_and]
            rintro rfl _
            have : tr.differ tr' = false := by
              rw [differ_iff, h4, h4']; simp
            rw [this] at hdiff
            cases hdiff
          · rw [if_neg hdiff]
            rw [Bool.not_eq_true, differ_iff] at hdiff
            obtain ⟨b, e1, e2⟩ := ih d d' tr.next tr'.next (by omega) h5 h5' (hd.mono (by simp [CTy.tags]) (by simp [CTy.tags]))
            refine ⟨b, ?_, ?_⟩
            · rw [e1, hm, hm']
              cases b <;> rfl
            · have hnn : n = n' := by
                have g1 := hdiff.2.1
                rw [hsz.1, hsz'.1] at g1
                have g2 := hdiff.2.2.2.2.2.2.2.1
                rw [hsz.2, hsz'.2] at g2
                cases n <;> cases n' <;> simp at g1 g2 ⊢ <;> omega
              rw [e2]; simp [hnn]
        | basic b => exact absurd hh.symm (kind_basic b).2.2.1
        | tagged u => cases u <;> simp [headKind] at hh
        | _ => simp [headKind] at hh
      | func r ps v =>
        have hvt := h
        obtain ⟨_, tr, h3, h4, h5, h6⟩ := h
        have hkd : tr.kind = .function ∧ tr.vararg = v ∧ tr.incomplete = false := by rw [h4]; simp
        simp only [csize] at hs
        cases c' with
        | func r' ps' v' =>
          obtain ⟨_, tr', h3', h4', h5', h6'⟩ := h'
          have hkd' : tr'.kind = .function ∧ tr'.vararg = v' ∧ tr'.incomplete = false := by rw [h4']; simp
          rw [typeEqual_trees hf hr h3 h3']
          by_cases hdiff : tr.differ tr' = true
          · rw [if_pos hdiff]
            refine ⟨false, rfl, ?_⟩
            simp only [Bool.false_eq_true, CTy.func.injEq, false_iff, not_and]
            rintro _ rfl rfl
            have : tr.differ tr' = false := by
              have := length_eq_of_params h6 h6'
              rw [differ_iff, h4, h4']; simp [this]
            rw [this] at hdiff
            cases hdiff
          · rw [if_neg hdiff]
            rw [Bool.not_eq_true, differ_iff] at hdiff
            simp only [CTy.tags] at hd
            obtain ⟨b, e1, e2⟩ := ih r r' tr.next tr'.next (by omega) h5 h5' (hd.mono (by simp +contextual) (by simp +contextual))
            obtain ⟨b', e1', e2'⟩ := membersEqual_ok ih ps ps' tr.members tr'.members (by omega) h6 h6'
              (hd.mono (by simp +contextual) (by simp +contextual))
            have hv : v = v' := by rw [← hkd.2.1, ← hkd'.2.1]; exact hdiff.2.2.2.2.1
            rw [e1, hkd.1]
            cases b with
            | false =>
              refine ⟨false, rfl, ?_⟩
              simp only [Bool.false_eq_true, CTy.func.injEq, false_iff, not_and]
              intro hc
              exact absurd (e2.2 hc) (by simp)
            | true =>
              refine ⟨b', by simp [bind, Except.bind, e1'], ?_⟩
              rw [e2']; simp [e2.1 rfl, hv]
        | oldFunc r' =>
          obtain ⟨_, tr', h3', h4', h5'⟩ := h'
          have hkd' : tr'.incomplete = true := by rw [h4']
          rw [typeEqual_trees hf hr h3 h3', if_pos]
          · exact ⟨false, rfl, by simp⟩
          · by_contra hdiff
            rw [Bool.not_eq_true, differ_iff] at hdiff
            have := hdiff.2.2.2.2.2.2.2.1
            rw [hkd.2.2, hkd'] at this
            cases this
        | basic b => exact absurd hh.symm (kind_basic b).2.2.2.1
        | tagged u => cases u <;> simp [headKind] at hh
        | _ => simp [headKind] at hh
      | oldFunc r =>
        obtain ⟨_, tr, h3, h4, h5⟩ := h
        have hkd : tr.incomplete = true ∧ tr.members = [] := by rw [h4]; simp
        simp only [csize] at hs
        cases c' with
        | func r' ps' v' =>
          obtain ⟨_, tr', h3', h4', h5', h6'⟩ := h'
          have hkd' : tr'.incomplete = false := by rw [h4']
          rw [typeEqual_trees hf hr h3 h3', if_pos]
          · exact ⟨false, rfl, by simp⟩
          · by_contra hdiff
            rw [Bool.not_eq_true, differ_iff] at hdiff
            have := hdiff.2.2.2.2.2.2.2.1
            rw [hkd.1, hkd'] at this
            cases this
        | oldFunc r' =>
          obtain ⟨_, tr', h3', h4', h5'⟩ := h'
          have hm' : tr'.members = [] := by rw [h4']
          rw [typeEqual_trees hf hr h3 h3', if_neg]
          · obtain ⟨b, e1, e2⟩ := ih r r' tr.next tr'.next (by omega) h5 h5' (hd.mono (by simp [CTy.tags]) (by simp [CTy.tags]))
            refine ⟨b, ?_, by rw [e2]; simp⟩
            rw [e1, hkd.2, hm']
            cases b <;> rfl
          · rw [Bool.not_eq_true, differ_iff, h4, h4']
            simp
        | basic b => exact absurd hh.symm (kind_basic b).2.2.2.1
        | tagged u => cases u <;> simp [headKind] at hh
        | _ => simp [headKind] at hh
      | tagged u i q =>
        cases c' with
        | tagged u' i' q' =>
          obtain ⟨e, tr, ht⟩ := h
          obtain ⟨e', tr', ht'⟩ := h'
          have hi : t.ref = i := by rw [e]
          have hi' : t'.ref = i' := by rw [e']
          rw [hi, hi'] at hr
          rcases hd i (by simp [CTy.tags]) i' (by simp [CTy.tags]) with hd | ⟨a, b, ha, hb, hab⟩
          · exact absurd hd hr
          · rw [typeEqual_trees hf (by rw [hi, hi']; exact hr) (hi ▸ ha) (hi' ▸ hb), if_pos hab]
            refine ⟨false, rfl, ?_⟩
            simp [hr]
        | basic b =>
          obtain ⟨_, _, _, _, k5, k6⟩ := kind_basic b
          cases u <;> simp [headKind] at hh
          · exact absurd hh.symm k5
          · exact absurd hh.symm k6
        | _ => cases u <;> simp [headKind] at hh
    intro c c' t t' hs h h' hd
    cases hp : t.isPtr <;> cases hp' : t'.isPtr
    · exact nonptr c c' t t' hs h h' hd hp hp'
    · refine ⟨false, typeEqual_flags ?_, ?_⟩
      · rw [← Bool.not_eq_true, sameFlags_iff]; simp [hp, hp']
      · simp only [Bool.false_eq_true, false_iff]
        rintro rfl
        have := (den_odd h).trans (den_odd h').symm
        simp [hp, hp'] at this
    · refine ⟨false, typeEqual_flags ?_, ?_⟩
      · rw [← Bool.not_eq_true, sameFlags_iff]; simp [hp, hp']
      · simp only [Bool.false_eq_true, false_iff]
        rintro rfl
        have := (den_odd h).trans (den_odd h').symm
        simp [hp, hp'] at this
    · obtain ⟨d, rfl, hd1⟩ := den_isPtr h hp
      obtain ⟨d', rfl, hd1'⟩ := den_isPtr h' hp'
      rw [typeEqual_ptr hp hp']
      by_cases hq : t.pq = t'.pq
      · rw [if_pos hq]
        simp only [csize] at hs
        obtain ⟨b, e1, e2⟩ := nonptr d d' t.base t'.base (by omega) hd1 hd1'
          (hd.mono (by simp [CTy.tags]) (by simp [CTy.tags])) rfl rfl
        exact ⟨b, e1, by rw [e2]; simp [hq]⟩
      · rw [if_neg hq]
        exact ⟨false, rfl, by simp [hq]⟩

end Verif.Types
