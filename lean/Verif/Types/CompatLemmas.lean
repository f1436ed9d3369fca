import Verif.Types.Lemmas

/-!
# What `is_compatible` computes
-/

namespace Verif.Types
open Spec

mutual
  /-- The relation `is_compatible` decides. -/
  inductive Lax : CTy → CTy → Prop
    | void {q : Quals} : Lax (.void q) (.void q)
    | basic {b b' : Basic} {q : Quals} : kindOf b = kindOf b' → Lax (.basic b q) (.basic b' q)
    | ptr {q : Quals} {t t' : CTy} : Lax t t' → Lax (.ptr q t) (.ptr q t')
    | array {n n' : Option Nat} {t t' : CTy} : (n = none ∨ n' = none ∨ n = n') → Lax t t' → Lax (.array n t) (.array n' t')
    | func {r : CTy} {ps ps' : Params} {v v' : Bool} : LaxParams ps ps' → Lax (.func r ps v) (.func r ps' v')
    | old {r : CTy} : Lax (.oldFunc r) (.oldFunc r)
    | oldLeft {r : CTy} {ps : Params} {v : Bool} : Lax (.oldFunc r) (.func r ps v)
    | oldRight {r : CTy} {ps : Params} {v : Bool} : Lax (.func r ps v) (.oldFunc r)
    | tagged {u : Bool} {i : Int} {q : Quals} : Lax (.tagged u i q) (.tagged u i q)
  inductive LaxParams : Params → Params → Prop
    | nil : LaxParams .nil .nil
    | cons {p p' : CTy} {ps ps' : Params} : Lax p.unq p'.unq → LaxParams ps ps' → LaxParams (.cons p ps) (.cons p' ps')
end

theorem den_unq {H : Heap} {c : CTy} {t : Ty} (h : Den H c t) : Den H c.unq t.unqualified := by
  cases c with
  | void q => rw [show t = _ from h]; rfl
  | basic b q => rw [show t = _ from h]; rfl
  | ptr q d =>
    rcases h with ⟨h1, _, h3⟩ | ⟨h1, h2, h3⟩
    · refine .inl ⟨by simp [Ty.unqualified, h1], by simp [Ty.unqualified, h1], ?_⟩
      simpa [Ty.unqualified, h1, Ty.base] using h3
    · refine .inr ⟨by simp [Ty.unqualified, h1], ?_, ?_⟩
      · generalize t.ref = r at h2
        subst h2
        rfl
      · have : t.unqualified.ref = t.ref := by simp [Ty.unqualified, h1]
        rw [this]
        exact h3
  | array n d =>
    have : t.unqualified = t := by rw [h.1]; rfl
    rw [this]; exact h
  | func =>
    have : t.unqualified = t := by rw [h.1]; rfl
    rw [this]; exact h
  | oldFunc =>
    have : t.unqualified = t := by rw [h.1]; rfl
    rw [this]; exact h
  | tagged u i q =>
    refine ⟨?_, h.2⟩
    rw [h.1]; rfl

theorem csize_unq (c : CTy) : csize c.unq = csize c := by cases c <;> rfl

theorem tags_unq (c : CTy) : c.unq.tags = c.tags := by cases c <;> rfl

theorem topQuals_eq_of_lax {c c' : CTy} (h : Lax c c') : topQuals c = topQuals c' := by cases h <;> rfl

theorem headKind_eq_of_lax {c c' : CTy} (h : Lax c c') : headKind c = headKind c' := by
  cases h <;> first | rfl | assumption

/-- What the recursive calls of `is_compatible` have to satisfy. -/
def CmpOk (H : Heap) (f : Nat) : Prop :=
  ∀ (c c' : CTy) (t t' : Ty), csize c < f → Den H c t → Den H c' t' → Dist H c.tags c'.tags →
    ∃ b, isCompatible H f t t' = .ok b ∧ (b = true ↔ Lax c c')

theorem paramsCompatible_ok {H : Heap} {f : Nat} (ih : CmpOk H f) : ∀ (ps ps' : Params) (ms ms' : List Member),
    psize ps < f → DenParams H ps ms → DenParams H ps' ms' → Dist H ps.tags ps'.tags →
    ∃ b, paramsCompatible (isCompatible H f) ms ms' = .ok b ∧ (b = true ↔ LaxParams ps ps')
  | .nil, ps', ms, ms', hs, h, h', hd => by
    rw [show ms = [] from h]
    cases ps' with
    | nil => rw [show ms' = [] from h']; exact ⟨true, rfl, by simp [LaxParams.nil]⟩
    | cons p ps' =>
      obtain ⟨m, rest, e, _⟩ := h'
      subst e
      exact ⟨false, rfl, by simp; intro h; cases h⟩
  | .cons p ps, ps', ms, ms', hs, h, h', hd => by
    obtain ⟨m, rest, e, h1, h2⟩ := h
    subst e
    simp only [psize] at hs
    cases ps' with
    | nil => rw [show ms' = [] from h']; exact ⟨false, rfl, by simp; intro h; cases h⟩
    | cons p' ps' =>
      obtain ⟨m', rest', e, h1', h2'⟩ := h'
      subst e
      simp only [Params.tags] at hd
      obtain ⟨b, e1, e2⟩ := ih p.unq p'.unq _ _ (by rw [csize_unq]; omega) (den_unq h1) (den_unq h1')
        (by rw [tags_unq, tags_unq]; exact hd.mono (by simp +contextual) (by simp +contextual))
      obtain ⟨b', e1', e2'⟩ := paramsCompatible_ok ih ps ps' rest rest' (by omega) h2 h2' (hd.mono (by simp +contextual) (by simp +contextual))
      cases b with
      | false =>
        refine ⟨false, by simp [paramsCompatible, e1, bind, Except.bind], ?_⟩
        simp only [Bool.false_eq_true, false_iff]
        intro hc
        cases hc with
        | cons hc _ => exact absurd (e2.2 hc) (by simp)
      | true =>
        refine ⟨b', by simp [paramsCompatible, e1, bind, Except.bind, e1'], ?_⟩
        rw [e2']
        constructor
        · exact .cons (e2.1 rfl)
        · intro hc
          cases hc
          assumption

theorem laxParams_length {H : Heap} : ∀ {ps ps' : Params} {ms ms' : List Member}, LaxParams ps ps' → DenParams H ps ms →
    DenParams H ps' ms' → ms.length = ms'.length
  | .nil, ps', ms, ms', hl, h, h' => by
    cases hl
    rw [show ms = [] from h, show ms' = [] from h']
  | .cons p ps, ps', ms, ms', hl, h, h' => by
    cases hl with
    | cons _ hl =>
      obtain ⟨m, rest, e, _, h2⟩ := h
      obtain ⟨m', rest', e', _, h2'⟩ := h'
      subst e e'
      simp [laxParams_length hl h2 h2']

theorem len_cond {n n' : Option Nat} (h : n ≠ some 0) (h' : n' ≠ some 0) :
    (n.getD 0 = 0 ∨ n'.getD 0 = 0 ∨ n.getD 0 = n'.getD 0) ↔ (n = none ∨ n' = none ∨ n = n') := by
  cases n <;> cases n' <;> simp_all

theorem cmpOk (H : Heap) : ∀ f, CmpOk H f
  | 0 => fun c c' t t' hs => by omega
  | f + 1 => by
    have ih := cmpOk H f
    have eq := eqOk H f
    intro c c' t t' hs h h' hd
    have ho := den_of h
    have ho' := den_of h'
    have hq := den_quals h
    have hq' := den_quals h'
    rw [isCompatible]
    by_cases hg : t.of ≠ t'.of ∨ t.quals ≠ t'.quals
    · rw [if_pos hg]
      refine ⟨false, rfl, ?_⟩
      simp only [Bool.false_eq_true, false_iff]
      intro hl
      rw [ho, ho', hq, hq'] at hg
      rcases hg with hg | hg
      · exact hg (headKind_eq_of_lax hl)
      · exact hg (topQuals_eq_of_lax hl)
    rw [if_neg hg]
    push Not at hg
    obtain ⟨hk, hqq⟩ := hg
    rw [ho, ho'] at hk
    rw [hq, hq'] at hqq
    rw [ho]
    cases c with
    | void q =>
      cases c' with
      | void q' =>
        simp only [topQuals] at hqq
        subst hqq
        obtain ⟨b, e1, e2⟩ := eq _ _ _ _ (by simp only [csize] at *; omega) h h' hd
        exact ⟨b, e1, by rw [e2]; simp [Lax.void]⟩
      | basic b => exact absurd hk.symm (kind_basic b).2.1
      | tagged u => cases u <;> simp [headKind] at hk
      | _ => simp [headKind] at hk
    | basic b q =>
      obtain ⟨k1, k2, k3, k4, k5, k6⟩ := kind_basic b
      cases c' with
      | basic b' q' =>
        simp only [topQuals] at hqq
        subst hqq
        refine ⟨true, ?_, by simp only [true_iff]; exact .basic hk⟩
        cases b <;> rfl
      | void => exact absurd hk k2
      | tagged u => cases u <;> simp [headKind] at hk <;> contradiction
      | ptr => exact absurd hk k1
      | array => exact absurd hk k3
      | func => exact absurd hk k4
      | oldFunc => exact absurd hk k4
    | ptr q d =>
      cases c' with
      | ptr q' d' =>
        simp only [topQuals] at hqq
        subst hqq
        obtain ⟨t1, e1, d1⟩ := den_next_ptr h
        obtain ⟨t2, e2, d2⟩ := den_next_ptr h'
        simp only [csize] at hs
        obtain ⟨b, g1, g2⟩ := ih d d' t1 t2 (by omega) d1 d2 (hd.mono (by simp [CTy.tags]) (by simp [CTy.tags]))
        refine ⟨b, ?_, ?_⟩
        · simp only [headKind, e1, e2, bind, Except.bind]
          exact g1
        · rw [g2]
          exact ⟨.ptr, fun hl => by cases hl; assumption⟩
      | basic b => exact absurd hk.symm (kind_basic b).1
      | tagged u => cases u <;> simp [headKind] at hk
      | _ => simp [headKind] at hk
    | array n d =>
      cases c' with
      | array n' d' =>
        obtain ⟨_, hn0, tr, h3, h4, h5⟩ := h
        obtain ⟨_, hn0', tr', h3', h4', h5'⟩ := h'
        simp only [csize] at hs
        have hsz : tr.size = n.getD 0 := by rw [h4]
        have hsz' : tr'.size = n'.getD 0 := by rw [h4']
        have hcond : (tr.size = 0 ∨ tr'.size = 0 ∨ tr.size = tr'.size) ↔ (n = none ∨ n' = none ∨ n = n') := by
          rw [hsz, hsz']
          exact len_cond hn0 hn0'
        simp only [headKind, h3, h3', bind, Except.bind]
        by_cases hc : n = none ∨ n' = none ∨ n = n'
        · rw [if_pos (hcond.2 hc)]
          obtain ⟨b, g1, g2⟩ := ih d d' tr.next tr'.next (by omega) h5 h5' (hd.mono (by simp [CTy.tags]) (by simp [CTy.tags]))
          exact ⟨b, g1, by rw [g2]; exact ⟨.array hc, fun hl => by cases hl; assumption⟩⟩
        · rw [if_neg (fun h => hc (hcond.1 h))]
          refine ⟨false, rfl, ?_⟩
          simp only [Bool.false_eq_true, false_iff]
          intro hl
          cases hl
          contradiction
      | basic b => exact absurd hk.symm (kind_basic b).2.2.1
      | tagged u => cases u <;> simp [headKind] at hk
      | _ => simp [headKind] at hk
    | func r ps v =>
      obtain ⟨_, tr, h3, h4, h5, h6⟩ := h
      have hkd : tr.incomplete = false := by rw [h4]
      simp only [csize] at hs
      cases c' with
      | func r' ps' v' =>
        obtain ⟨_, tr', h3', h4', h5', h6'⟩ := h'
        have hkd' : tr'.incomplete = false := by rw [h4']
        simp only [CTy.tags] at hd
        obtain ⟨b, e1, e2⟩ := eq r r' tr.next tr'.next (by omega) h5 h5' (hd.mono (by simp +contextual) (by simp +contextual))
        obtain ⟨b', e1', e2'⟩ := paramsCompatible_ok ih ps ps' tr.members tr'.members (by have := csize_pos r; omega) h6 h6'
          (hd.mono (by simp +contextual) (by simp +contextual))
        simp only [headKind, h3, h3', bind, Except.bind, e1]
        cases b with
        | false =>
          refine ⟨false, rfl, ?_⟩
          simp only [Bool.false_eq_true, false_iff]
          intro hl
          cases hl
          exact absurd (e2.2 rfl) (by simp)
        | true =>
          have hr := e2.1 rfl
          subst hr
          simp only [hkd, hkd', if_true, Bool.false_eq_true, or_self, if_false]
          by_cases hlen : tr.members.length ≠ tr'.members.length
          · rw [if_pos hlen]
            refine ⟨false, rfl, ?_⟩
            simp only [Bool.false_eq_true, false_iff]
            intro hl
            cases hl with
            | func hl => exact hlen (laxParams_length hl h6 h6')
          · rw [if_neg hlen]
            exact ⟨b', e1', by rw [e2']; exact ⟨.func, fun hl => by cases hl; assumption⟩⟩
      | oldFunc r' =>
        obtain ⟨_, tr', h3', h4', h5'⟩ := h'
        have hkd' : tr'.incomplete = true := by rw [h4']
        simp only [CTy.tags] at hd
        obtain ⟨b, e1, e2⟩ := eq r r' tr.next tr'.next (by omega) h5 h5' (hd.mono (by simp +contextual) (by simp +contextual))
        simp only [headKind, h3, h3', bind, Except.bind, e1]
        cases b with
        | false =>
          refine ⟨false, rfl, ?_⟩
          simp only [Bool.false_eq_true, false_iff]
          intro hl
          cases hl
          exact absurd (e2.2 rfl) (by simp)
        | true =>
          have hr := e2.1 rfl
          subst hr
          refine ⟨true, by simp [hkd'], ?_⟩
          simp [Lax.oldRight]
      | basic b => exact absurd hk.symm (kind_basic b).2.2.2.1
      | tagged u => cases u <;> simp [headKind] at hk
      | _ => simp [headKind] at hk
    | oldFunc r =>
      obtain ⟨_, tr, h3, h4, h5⟩ := h
      have hkd : tr.incomplete = true := by rw [h4]
      simp only [csize] at hs
      cases c' with
      | func r' ps' v' =>
        obtain ⟨_, tr', h3', h4', h5', h6'⟩ := h'
        simp only [CTy.tags] at hd
        obtain ⟨b, e1, e2⟩ := eq r r' tr.next tr'.next (by omega) h5 h5' (hd.mono (by simp +contextual) (by simp +contextual))
        simp only [headKind, h3, h3', bind, Except.bind, e1]
        cases b with
        | false =>
          refine ⟨false, rfl, ?_⟩
          simp only [Bool.false_eq_true, false_iff]
          intro hl
          cases hl
          exact absurd (e2.2 rfl) (by simp)
        | true =>
          have hr := e2.1 rfl
          subst hr
          refine ⟨true, by simp [hkd], ?_⟩
          simp [Lax.oldLeft]
      | oldFunc r' =>
        obtain ⟨_, tr', h3', h4', h5'⟩ := h'
        simp only [CTy.tags] at hd
        obtain ⟨b, e1, e2⟩ := eq r r' tr.next tr'.next (by omega) h5 h5' hd
        simp only [headKind, h3, h3', bind, Except.bind, e1]
        cases b with
        | false =>
          refine ⟨false, rfl, ?_⟩
          simp only [Bool.false_eq_true, false_iff]
          intro hl
          cases hl
          exact absurd (e2.2 rfl) (by simp)
        | true =>
          have hr := e2.1 rfl
          subst hr
          refine ⟨true, by simp [hkd], ?_⟩
          simp [Lax.old]
      | basic b => exact absurd hk.symm (kind_basic b).2.2.2.1
      | tagged u => cases u <;> simp [headKind] at hk
      | _ => simp [headKind] at hk
    | tagged u i q =>
      cases c' with
      | tagged u' i' q' =>
        obtain ⟨b, e1, e2⟩ := eq _ _ _ _ (by simp only [csize] at *; omega) h h' hd
        refine ⟨b, ?_, ?_⟩
        · cases u <;> exact e1
        · rw [e2]
          constructor
          · intro hc; rw [hc]; exact .tagged
          · intro hl; cases hl; rfl
      | basic b =>
        obtain ⟨_, _, _, _, k5, k6⟩ := kind_basic b
        cases u <;> simp [headKind] at hk
        · exact absurd hk.symm k5
        · exact absurd hk.symm k6
      | _ => cases u <;> simp [headKind] at hk

/-! ## The relation and compatibility -/

theorem signed_eq_of_kind {b b' : Basic} (h : kindOf b = kindOf b') : b.signed = b'.signed := by
  revert h; cases b <;> cases b' <;> decide

theorem erase_unq (c : CTy) : c.erase.unq = c.unq.erase := by cases c <;> simp [CTy.unq, CTy.erase]

theorem prototyped_unq (c : CTy) : c.unq.prototyped = c.prototyped := by cases c <;> rfl

mutual
  theorem compatible_refl : ∀ c : CTy, Compatible c c
    | .void _ => .void
    | .basic _ _ => .basic
    | .ptr _ c => .ptr (compatible_refl c)
    | .array _ c => .array (.inr (.inr rfl)) (compatible_refl c)
    | .func r ps _ => .func (compatible_refl r) (compatibleParams_refl ps)
    | .oldFunc r => .old (compatible_refl r)
    | .tagged _ _ _ => .tagged
  theorem compatibleParams_refl : ∀ ps : Params, CompatibleParams ps ps
    | .nil => .nil
    | .cons p ps => .cons (compatible_unq_refl p) (compatibleParams_refl ps)
  theorem compatible_unq_refl : ∀ c : CTy, Compatible c.unq c.unq
    | .void _ => .void
    | .basic _ _ => .basic
    | .ptr _ c => .ptr (compatible_refl c)
    | .array _ c => .array (.inr (.inr rfl)) (compatible_refl c)
    | .func r ps _ => .func (compatible_refl r) (compatibleParams_refl ps)
    | .oldFunc r => .old (compatible_refl r)
    | .tagged _ _ _ => .tagged
end

mutual
  theorem lax_sound {c c' : CTy} : Lax c c' → c.prototyped = true → c'.prototyped = true → Compatible c.erase c'.erase
    | .void, _, _ => .void
    | .basic h, _, _ => by simp only [CTy.erase]; rw [signed_eq_of_kind h]; exact .basic
    | .ptr h, h1, h2 => .ptr (lax_sound h h1 h2)
    | .array hn h, h1, h2 => .array hn (lax_sound h h1 h2)
    | .func h, h1, h2 => by
      simp only [CTy.prototyped, Bool.and_eq_true] at h1 h2
      exact .func (compatible_refl _) (laxParams_sound h h1.2 h2.2)
    | .old, h1, _ => by simp [CTy.prototyped] at h1
    | .oldLeft, h1, _ => by simp [CTy.prototyped] at h1
    | .oldRight, _, h2 => by simp [CTy.prototyped] at h2
    | .tagged, _, _ => .tagged
  theorem laxParams_sound {ps ps' : Params} : LaxParams ps ps' → ps.prototyped = true → ps'.prototyped = true →
      CompatibleParams ps.erase ps'.erase
    | .nil, _, _ => .nil
    | .cons h hs, h1, h2 => by
      simp only [Params.prototyped, Bool.and_eq_true] at h1 h2
      refine .cons ?_ (laxParams_sound hs h1.2 h2.2)
      rw [erase_unq, erase_unq]
      exact lax_sound h (by rw [prototyped_unq]; exact h1.1) (by rw [prototyped_unq]; exact h2.1)
end

theorem rigid_eq : ∀ {c c' : CTy}, Compatible c c' → c.rigid = true → c'.rigid = true → c = c'
  | _, _, .void, _, _ => rfl
  | _, _, .basic, _, _ => rfl
  | _, _, .ptr h, h1, h2 => by rw [rigid_eq h h1 h2]
  | _, _, .array hn h, h1, h2 => by
    simp only [CTy.rigid, Bool.and_eq_true, Option.isSome_iff_ne_none] at h1 h2
    rw [rigid_eq h h1.2 h2.2]
    rcases hn with hn | hn | hn
    · exact absurd hn h1.1
    · exact absurd hn h2.1
    · rw [hn]
  | _, _, .func _ _, h1, _ => by simp [CTy.rigid] at h1
  | _, _, .old _, h1, _ => by simp [CTy.rigid] at h1
  | _, _, .oldLeft _ _, h1, _ => by simp [CTy.rigid] at h1
  | _, _, .oldRight _ _, h1, _ => by simp [CTy.rigid] at h1
  | _, _, .tagged, _, _ => rfl

theorem rigidReturns_unq (c : CTy) : c.unq.rigidReturns = c.rigidReturns := by cases c <;> rfl

mutual
  theorem lax_complete {c c' : CTy} : Compatible c c' → c.rigidReturns = true → c'.rigidReturns = true → Lax c c'
    | .void, _, _ => .void
    | .basic, _, _ => .basic rfl
    | .ptr h, h1, h2 => .ptr (lax_complete h h1 h2)
    | .array hn h, h1, h2 => .array hn (lax_complete h h1 h2)
    | .func hr h, h1, h2 => by
      simp only [CTy.rigidReturns, Bool.and_eq_true] at h1 h2
      rw [rigid_eq hr h1.1 h2.1]
      exact .func (laxParams_complete h h1.2 h2.2)
    | .old hr, h1, h2 => by
      rw [rigid_eq hr h1 h2]; exact .old
    | .oldLeft hr _, h1, h2 => by
      simp only [CTy.rigidReturns, Bool.and_eq_true] at h1 h2
      rw [rigid_eq hr h1 h2.1]; exact .oldLeft
    | .oldRight hr _, h1, h2 => by
      simp only [CTy.rigidReturns, Bool.and_eq_true] at h1 h2
      rw [rigid_eq hr h1.1 h2]; exact .oldRight
    | .tagged, _, _ => .tagged
  theorem laxParams_complete {ps ps' : Params} : CompatibleParams ps ps' → ps.rigidReturns = true →
      ps'.rigidReturns = true → LaxParams ps ps'
    | .nil, _, _ => .nil
    | .cons h hs, h1, h2 => by
      simp only [Params.rigidReturns, Bool.and_eq_true] at h1 h2
      exact .cons (lax_complete h (by rw [rigidReturns_unq]; exact h1.1) (by rw [rigidReturns_unq]; exact h2.1))
        (laxParams_complete hs h1.2 h2.2)
end

end Verif.Types
