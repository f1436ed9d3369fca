import Verif.Opt.Model

/-!
# The array of statements

All blocks of a function share one array of statements; a block is the range
`head .. head + count` of it.  This file models the operations on the array and
the two loops of src/optimizer/transform.c that walk a block while erasing from
it.  The assertions of the code are modelled: a violated one gives `none`.
-/

namespace Verif.Opt

/-- `block->head` and `block->count`. -/
structure Range where
  head : Nat
  count : Nat
  deriving DecidableEq, Repr

/-- `def->statements` and `def->nodes`. -/
structure Store (α : Type) where
  stmts : List α
  nodes : List Range
  deriving DecidableEq, Repr

/-- The statements of a block. -/
def Store.seq {α} (s : Store α) (b : Nat) : List α :=
  match s.nodes[b]? with
  | some r => (s.stmts.drop r.head).take r.count
  | none => []

/-- src/optimizer/transform.c:60-69: what erasing statement `i` does to a block. -/
def Range.erase (r : Range) (i : Nat) : Range :=
  if i > r.head + r.count then r
  else if i ≥ r.head ∧ i < r.head + r.count then { r with count := r.count - 1 }
  else if i < r.head then { r with head := r.head - 1 }
  else r

/-- src/optimizer/transform.c:50-71, `statement_array_erase`; `array_erase` is
include/lacc/array.h:53-61. -/
def Store.erase {α} (s : Store α) (i : Nat) : Option (Store α) :=
  if i < s.stmts.length then
    some ⟨s.stmts.eraseIdx i, s.nodes.map (·.erase i)⟩
  else none

/-- src/parser/eval.c:239-253, `append_statement`. -/
def Store.append {α} (s : Store α) (b : Nat) (x : α) : Option (Store α) :=
  match s.nodes[b]? with
  | none => none
  | some r =>
    if r.count = 0 ∨ r.head + r.count = s.stmts.length then
      let head := if r.count = 0 then s.stmts.length else r.head
      some ⟨s.stmts ++ [x], s.nodes.set b ⟨head, r.count + 1⟩⟩
    else none

/-- `array_get (&def->statements, i) = x`. -/
def Store.put {α} (s : Store α) (i : Nat) (x : α) : Store α :=
  { s with stmts := s.stmts.set i x }

/-- src/optimizer/transform.c:103-128, the loop of `dead_store_elimination` on
block `b`, from statement `i` on.  `none`: an array access out of range. -/
def dseArray (E : Env) (b : Nat) : Nat → Store Stmt → Nat → Nat → Option (Store Stmt × Nat)
  | 0, _, _, _ => none
  | fuel + 1, s, i, c =>
    match s.nodes[b]? with
    | none => none
    | some r =>
      if i < r.count then
        match s.stmts[r.head + i]? with
        | none => none
        | some st =>
          if deadStore E st then
            if st.expr.hasSideEffects then
              dseArray E b fuel (s.put (r.head + i) { st with st := .expr }) (i + 1) (c + 1)
            else
              match s.erase (r.head + i) with
              | none => none
              | some s' => dseArray E b fuel s' i (c + 1)
          else dseArray E b fuel s (i + 1) c
      else some (s, c)

/-- src/optimizer/transform.c:85-98, the loop of `merge_chained_assignment` on
block `b`; `s1` is the statement before position `i`. -/
def mergeLoop (E : Env) (b : Nat) : Nat → Store Stmt → Stmt → Nat → Nat → Option (Store Stmt × Nat)
  | 0, _, _, _, _ => none
  | fuel + 1, s, s1, i, c =>
    match s.nodes[b]? with
    | none => none
    | some r =>
      if i < r.count then
        match s.stmts[r.head + i]? with
        | none => none
        | some s2 =>
          if canMerge E s1 s2 then
            match (s.put (r.head + i - 1) { s1 with t := s2.t }).erase (r.head + i) with
            | none => none
            | some s' =>
              match s'.nodes[b]? with
              | none => none
              | some r' =>
                match s'.stmts[r'.head + i - 1]? with
                | none => none
                | some s1' => mergeLoop E b fuel s' s1' i (c + 1)
          else mergeLoop E b fuel s s2 (i + 1) c
      else some (s, c)

/-- src/optimizer/transform.c:73-101, `merge_chained_assignment` on block `b`. -/
def mergeArray (E : Env) (b : Nat) (s : Store Stmt) : Option (Store Stmt × Nat) :=
  match s.nodes[b]? with
  | none => none
  | some r =>
    if r.count ≤ 1 then some (s, 0)
    else
      match s.stmts[r.head]? with
      | none => none
      | some s1 => mergeLoop E b (r.count + 1) s s1 1 0

/-! ## Blocks that do not overlap -/

structure Store.Ok {α} (s : Store α) : Prop where
  /-- blocks with statements lie within the array -/
  inside : ∀ (b : Nat) (r : Range), s.nodes[b]? = some r → r.count ≠ 0 →
    r.head + r.count ≤ s.stmts.length
  /-- and do not overlap -/
  apart : ∀ (b b' : Nat) (r r' : Range), b ≠ b' → s.nodes[b]? = some r →
    s.nodes[b']? = some r' → r.count ≠ 0 → r'.count ≠ 0 →
    r.head + r.count ≤ r'.head ∨ r'.head + r'.count ≤ r.head

section

variable {α : Type}

theorem seq_eq {s : Store α} {b : Nat} {r : Range} (h : s.nodes[b]? = some r) :
    s.seq b = (s.stmts.drop r.head).take r.count := by
  unfold Store.seq; rw [h]

theorem seq_length {s : Store α} (hs : s.Ok) {b : Nat} {r : Range} (h : s.nodes[b]? = some r) :
    (s.seq b).length = r.count := by
  rw [seq_eq h, List.length_take, List.length_drop]
  by_cases hc : r.count = 0
  · simp [hc]
  · have := hs.inside b r h hc; omega

theorem seq_get {s : Store α} {b : Nat} {r : Range} (h : s.nodes[b]? = some r) {i : Nat}
    (hi : i < r.count) : s.stmts[r.head + i]? = (s.seq b)[i]? := by
  rw [seq_eq h, List.getElem?_take_of_lt hi, List.getElem?_drop]

/-- A slice of a list with one element removed. -/
theorem slice_eraseIdx (l : List α) (i h c : Nat) :
    ((l.eraseIdx i).drop ((Range.mk h c).erase i).head).take ((Range.mk h c).erase i).count
      = if h ≤ i ∧ i < h + c then ((l.drop h).take c).eraseIdx (i - h)
        else (l.drop h).take c := by
  unfold Range.erase
  simp only
  by_cases h1 : i > h + c
  · rw [if_pos h1, if_neg (by omega)]
    apply List.ext_getElem?
    intro j
    simp only
    by_cases hj : j < c
    · rw [List.getElem?_take_of_lt hj, List.getElem?_take_of_lt hj, List.getElem?_drop,
        List.getElem?_drop, List.getElem?_eraseIdx_of_lt (by omega)]
    · rw [List.getElem?_eq_none (by simp; omega), List.getElem?_eq_none (by simp; omega)]
  · rw [if_neg h1]
    by_cases h2 : i ≥ h ∧ i < h + c
    · rw [if_pos h2, if_pos h2]
      apply List.ext_getElem?
      intro j
      simp only
      rw [List.getElem?_eraseIdx]
      by_cases hj : j < c - 1
      · rw [List.getElem?_take_of_lt hj, List.getElem?_drop, List.getElem?_eraseIdx]
        by_cases hlt : j < i - h
        · rw [if_pos hlt, if_pos (by omega), List.getElem?_take_of_lt (by omega),
            List.getElem?_drop]
        · rw [if_neg hlt, if_neg (by omega), List.getElem?_take_of_lt (by omega),
            List.getElem?_drop, Nat.add_assoc]
      · rw [List.getElem?_eq_none (by simp; omega)]
        by_cases hlt : j < i - h
        · omega
        · rw [if_neg hlt, List.getElem?_eq_none (by simp; omega)]
    · rw [if_neg h2, if_neg h2]
      by_cases h3 : i < h
      · rw [if_pos h3]
        apply List.ext_getElem?
        intro j
        simp only
        by_cases hj : j < c
        · rw [List.getElem?_take_of_lt hj, List.getElem?_take_of_lt hj, List.getElem?_drop,
            List.getElem?_drop, List.getElem?_eraseIdx, if_neg (by omega)]
          congr 1
          omega
        · rw [List.getElem?_eq_none (by simp; omega), List.getElem?_eq_none (by simp; omega)]
      · rw [if_neg h3]
        apply List.ext_getElem?
        intro j
        simp only
        by_cases hj : j < c
        · rw [List.getElem?_take_of_lt hj, List.getElem?_take_of_lt hj, List.getElem?_drop,
            List.getElem?_drop, List.getElem?_eraseIdx_of_lt (by omega)]
        · rw [List.getElem?_eq_none (by simp; omega), List.getElem?_eq_none (by simp; omega)]

theorem erase_some {s : Store α} {i : Nat} (hi : i < s.stmts.length) :
    s.erase i = some ⟨s.stmts.eraseIdx i, s.nodes.map (·.erase i)⟩ := if_pos hi

theorem erase_seq {s s' : Store α} {i : Nat} (h : s.erase i = some s') (b : Nat) :
    s'.seq b = match s.nodes[b]? with
      | some r => if r.head ≤ i ∧ i < r.head + r.count then (s.seq b).eraseIdx (i - r.head)
          else s.seq b
      | none => [] := by
  unfold Store.erase at h
  split at h
  · cases h
    unfold Store.seq
    simp only [List.getElem?_map]
    cases hb : s.nodes[b]? with
    | none => rfl
    | some r => exact slice_eraseIdx s.stmts i r.head r.count
  · cases h

theorem Range.erase_cases (r : Range) (i : Nat) :
    (r.head + r.count ≤ i ∧ r.erase i = r)
      ∨ (r.head ≤ i ∧ i < r.head + r.count ∧ r.erase i = ⟨r.head, r.count - 1⟩)
      ∨ (i < r.head ∧ r.erase i = ⟨r.head - 1, r.count⟩) := by
  unfold Range.erase
  by_cases h1 : i > r.head + r.count
  · rw [if_pos h1]; exact Or.inl ⟨by omega, rfl⟩
  · rw [if_neg h1]
    by_cases h2 : i ≥ r.head ∧ i < r.head + r.count
    · rw [if_pos h2]; exact Or.inr (Or.inl ⟨h2.1, h2.2, rfl⟩)
    · rw [if_neg h2]
      by_cases h3 : i < r.head
      · rw [if_pos h3]; exact Or.inr (Or.inr ⟨h3, rfl⟩)
      · rw [if_neg h3]; exact Or.inl ⟨by omega, rfl⟩

theorem erase_ok {s s' : Store α} {i : Nat} (hs : s.Ok) (h : s.erase i = some s') : s'.Ok := by
  unfold Store.erase at h
  split at h
  · rename_i hi
    cases h
    constructor
    · intro b r hb hc
      simp only [List.getElem?_map] at hb
      cases hr : s.nodes[b]? with
      | none => rw [hr] at hb; cases hb
      | some q =>
        rw [hr] at hb
        simp only [Option.map_some, Option.some.injEq] at hb
        subst hb
        simp only [List.length_eraseIdx_of_lt hi]
        have := hs.inside b q hr
        rcases q.erase_cases i with ⟨h1, e⟩ | ⟨h1, h2, e⟩ | ⟨h1, e⟩ <;>
          (rw [e] at hc ⊢; try simp only at hc ⊢
           have := this (by omega)
           omega)
    · intro b b' r r' hne hb hb' hc hc'
      simp only [List.getElem?_map] at hb hb'
      cases hr : s.nodes[b]? with
      | none => rw [hr] at hb; cases hb
      | some q =>
        cases hr' : s.nodes[b']? with
        | none => rw [hr'] at hb'; cases hb'
        | some q' =>
          rw [hr] at hb
          rw [hr'] at hb'
          simp only [Option.map_some, Option.some.injEq] at hb hb'
          subst hb; subst hb'
          have := hs.apart b b' q q' hne hr hr'
          rcases q.erase_cases i with ⟨h1, e⟩ | ⟨h1, h2, e⟩ | ⟨h1, e⟩ <;>
          rcases q'.erase_cases i with ⟨h1', e'⟩ | ⟨h1', h2', e'⟩ | ⟨h1', e'⟩ <;>
            (rw [e] at hc ⊢; rw [e'] at hc' ⊢; try simp only at hc hc' ⊢
             have := this (by omega) (by omega)
             omega)
  · cases h

theorem append_seq {s s' : Store α} {b : Nat} {x : α} (hs : s.Ok) (h : s.append b x = some s') :
    s'.Ok ∧ s'.seq b = s.seq b ++ [x] ∧ ∀ k, k ≠ b → s'.seq k = s.seq k := by
  unfold Store.append at h
  cases hb : s.nodes[b]? with
  | none => rw [hb] at h; cases h
  | some r =>
    rw [hb] at h
    simp only at h
    split at h
    · rename_i hcond
      cases h
      have hlt : b < s.nodes.length := by
        by_contra c
        rw [List.getElem?_eq_none (by omega)] at hb; cases hb
      have hend : (if r.count = 0 then s.stmts.length else r.head) + r.count = s.stmts.length := by
        split
        · omega
        · rcases hcond with c | c
          · contradiction
          · exact c
      have hle : ∀ k q, k ≠ b → s.nodes[k]? = some q → q.count ≠ 0 →
          q.head + q.count ≤ (if r.count = 0 then s.stmts.length else r.head) := by
        intro k q hk hq hc
        have h1 := hs.inside k q hq hc
        split
        · exact h1
        · rename_i hc'
          rcases hs.apart k b q r hk hq hb hc hc' with g | g
          · exact g
          · rw [if_neg hc'] at hend; omega
      refine ⟨⟨?_, ?_⟩, ?_, ?_⟩
      · intro k q hk hc
        simp only [List.length_append, List.length_singleton]
        by_cases e : k = b
        · subst e
          rw [List.getElem?_set_self hlt] at hk
          cases hk
          simp only
          omega
        · rw [List.getElem?_set_ne (Ne.symm e)] at hk
          have := hs.inside k q hk hc
          omega
      · intro k k' q q' hne hk hk' hc hc'
        by_cases e : k = b
        · subst e
          rw [List.getElem?_set_self hlt] at hk
          rw [List.getElem?_set_ne hne] at hk'
          cases hk
          right
          exact hle k' q' (Ne.symm hne) hk' hc'
        · rw [List.getElem?_set_ne (Ne.symm e)] at hk
          by_cases e' : k' = b
          · subst e'
            rw [List.getElem?_set_self hlt] at hk'
            cases hk'
            left
            exact hle k q e hk hc
          · rw [List.getElem?_set_ne (Ne.symm e')] at hk'
            exact hs.apart k k' q q' hne hk hk' hc hc'
      · rw [seq_eq (r := ⟨if r.count = 0 then s.stmts.length else r.head, r.count + 1⟩)
          (List.getElem?_set_self hlt), seq_eq hb]
        simp only
        by_cases hc : r.count = 0
        · simp [hc]
        · rw [if_neg hc]
          rw [if_neg hc] at hend
          rw [List.drop_append, List.take_append, List.length_drop]
          have e1 : r.head - s.stmts.length = 0 := by omega
          have e2 : r.count + 1 - (s.stmts.length - r.head) = 1 := by omega
          rw [e1, e2, List.take_of_length_le (i := r.count + 1) (by simp; omega),
            List.take_of_length_le (i := r.count) (by simp; omega)]
          simp
      · intro k hk
        unfold Store.seq
        rw [List.getElem?_set_ne (Ne.symm hk)]
        cases hq : s.nodes[k]? with
        | none => rfl
        | some q =>
          simp only
          by_cases hc : q.count = 0
          · simp [hc]
          · have := hs.inside k q hq hc
            rw [List.drop_append, List.take_append, List.length_drop]
            have e1 : q.count - (s.stmts.length - q.head) = 0 := by omega
            rw [e1]
            simp
    · cases h

theorem put_ok {s : Store α} (hs : s.Ok) (i : Nat) (x : α) : (s.put i x).Ok :=
  ⟨fun b r hb hc => by
    show _ ≤ (s.stmts.set i x).length
    rw [List.length_set]
    exact hs.inside b r hb hc,
   hs.apart⟩

theorem put_seq {s : Store α} (hs : s.Ok) {b : Nat} {r : Range} (hb : s.nodes[b]? = some r)
    {i : Nat} (hi : i < r.count) (x : α) :
    (s.put (r.head + i) x).seq b = (s.seq b).set i x
      ∧ ∀ k, k ≠ b → (s.put (r.head + i) x).seq k = s.seq k := by
  constructor
  · rw [seq_eq (s := s.put (r.head + i) x) hb, seq_eq hb]
    show ((s.stmts.set (r.head + i) x).drop r.head).take r.count = _
    rw [List.drop_set, if_neg (by omega), Nat.add_sub_cancel_left, List.take_set]
  · intro k hk
    unfold Store.seq Store.put
    simp only
    cases hq : s.nodes[k]? with
    | none => rfl
    | some q =>
      simp only
      by_cases hc : q.count = 0
      · simp [hc]
      · have := hs.apart k b q r hk hq hb hc (by omega)
        apply List.ext_getElem?
        intro j
        by_cases hj : j < q.count
        · rw [List.getElem?_take_of_lt hj, List.getElem?_take_of_lt hj, List.getElem?_drop,
            List.getElem?_drop, List.getElem?_set_ne (by omega)]
        · rw [List.getElem?_eq_none (by simp; omega), List.getElem?_eq_none (by simp; omega)]

/-- Erasing a statement of a block. -/
theorem erase_block {s : Store α} (hs : s.Ok) {b : Nat} {r : Range} (hb : s.nodes[b]? = some r)
    {i : Nat} (hi : i < r.count) :
    ∃ s' r', s.erase (r.head + i) = some s' ∧ s'.Ok ∧ s'.seq b = (s.seq b).eraseIdx i
      ∧ (∀ k, k ≠ b → s'.seq k = s.seq k)
      ∧ s'.nodes[b]? = some r' ∧ r'.head = r.head ∧ r'.count = r.count - 1 := by
  have hin := hs.inside b r hb (by omega)
  have he := erase_some (s := s) (i := r.head + i) (by omega)
  refine ⟨_, r.erase (r.head + i), he, erase_ok hs he, ?_, ?_, ?_, ?_, ?_⟩
  · rw [erase_seq he, hb]
    simp only
    rw [if_pos (by omega), Nat.add_sub_cancel_left]
  · intro k hk
    rw [erase_seq he]
    cases hq : s.nodes[k]? with
    | none => unfold Store.seq; rw [hq]
    | some q =>
      simp only
      rw [if_neg]
      rintro ⟨h1, h2⟩
      rcases hs.apart k b q r hk hq hb (by omega) (by omega) with g | g <;> omega
  · show (s.nodes.map _)[b]? = _
    rw [List.getElem?_map, hb]; rfl
  · rcases r.erase_cases (r.head + i) with ⟨h1, e⟩ | ⟨h1, h2, e⟩ | ⟨h1, e⟩
    · omega
    · rw [e]
    · omega
  · rcases r.erase_cases (r.head + i) with ⟨h1, e⟩ | ⟨h1, h2, e⟩ | ⟨h1, e⟩
    · omega
    · rw [e]
    · omega

end

theorem dse_call {E : Env} {a : Stmt} (l : List Stmt) (h : deadStore E a = true)
    (h' : a.expr.hasSideEffects = true) :
    dse E (a :: l) = ({ a with st := .expr } :: (dse E l).1, (dse E l).2 + 1) := by
  rw [dse]; simp only [h, h', if_true]

theorem dse_dead {E : Env} {a : Stmt} (l : List Stmt) (h : deadStore E a = true)
    (h' : ¬ a.expr.hasSideEffects = true) : dse E (a :: l) = ((dse E l).1, (dse E l).2 + 1) := by
  rw [dse]; simp only [h, h', if_true, Bool.false_eq_true, if_false]

theorem dse_live {E : Env} {a : Stmt} (l : List Stmt) (h : ¬ deadStore E a = true) :
    dse E (a :: l) = (a :: (dse E l).1, (dse E l).2) := by
  rw [dse]; simp only [h, Bool.false_eq_true, if_false]

theorem merge_yes {E : Env} {a c : Stmt} (l : List Stmt) (h : canMerge E a c = true) :
    merge E (a :: c :: l)
      = ((merge E ({ a with t := c.t } :: l)).1, (merge E ({ a with t := c.t } :: l)).2 + 1) := by
  rw [merge]; simp only [h, if_true]

theorem merge_no {E : Env} {a c : Stmt} (l : List Stmt) (h : ¬ canMerge E a c = true) :
    merge E (a :: c :: l) = (a :: (merge E (c :: l)).1, (merge E (c :: l)).2) := by
  rw [merge]; simp only [h, Bool.false_eq_true, if_false]

/-- The loop over the array does to the block what `dse` does to a list. -/
theorem dseArray_ok (E : Env) (b : Nat) : ∀ (fuel : Nat) (s : Store Stmt) (i c : Nat)
    (pre rest : List Stmt) (r : Range), s.Ok → s.nodes[b]? = some r → s.seq b = pre ++ rest →
    pre.length = i → rest.length < fuel →
    ∃ s', dseArray E b fuel s i c = some (s', c + (dse E rest).2) ∧ s'.Ok
      ∧ s'.seq b = pre ++ (dse E rest).1 ∧ ∀ k, k ≠ b → s'.seq k = s.seq k
  | 0, _, _, _, _, _, _, _, _, _, _, h => absurd h (Nat.not_lt_zero _)
  | fuel + 1, s, i, c, pre, rest, r, hs, hb, hseq, hpre, hf => by
    have hlen := seq_length hs hb
    rw [hseq, List.length_append] at hlen
    unfold dseArray
    rw [hb]
    simp only
    cases rest with
    | nil =>
      simp only [List.length_nil] at hlen
      rw [if_neg (by omega)]
      exact ⟨s, rfl, hs, hseq, fun _ _ => rfl⟩
    | cons a rest =>
      simp only [List.length_cons] at hlen hf
      have hi : i < r.count := by omega
      have hget : s.stmts[r.head + i]? = some a := by
        rw [seq_get hb hi, hseq, List.getElem?_append_right (by omega), hpre, Nat.sub_self]
        rfl
      rw [if_pos hi, hget]
      simp only
      by_cases hd : deadStore E a = true
      · simp only [hd, if_true]
        by_cases hse : a.expr.hasSideEffects = true
        · simp only [hse, if_true]
          obtain ⟨p1, p2⟩ := put_seq hs hb hi { a with st := .expr }
          have hset : (s.seq b).set i { a with st := .expr }
              = (pre ++ [{ a with st := .expr }]) ++ rest := by
            rw [hseq, List.set_append_right _ _ (by omega), hpre, Nat.sub_self]
            simp
          obtain ⟨s', q1, q2, q3, q4⟩ := dseArray_ok E b fuel
            (s.put (r.head + i) { a with st := .expr }) (i + 1) (c + 1)
            (pre ++ [{ a with st := .expr }]) rest r (put_ok hs _ _) hb (p1.trans hset)
            (by simp [hpre]) (by omega)
          refine ⟨s', ?_, q2, ?_, fun k hk => (q4 k hk).trans (p2 k hk)⟩
          · rw [q1, dse_call rest hd hse]
            congr 2; simp only; omega
          · rw [q3, dse_call rest hd hse]
            simp
        · simp only [hse, Bool.false_eq_true, if_false]
          obtain ⟨s1, r1, e1, e2, e3, e4, e5, e6, e7⟩ := erase_block hs hb hi
          rw [e1]
          simp only
          have herase : (s.seq b).eraseIdx i = pre ++ rest := by
            rw [hseq, List.eraseIdx_append_of_length_le (by omega), hpre, Nat.sub_self]
            rfl
          obtain ⟨s', q1, q2, q3, q4⟩ := dseArray_ok E b fuel s1 i (c + 1) pre rest r1 e2 e5
            (e3.trans herase) hpre (by omega)
          refine ⟨s', ?_, q2, ?_, fun k hk => (q4 k hk).trans (e4 k hk)⟩
          · rw [q1, dse_dead rest hd hse]
            congr 2; simp only; omega
          · rw [q3, dse_dead rest hd hse]
      · simp only [hd, Bool.false_eq_true, if_false]
        obtain ⟨s', q1, q2, q3, q4⟩ := dseArray_ok E b fuel s (i + 1) c (pre ++ [a]) rest r hs hb
          (by rw [hseq]; simp) (by simp [hpre]) (by omega)
        refine ⟨s', ?_, q2, ?_, q4⟩
        · rw [q1, dse_live rest hd]
        · rw [q3, dse_live rest hd]
          simp

theorem mergeLoop_ok (E : Env) (b : Nat) : ∀ (fuel : Nat) (s : Store Stmt) (s1 : Stmt) (i c : Nat)
    (pre rest : List Stmt) (r : Range), s.Ok → s.nodes[b]? = some r →
    s.seq b = pre ++ s1 :: rest → pre.length + 1 = i → rest.length < fuel →
    ∃ s', mergeLoop E b fuel s s1 i c = some (s', c + (merge E (s1 :: rest)).2) ∧ s'.Ok
      ∧ s'.seq b = pre ++ (merge E (s1 :: rest)).1 ∧ ∀ k, k ≠ b → s'.seq k = s.seq k
  | 0, _, _, _, _, _, _, _, _, _, _, _, h => absurd h (Nat.not_lt_zero _)
  | fuel + 1, s, s1, i, c, pre, rest, r, hs, hb, hseq, hpre, hf => by
    have hlen := seq_length hs hb
    rw [hseq, List.length_append, List.length_cons] at hlen
    unfold mergeLoop
    rw [hb]
    simp only
    cases rest with
    | nil =>
      simp only [List.length_nil] at hlen
      rw [if_neg (by omega)]
      refine ⟨s, ?_, hs, ?_, fun _ _ => rfl⟩
      · unfold merge; rfl
      · unfold merge; exact hseq
    | cons s2 rest =>
      simp only [List.length_cons] at hlen hf
      have hi : i < r.count := by omega
      have hget : s.stmts[r.head + i]? = some s2 := by
        rw [seq_get hb hi, hseq, List.getElem?_append_right (by omega)]
        have : i - pre.length = 1 := by omega
        rw [this]; rfl
      rw [if_pos hi, hget]
      simp only
      by_cases hc : canMerge E s1 s2 = true
      · simp only [hc, if_true]
        have e0 : r.head + i - 1 = r.head + (i - 1) := by omega
        obtain ⟨p1, p2⟩ := put_seq hs hb (i := i - 1) (by omega) { s1 with t := s2.t }
        have hset : (s.seq b).set (i - 1) { s1 with t := s2.t }
            = pre ++ { s1 with t := s2.t } :: s2 :: rest := by
          rw [hseq, List.set_append_right _ _ (by omega)]
          have : i - 1 - pre.length = 0 := by omega
          rw [this]; rfl
        have hok1 := put_ok hs (r.head + (i - 1)) { s1 with t := s2.t }
        obtain ⟨sa, ra, e1, e2, e3, e4, e5, e6, e7⟩ :=
          erase_block hok1 (b := b) (r := r) hb hi
        rw [e0, e1]
        simp only
        rw [e5]
        simp only
        have hseqa : sa.seq b = pre ++ { s1 with t := s2.t } :: rest := by
          rw [e3, p1, hset, List.eraseIdx_append_of_length_le (by omega)]
          have : i - pre.length = 1 := by omega
          rw [this]; rfl
        have hgeta : sa.stmts[ra.head + i - 1]? = some { s1 with t := s2.t } := by
          have : ra.head + i - 1 = ra.head + (i - 1) := by omega
          rw [this, seq_get e5 (by omega), hseqa, List.getElem?_append_right (by omega)]
          have : i - 1 - pre.length = 0 := by omega
          rw [this]; rfl
        rw [hgeta]
        simp only
        obtain ⟨s', q1, q2, q3, q4⟩ := mergeLoop_ok E b fuel sa { s1 with t := s2.t } i (c + 1)
          pre rest ra e2 e5 hseqa hpre (by omega)
        refine ⟨s', ?_, q2, ?_, fun k hk => ((q4 k hk).trans (e4 k hk)).trans (p2 k hk)⟩
        · rw [q1, merge_yes rest hc]
          congr 2; simp only; omega
        · rw [q3, merge_yes rest hc]
      · simp only [hc, Bool.false_eq_true, if_false]
        obtain ⟨s', q1, q2, q3, q4⟩ := mergeLoop_ok E b fuel s s2 (i + 1) c (pre ++ [s1]) rest r
          hs hb (by rw [hseq]; simp) (by simp; omega) (by omega)
        refine ⟨s', ?_, q2, ?_, q4⟩
        · rw [q1, merge_no rest hc]
        · rw [q3, merge_no rest hc]
          simp

end Verif.Opt
