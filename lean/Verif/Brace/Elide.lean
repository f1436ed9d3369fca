import Verif.Brace.Lemmas

/-!
# Elements without braces
-/

namespace Verif.Brace

set_option linter.unusedSimpArgs false

/-- The functions that fill an object, with the same arguments. -/
def agg (f : Nat) (u : T) (p : Path) (cur : Bool) (s : S) : Res :=
  match u with
  | .scalar _ => .error
  | .arr n e => array f n e p cur s
  | .struct k ms => record f (.struct k ms) p cur s
  | .union k ms => record f (.union k ms) p cur s

/-- Shorter lists between braces are right. -/
def HB (N : Nat) : Prop := ∀ (l : Items) (u : T) (p : Path) (w : List (Path × Ex)) (rest : List Tok) (o : List (Path × Ex)), sizeOf l < N →
  u.Ok → u.isScalar = false → l.fill u p = some w → l.Good u →
  Ev fun f => (agg f u p true ⟨l.toks ++ .rb :: rest, none, o⟩).bind close = .ok ⟨rest, none, o ++ w⟩

def Stable (t : T) (sh : Bool) : Prop :=
  match t with
  | .union _ _ => sh = true
  | .struct _ _ => True
  | _ => sh = false

theorem Stable.same {t : T} {sh : Bool} (h : Stable t sh) {c : Path} (hc : ∀ i, c ≠ [i]) : shutAfter t c [] sh = sh := by
  cases t with
  | scalar => exact h.symm
  | arr => exact h.symm
  | struct k ms =>
    cases c with
    | nil => rfl
    | cons a r =>
      cases r with
      | nil => exact (hc a rfl).elim
      | cons => rfl
  | union => exact h.symm

theorem stable_after {t : T} {c : Path} {d : List D} {sh : Bool} : Stable t (shutAfter t c d sh) := by
  cases t <;> simp [Stable, shutAfter]

/-- An element at `c` is read, and maybe more of what follows. -/
def Fin (t : T) (p c : Path) (R : Tail) (sh : Bool) (w o : List (Path × Ex)) (rest : List Tok) (run : Nat → Res) : Prop :=
  ∃ R' o1 o2 cur', (Ev fun f => run f = .ok (fin rest R' (o ++ o1))) ∧ w = o1 ++ o2 ∧ R'.run t p cur' = some o2 ∧ R'.Tame t cur' sh ∧
    R'.size ≤ R.size ∧ (cur' = t.next c ∨ (R'.halts ∧ ∃ q, q ≠ [] ∧ cur' = some (c ++ q))) ∧ (R.halts → R' = R)

def MM (N : Nat) (u : T) : Prop := ∀ (t : T) (p c : Path) (R : Tail) (i : I) (sh : Bool) (x y o : List (Path × Ex)) (rest : List Tok),
  t.at c = some u → c ≠ [] → Stable t sh → i.small N → R.size ≤ N → i.run t p c = some x → R.run t p (i.behind t c) = some y →
  i.Tame t c R.dot → R.Tame t (i.behind t c) sh →
  Fin t p c R sh (x ++ y) o rest fun f => member f u (p ++ c) ⟨i.toks ++ (R.toks ++ .rb :: rest), none, o⟩

theorem Fin.whole {t : T} {p c : Path} {R : Tail} {sh : Bool} {x y o : List (Path × Ex)} {rest : List Tok} {run : Nat → Res}
    (h : Ev fun f => run f = .ok (fin rest R (o ++ x))) (hy : R.run t p (t.next c) = some y) (ht : R.Tame t (t.next c) sh) :
    Fin t p c R sh (x ++ y) o rest run := ⟨R, x, y, t.next c, h, rfl, hy, ht, le_rfl, .inl rfl, fun _ => rfl⟩

theorem Fin.congr {t : T} {p c : Path} {R : Tail} {sh : Bool} {w o : List (Path × Ex)} {rest : List Tok} {run run' : Nat → Res}
    (h : Fin t p c R sh w o rest run) (he : ∀ f, run' (f + 1) = run f) : Fin t p c R sh w o rest run' := by
  obtain ⟨R', o1, o2, cur', h, h'⟩ := h
  exact ⟨R', o1, o2, cur', Ev.succ (h.mono fun f hf => (he f).trans hf), h'⟩

/-- A list between braces inside. -/
theorem fin_list {N : Nat} (hb : HB N) {u : T} (hu : u.Ok) (ha : ∀ v, u ≠ .arr 0 v) {l : Items} (hl : sizeOf l < N) {P : Path} {x o : List (Path × Ex)} {R : Tail}
    {rest : List Tok} (hx : l.fill u P = some x) (hg : l.Good u) :
    Ev fun f => member f u P ⟨(I.list l).toks ++ (R.toks ++ .rb :: rest), none, o⟩ = .ok (fin rest R (o ++ x)) := by
  apply Ev.succ
  simp only [I.toks, List.cons_append, List.append_assoc, List.singleton_append]
  cases u with
  | scalar c =>
    refine Ev.all fun f => ?_
    cases l with
    | cons d i r => simp [Items.fill, T.isScalar] at hx
    | one d i tr =>
      have htr : tr = false := by
        simp only [Items.Good] at hg
        exact hg.1 rfl
      subst htr
      cases d with
      | cons d ds => simp [Items.fill, T.isScalar] at hx
      | nil =>
        cases i with
        | list l => simp [Items.fill, T.isScalar] at hx
        | ex e =>
          rw [Items.fill] at hx
          by_cases htk : (T.scalar c).whole e = true
          · rw [if_pos htk] at hx
            cases hx
            have htk : (T.scalar c).takes e = true := htk
            simp [Items.toks, desToks, I.toks, member, readElement, Res.bind, assign, htk, fin]
          · rw [if_neg htk] at hx
            simp only [I.run, T.at, T.child, Option.bind_none] at hx
            cases hx
  | arr n e =>
    have hn : n ≠ 0 := fun h => ha e (by rw [h])
    refine (hb l (.arr n e) P x (R.toks ++ .rb :: rest) o hl hu rfl hx hg).mono fun f hf => ?_
    simp only [member, if_neg hn]
    exact hf
  | struct k ms =>
    refine (hb l (.struct k ms) P x (R.toks ++ .rb :: rest) o hl hu rfl hx hg).mono fun f hf => ?_
    simp only [member]
    exact hf
  | union k ms =>
    refine (hb l (.union k ms) P x (R.toks ++ .rb :: rest) o hl hu rfl hx hg).mono fun f hf => ?_
    simp only [member]
    exact hf

/-- What may come behind an element that is deep inside: nothing with an index. -/
theorem noIndex {R : Tail} {t : T} {c : Path} {sh : Bool} (h : R.Tame t (some c) sh) (hc : ∀ i, c ≠ [i]) {l : Items} (hl : R = .more l) {k : Nat} {ds : List D} :
    l.des ≠ .index k :: ds := by
  intro hd
  subst hl
  have h := ((Items.tame_eq l t (some c) sh).1 h).1
  rw [hd] at h
  obtain ⟨⟨j, hj, _⟩, _⟩ := h
  cases hj
  exact hc j rfl

theorem deep {c q : Path} (hc : c ≠ []) (hq : q ≠ []) : ∀ i, c ++ q ≠ [i] := by
  intro i h
  have := congrArg List.length h
  have h1 : 0 < c.length := List.length_pos_iff.2 hc
  have h2 : 0 < q.length := List.length_pos_iff.2 hq
  simp at this
  omega

/-- The items from a structure's member on, without braces. -/
theorem fin_struct {N k : Nat} {ms : List T} (ih : ∀ u ∈ ms, MM N u) {t : T} {p c : Path} (ht : t.at c = some (.struct k ms)) (hc : c ≠ []) {sh : Bool}
    (hs : Stable t sh) {rest : List Tok} : ∀ (d j : Nat), ms.length - j ≤ d → ∀ (R : Tail) (i : I) (x y o : List (Path × Ex)), i.small N → R.size ≤ N →
    i.run t p (c ++ [j]) = some x → R.run t p (i.behind t (c ++ [j])) = some y → i.Tame t (c ++ [j]) R.dot → R.Tame t (i.behind t (c ++ [j])) sh →
    j < ms.length → Fin t p c R sh (x ++ y) o rest fun f => structLoop f ms (p ++ c) false j ⟨i.toks ++ (R.toks ++ .rb :: rest), none, o⟩ := by
  intro d
  induction d with
  | zero => intro j hj R i x y o _ _ _ _ _ _ hlt; omega
  | succ d ihd =>
    intro j hj R i x y o hi hR hx hy hit hRt hlt
    have hv : ms[j]? = some ms[j] := List.getElem?_eq_getElem hlt
    have hch : (T.struct k ms).child j = some ms[j] := hv
    obtain ⟨R', o1, o2, cur', he, hw, hr, hT, hsz, hcur, hh⟩ := ih ms[j] (List.getElem_mem hlt) t p (c ++ [j]) R i sh x y o rest
      ((at_child ht).trans hch) (by simp) hs hi hR hx hy hit hRt
    have hnx := next_child ht hch
    have hstep : ∀ f, member f ms[j] (p ++ (c ++ [j])) ⟨i.toks ++ (R.toks ++ .rb :: rest), none, o⟩ = .ok (fin rest R' (o ++ o1)) →
        structLoop (f + 1) ms (p ++ c) false j ⟨i.toks ++ (R.toks ++ .rb :: rest), none, o⟩ =
          if ms.length ≤ j + 1 then .ok (fin rest R' (o ++ o1))
          else
            match nextElement false (R'.toks ++ .rb :: rest) with
            | some r => structLoop f ms (p ++ c) false (j + 1) ⟨r, none, o ++ o1⟩
            | none => .ok (fin rest R' (o ++ o1)) := by
      intro f hf
      rw [← List.append_assoc] at hf
      rcases init_toks i with ⟨e, _, hi⟩ | ⟨l, _, hi⟩
      · rw [hi] at hf ⊢
        simp only [List.cons_append, structLoop, hv] at hf ⊢
        rw [hf]
        rfl
      · rw [hi] at hf ⊢
        simp only [List.cons_append, structLoop, hv] at hf ⊢
        rw [hf]
        rfl
    by_cases hlast : ms.length ≤ j + 1
    · have hnone : (T.struct k ms).child (j + 1) = none := List.getElem?_eq_none hlast
      rw [hnone] at hnx
      simp at hnx
      refine ⟨R', o1, o2, cur', Ev.succ (he.mono fun f hf => (hstep f hf).trans (if_pos hlast)), hw, hr, hT, hsz, ?_, hh⟩
      rcases hcur with h | ⟨h, q, hq, h'⟩
      · exact .inl (h.trans hnx)
      · exact .inr ⟨h, [j] ++ q, by simp, by rw [h', List.append_assoc]⟩
    · have hsome : ((T.struct k ms).child (j + 1)).isSome := by
        show (ms[j + 1]?).isSome
        rw [List.getElem?_eq_getElem (by omega)]
        rfl
      rw [if_pos ⟨rfl, hsome⟩] at hnx
      -- the place is inside `c`
      have hin : ∃ q, q ≠ [] ∧ cur' = some (c ++ q) := by
        rcases hcur with h | ⟨_, q, hq, h'⟩
        · exact ⟨[j + 1], by simp, h.trans hnx⟩
        · exact ⟨[j] ++ q, by simp, by rw [h', List.append_assoc]⟩
      obtain ⟨q, hq, hcq⟩ := hin
      have hend : R'.halts → nextElement false (R'.toks ++ .rb :: rest) = none → Fin t p c R sh (x ++ y) o rest fun f =>
          structLoop f ms (p ++ c) false j ⟨i.toks ++ (R.toks ++ .rb :: rest), none, o⟩ := by
        intro hha hno
        refine ⟨R', o1, o2, cur', Ev.succ (he.mono fun f hf => (hstep f hf).trans (by rw [if_neg hlast, hno])), hw, hr, hT, hsz, .inr ⟨hha, q, hq, hcq⟩, hh⟩
      cases hR' : R' with
      | stop tr =>
        rw [hR'] at hend
        exact hend trivial nextElement_stop
      | more l =>
        cases hd : l.des with
        | cons d ds =>
          have hha : R'.halts := by rw [hR']; show l.des ≠ []; rw [hd]; simp
          cases d with
          | field m =>
            refine hend hha ?_
            rw [hR', nextElement_field hd]
            rfl
          | index k =>
            rw [hcq] at hT
            exact (noIndex hT (deep hc hq) hR' hd).elim
        | nil =>
          have hcur' : cur' = some (c ++ [j + 1]) := by
            rcases hcur with h | ⟨h, _⟩
            · exact h.trans hnx
            · rw [hR'] at h
              exact (h hd).elim
          rw [hR'] at hr hT hsz
          have hr : l.run t p cur' = some o2 := hr
          have hT : l.Tame t cur' sh := hT
          have hsz : sizeOf l ≤ R.size := hsz
          rw [Items.run_eq, hd, place, if_pos rfl, hcur'] at hr
          rw [Items.tame_eq, hd, place, if_pos rfl, hcur'] at hT
          simp only [Option.bind_some] at hr
          obtain ⟨x', hx', hr⟩ := Option.bind_eq_some_iff.1 hr
          obtain ⟨y', hy', hr⟩ := Option.map_eq_some_iff.1 hr
          obtain ⟨hTi, hTR⟩ := hT.2 _ rfl
          rw [hs.same (deep hc (by simp))] at hTR
          have hsm := Items.init_small l
          have hts := Items.tail_size l
          obtain ⟨R2, p1, p2, cur2, he2, hw2, hr2, hT2, hsz2, hcur2, hh2⟩ := ihd (j + 1) (by omega) l.tail l.init x' y' (o ++ o1)
            (fun l' h => by have := hsm l' h; omega) (by omega) hx' hy' hTi hTR (by omega)
          refine ⟨R2, o1 ++ p1, p2, cur2, Ev.succ ((he.and he2).mono fun f hf => ?_), ?_, hr2, hT2, by omega, hcur2, ?_⟩
          · refine (hstep f hf.1).trans ?_
            rw [if_neg hlast, hR', nextElement_nil hd]
            simp only []
            rw [des_nil hd, List.append_assoc, ← List.append_assoc o]
            exact hf.2
          · rw [hw, ← hr, hw2, List.append_assoc]
          · intro hRh
            have := hh hRh
            rw [← this, hR'] at hRh
            exact (hRh hd).elim

/-- The same of an array. -/
theorem fin_array {N n : Nat} {e : T} (ih : MM N e) (hn : n ≠ 0) {t : T} {p c : Path} (ht : t.at c = some (.arr n e)) (hc : c ≠ []) {sh : Bool}
    (hs : Stable t sh) {rest : List Tok} : ∀ (d j : Nat), n - j ≤ d → ∀ (R : Tail) (i : I) (x y o : List (Path × Ex)), i.small N → R.size ≤ N →
    i.run t p (c ++ [j]) = some x → R.run t p (i.behind t (c ++ [j])) = some y → i.Tame t (c ++ [j]) R.dot → R.Tame t (i.behind t (c ++ [j])) sh →
    j < n → Fin t p c R sh (x ++ y) o rest fun f => arrayLoop f n e (p ++ c) false j j ⟨i.toks ++ (R.toks ++ .rb :: rest), none, o⟩ := by
  intro d
  induction d with
  | zero => intro j hj R i x y o _ _ _ _ _ _ hlt; omega
  | succ d ihd =>
    intro j hj R i x y o hi hR hx hy hit hRt hlt
    have hch : (T.arr n e).child j = some e := if_pos (.inr hlt)
    obtain ⟨R', o1, o2, cur', he, hw, hr, hT, hsz, hcur, hh⟩ := ih t p (c ++ [j]) R i sh x y o rest
      ((at_child ht).trans hch) (by simp) hs hi hR hx hy hit hRt
    have hnx := next_child ht hch
    have hstep : ∀ f, member f e (p ++ (c ++ [j])) ⟨i.toks ++ (R.toks ++ .rb :: rest), none, o⟩ = .ok (fin rest R' (o ++ o1)) →
        arrayLoop (f + 1) n e (p ++ c) false j j ⟨i.toks ++ (R.toks ++ .rb :: rest), none, o⟩ =
          match nextArray false n (j + 1) (R'.toks ++ .rb :: rest) with
          | some r => arrayLoop f n e (p ++ c) false (j + 1) (j + 1) ⟨r, none, o ++ o1⟩
          | none => .ok (fin rest R' (o ++ o1)) := by
      intro f hf
      have hm : max j (j + 1) = j + 1 := by omega
      rw [← List.append_assoc] at hf
      rcases init_toks i with ⟨e, _, hi⟩ | ⟨l, _, hi⟩
      · rw [hi] at hf ⊢
        simp only [List.cons_append, arrayLoop, hm] at hf ⊢
        rw [hf]
        rfl
      · rw [hi] at hf ⊢
        simp only [List.cons_append, arrayLoop, hm] at hf ⊢
        rw [hf]
        rfl
    have hin : R'.halts → cur' = t.next c ∨ (R'.halts ∧ ∃ q, q ≠ [] ∧ cur' = some (c ++ q)) := by
      intro hha
      rcases hcur with h | ⟨_, q, hq, h'⟩
      · rw [hnx] at h
        split at h
        · exact .inr ⟨hha, _, by simp, h⟩
        · exact .inl h
      · exact .inr ⟨hha, [j] ++ q, by simp, by rw [h', List.append_assoc]⟩
    have hend : R'.halts → nextArray false n (j + 1) (R'.toks ++ .rb :: rest) = none → Fin t p c R sh (x ++ y) o rest fun f =>
        arrayLoop f n e (p ++ c) false j j ⟨i.toks ++ (R.toks ++ .rb :: rest), none, o⟩ := by
      intro hha hno
      exact ⟨R', o1, o2, cur', Ev.succ (he.mono fun f hf => (hstep f hf).trans (by rw [hno])), hw, hr, hT, hsz, hin hha, hh⟩
    cases hR' : R' with
    | stop tr =>
      rw [hR'] at hend
      exact hend trivial nextArray_stop
    | more l =>
      cases hd : l.des with
      | cons d ds =>
        have hha : R'.halts := by rw [hR']; show l.des ≠ []; rw [hd]; simp
        cases d with
        | field m =>
          refine hend hha ?_
          rw [hR', nextArray_field hd]
        | index k =>
          refine hend hha ?_
          rw [hR', nextArray_index hd]
          rfl
      | nil =>
        have hcur' : cur' = t.next (c ++ [j]) := by
          rcases hcur with h | ⟨h, _⟩
          · exact h
          · rw [hR'] at h
            exact (h hd).elim
        by_cases hlast : n ≤ j + 1
        · have hnone : (T.arr n e).child (j + 1) = none := if_neg (by omega)
          rw [hnone] at hnx
          simp at hnx
          have hno : nextArray false n (j + 1) (R'.toks ++ .rb :: rest) = none := by
            rw [hR', nextArray_nil hd, if_pos ⟨hn, hlast⟩]
          exact ⟨R', o1, o2, cur', Ev.succ (he.mono fun f hf => (hstep f hf).trans (by rw [hno])), hw, hr, hT, hsz, .inl (hcur'.trans hnx), hh⟩
        · have hsome : ((T.arr n e).child (j + 1)).isSome := by
            rw [show (T.arr n e).child (j + 1) = some e from if_pos (.inr (by omega))]
            rfl
          rw [if_pos ⟨rfl, hsome⟩] at hnx
          rw [hnx] at hcur'
          rw [hR'] at hr hT hsz
          have hr : l.run t p cur' = some o2 := hr
          have hT : l.Tame t cur' sh := hT
          have hsz : sizeOf l ≤ R.size := hsz
          rw [Items.run_eq, hd, place, if_pos rfl, hcur'] at hr
          rw [Items.tame_eq, hd, place, if_pos rfl, hcur'] at hT
          simp only [Option.bind_some] at hr
          obtain ⟨x', hx', hr⟩ := Option.bind_eq_some_iff.1 hr
          obtain ⟨y', hy', hr⟩ := Option.map_eq_some_iff.1 hr
          obtain ⟨hTi, hTR⟩ := hT.2 _ rfl
          rw [hs.same (deep hc (by simp))] at hTR
          have hsm := Items.init_small l
          have hts := Items.tail_size l
          obtain ⟨R2, p1, p2, cur2, he2, hw2, hr2, hT2, hsz2, hcur2, hh2⟩ := ihd (j + 1) (by omega) l.tail l.init x' y' (o ++ o1)
            (fun l' h => by have := hsm l' h; omega) (by omega) hx' hy' hTi hTR (by omega)
          refine ⟨R2, o1 ++ p1, p2, cur2, Ev.succ ((he.and he2).mono fun f hf => ?_), ?_, hr2, hT2, by omega, hcur2, ?_⟩
          · refine (hstep f hf.1).trans ?_
            rw [hR', nextArray_nil hd, if_neg (by omega)]
            simp only []
            rw [des_nil hd, List.append_assoc, ← List.append_assoc o]
            exact hf.2
          · rw [hw, ← hr, hw2, List.append_assoc]
          · intro hRh
            have := hh hRh
            rw [← this, hR'] at hRh
            exact (hRh hd).elim

/-- The same of a union, which only ends right if nothing more is for what is around it. -/
theorem fin_union {N k : Nat} {v : T} {ms : List T} (ih : MM N v) {t : T} {p c : Path} (ht : t.at c = some (.union k (v :: ms))) {sh : Bool}
    (hs : Stable t sh) {rest : List Tok} {R : Tail} {i : I} {x y o : List (Path × Ex)} (hi : i.small N) (hR : R.size ≤ N)
    (hx : i.run t p (c ++ [0]) = some x) (hy : R.run t p (i.behind t (c ++ [0])) = some y) (hit : i.Tame t (c ++ [0]) R.dot)
    (hRt : R.Tame t (i.behind t (c ++ [0])) sh) (hdot : R.dot = true) :
    Fin t p c R sh (x ++ y) o rest fun f => unionLoop f (v :: ms) (p ++ c) false false o ⟨i.toks ++ (R.toks ++ .rb :: rest), none, o⟩ := by
  have hch : (T.union k (v :: ms)).child 0 = some v := rfl
  obtain ⟨R', o1, o2, cur', he, hw, hr, hT, hsz, hcur, hh⟩ := ih t p (c ++ [0]) R i sh x y o rest
    ((at_child ht).trans hch) (by simp) hs hi hR hx hy hit hRt
  have hnx := next_child ht hch
  rw [if_neg (by simp [T.isUnion])] at hnx
  have hR' := hh (Tail.dot_halts hdot)
  subst hR'
  refine ⟨R', o1, o2, cur', Ev.succ (he.mono fun f hf => ?_), hw, hr, hT, hsz, ?_, hh⟩
  · rw [← List.append_assoc] at hf
    rcases init_toks i with ⟨e, _, hi⟩ | ⟨l, _, hi⟩
    · rw [hi] at hf ⊢
      simp only [List.cons_append, unionLoop, List.getElem?_cons_zero] at hf ⊢
      rw [if_neg (by simp), hf]
      simp only [Res.bind, fin, nextElement_dot hdot]
    · rw [hi] at hf ⊢
      simp only [List.cons_append, unionLoop, List.getElem?_cons_zero] at hf ⊢
      rw [if_neg (by simp), hf]
      simp only [Res.bind, fin, nextElement_dot hdot]
  · rcases hcur with h | ⟨h, q, hq, h'⟩
    · exact .inl (h.trans hnx)
    · exact .inr ⟨h, [0] ++ q, by simp, by rw [h', List.append_assoc]⟩

/-- A member, with what follows. -/
theorem mm {N : Nat} (hb : HB N) {u : T} (hu : u.Ok) : (∀ v, u ≠ .arr 0 v) → MM N u := by
  induction hu with
  | @scalar ch =>
    intro ha t p c R i sh x y o rest ht hc hs hi hR hx hy hit hRt
    rcases init_toks i with ⟨e, rfl, hti⟩ | ⟨l, rfl, _⟩
    · simp only [I.run, I.behind, ht, Option.bind_some, T.reach] at hx hy hRt
      by_cases htk : (T.scalar ch).takes e = true
      · rw [if_pos htk] at hx hy hRt
        simp only [Option.map_some, Option.bind_some, List.append_nil] at hx hy hRt
        cases hx
        refine Fin.whole (Ev.succ (Ev.all fun f => ?_)) hy hRt
        simp [hti, member, readElement, Res.bind, assign, htk, fin]
      · rw [if_neg htk] at hx
        cases hx
    · simp only [I.run, I.behind, I.Tame, ht, Option.bind_some] at hx hy hRt hit
      exact Fin.whole (fin_list hb .scalar ha (hi l rfl) hx (hit _ rfl)) hy hRt
  | @arr n v hv hvn ih =>
    intro ha t p c R i sh x y o rest ht hc hs hi hR hx hy hit hRt
    have hn : n ≠ 0 := fun h => ha v (by rw [h])
    rcases init_toks i with ⟨e, rfl, hti⟩ | ⟨l, rfl, _⟩
    · by_cases htk : (T.arr n v).takes e = true
      · simp only [I.run, I.behind, ht, Option.bind_some, reach_takes htk, Option.map_some, List.append_nil] at hx hy hRt
        cases hx
        refine Fin.whole (Ev.succ (Ev.succ (Ev.all fun f => ?_))) hy hRt
        simp [hti, member, hn, array, readFirst, readElement, Res.bind, assign, htk, fin]
      · have hd := descend (p := p) ht (show (T.arr n v).child 0 = some v from if_pos (.inr (by omega))) (e := e) (by rw [T.reach, if_neg htk])
        rw [hd.1] at hx
        rw [hd.2] at hy hRt
        have hit' : (I.ex e).Tame t (c ++ [0]) R.dot := by
          intro w hw
          rw [at_child ht, show (T.arr n v).child 0 = some v from if_pos (.inr (by omega))] at hw
          cases hw
          rcases hit _ ht with h | h
          · simp only [T.clear, Bool.or_eq_true] at h
            rcases h with h | h
            · exact (htk h).elim
            · exact .inl h
          · exact .inr h
        have hF := fin_array (ih hvn) hn ht hc hs (rest := rest) n 0 (by omega) R (.ex e) x y o hi hR hx hy hit' hRt (by omega)
        refine (hF.congr (run' := fun f => array f n v (p ++ c) false ⟨(I.ex e).toks ++ (R.toks ++ .rb :: rest), none, o⟩) fun f => ?_).congr fun f => ?_
        · simp only [hti, List.cons_append, List.nil_append, arrayLoop_read tail_idx]
          simp [array, readFirst, readElement, Res.bind, htk]
        · simp [hti, member, hn]
    · simp only [I.run, I.behind, I.Tame, ht, Option.bind_some] at hx hy hRt hit
      exact Fin.whole (fin_list hb (.arr hv hvn) ha (hi l rfl) hx (hit _ rfl)) hy hRt
  | @struct k ms hms hmn h0 hk ih =>
    intro ha t p c R i sh x y o rest ht hc hs hi hR hx hy hit hRt
    rcases init_toks i with ⟨e, rfl, hti⟩ | ⟨l, rfl, _⟩
    · by_cases htk : (T.struct k ms).takes e = true
      · simp only [I.run, I.behind, ht, Option.bind_some, reach_takes htk, Option.map_some, List.append_nil] at hx hy hRt
        cases hx
        refine Fin.whole (Ev.succ (Ev.succ (Ev.all fun f => ?_))) hy hRt
        simp [hti, member, record, readFirst, readElement, Res.bind, assign, htk, fin]
      · cases ms with
        | nil => exact (h0 rfl).elim
        | cons v ms =>
          have hd := descend (p := p) ht (show (T.struct k (v :: ms)).child 0 = some v from rfl) (e := e) (by rw [T.reach, if_neg htk])
          rw [hd.1] at hx
          rw [hd.2] at hy hRt
          have hit' : (I.ex e).Tame t (c ++ [0]) R.dot := by
            intro w hw
            rw [at_child ht, show (T.struct k (v :: ms)).child 0 = some v from rfl] at hw
            cases hw
            rcases hit _ ht with h | h
            · simp only [T.clear, Bool.or_eq_true] at h
              rcases h with h | h
              · exact (htk h).elim
              · exact .inl h
            · exact .inr h
          have hF := fin_struct (fun u hu => ih u hu (hmn u hu)) ht hc hs (rest := rest) _ 0 le_rfl R (.ex e) x y o hi hR hx hy hit' hRt (by simp)
          refine (hF.congr (run' := fun f => record f (.struct k (v :: ms)) (p ++ c) false ⟨(I.ex e).toks ++ (R.toks ++ .rb :: rest), none, o⟩) fun f => ?_).congr
            fun f => ?_
          · simp only [hti, List.cons_append, List.nil_append, structLoop_read]
            simp [record, readFirst, readElement, Res.bind, htk]
          · simp [hti, member]
    · simp only [I.run, I.behind, I.Tame, ht, Option.bind_some] at hx hy hRt hit
      exact Fin.whole (fin_list hb (.struct hms hmn h0 hk) ha (hi l rfl) hx (hit _ rfl)) hy hRt
  | @union k ms hms hmn h0 hk ih =>
    intro ha t p c R i sh x y o rest ht hc hs hi hR hx hy hit hRt
    rcases init_toks i with ⟨e, rfl, hti⟩ | ⟨l, rfl, _⟩
    · by_cases htk : (T.union k ms).takes e = true
      · simp only [I.run, I.behind, ht, Option.bind_some, reach_takes htk, Option.map_some, List.append_nil] at hx hy hRt
        cases hx
        refine Fin.whole (Ev.succ (Ev.succ (Ev.all fun f => ?_))) hy hRt
        simp [hti, member, record, readFirst, readElement, Res.bind, assign, htk, fin]
      · cases ms with
        | nil => exact (h0 rfl).elim
        | cons v ms =>
          have hd := descend (p := p) ht (show (T.union k (v :: ms)).child 0 = some v from rfl) (e := e) (by rw [T.reach, if_neg htk])
          rw [hd.1] at hx
          rw [hd.2] at hy hRt
          have hdot : R.dot = true := by
            rcases hit _ ht with h | h
            · simp only [T.clear] at h
              exact (htk h).elim
            · exact h
          have hF := fin_union (ih v (by simp) (hmn v (by simp))) ht hs (rest := rest) (o := o) hi hR hx hy (fun w hw => .inr hdot) hRt hdot
          refine (hF.congr (run' := fun f => record f (.union k (v :: ms)) (p ++ c) false ⟨(I.ex e).toks ++ (R.toks ++ .rb :: rest), none, o⟩) fun f => ?_).congr
            fun f => ?_
          · simp only [hti, List.cons_append, List.nil_append, unionLoop_read rfl tail_dot]
            simp [record, readFirst, readElement, Res.bind, htk]
          · simp [hti, member]
    · simp only [I.run, I.behind, I.Tame, ht, Option.bind_some] at hx hy hRt hit
      exact Fin.whole (fin_list hb (.union hms hmn h0 hk) ha (hi l rfl) hx (hit _ rfl)) hy hRt

end Verif.Brace
