import Verif.Brace.Elide

/-!
# Lists between braces
-/

namespace Verif.Brace

set_option linter.unusedSimpArgs false

theorem tame_dot {R : Tail} {t : T} {c : Option Path} {sh : Bool} (hd : R.dot = true) (h : R.Tame t c sh) (c' : Option Path) : R.Tame t c' sh := by
  cases R with
  | stop => trivial
  | more l =>
    have h := (Items.tame_eq l t c sh).1 h
    refine (Items.tame_eq l t c' sh).2 ?_
    cases hl : l.des with
    | nil => simp only [Tail.dot, Items.dot, hl] at hd; cases hd
    | cons d ds =>
      rw [hl] at h
      cases d with
      | field m => exact h
      | index k => simp only [Tail.dot, Items.dot, hl] at hd; cases hd

theorem mm_halts {N : Nat} {u : T} (hm : MM N u) {t : T} {p c : Path} {R : Tail} {i : I} {sh : Bool} {x y o : List (Path × Ex)} {rest : List Tok}
    (ht : t.at c = some u) (hc : c ≠ []) (hs : Stable t sh) (hi : i.small N) (hR : R.size ≤ N) (hx : i.run t p c = some x)
    (hy : R.run t p (i.behind t c) = some y) (hit : i.Tame t c R.dot) (hRt : R.Tame t (i.behind t c) sh) (hh : R.halts) :
    Ev fun f => member f u (p ++ c) ⟨i.toks ++ (R.toks ++ .rb :: rest), none, o⟩ = .ok (fin rest R (o ++ x)) := by
  obtain ⟨R', o1, o2, cur', he, hw, hr, _, _, _, h⟩ := hm t p c R i sh x y o rest ht hc hs hi hR hx hy hit hRt
  have := h hh
  subst this
  rw [Tail.run_halts hh _ (i.behind t c), hy] at hr
  cases hr
  have := List.append_cancel_right hw
  rw [this]
  exact he

theorem skipEq_des {ds : List D} {X : List Tok} (h : ds ≠ []) : skipEq (ds.map D.tok ++ .eq :: X) = ds.map D.tok ++ .eq :: X := by
  cases ds with
  | nil => exact (h rfl).elim
  | cons d ds => cases d <;> rfl

theorem select_child {u : T} {d : D} {m : Nat} (h : u.select d = some m) : ∃ v, u.child m = some v := by
  cases u <;> cases d <;> simp only [T.select] at h <;> first | (cases h) | skip
  all_goals
    obtain ⟨v, hv, rfl⟩ := Option.map_eq_some_iff.1 h
    exact ⟨v, hv⟩

theorem ok_child {u v : T} {m : Nat} (h : u.Ok) (hc : u.child m = some v) : v.Ok ∧ ∀ w, v ≠ .arr 0 w := by
  cases h with
  | scalar => cases hc
  | arr h hn =>
    simp only [T.child] at hc
    split at hc
    · cases hc; exact ⟨h, hn⟩
    · cases hc
  | struct h hn h0 hk =>
    have := List.mem_of_getElem? hc
    exact ⟨h _ this, hn _ this⟩
  | union h hn h0 hk =>
    have := List.mem_of_getElem? hc
    exact ⟨h _ this, hn _ this⟩

/-- More designators. -/
theorem chain {N : Nat} (hb : HB N) {t : T} {p : Path} {R : Tail} {i : I} {sh : Bool} {x y o : List (Path × Ex)} {rest : List Tok} (hs : Stable t sh)
    (hi : i.small N) (hR : R.size ≤ N) (hdot : R.dot = true) : ∀ (ds : List D) (u : T) (c q : Path), ds ≠ [] → u.Ok → (∀ v, u ≠ .arr 0 v) → t.at c = some u →
    c ≠ [] → u.go ds = some q → i.run t p (c ++ q) = some x → R.run t p (i.behind t (c ++ q)) = some y → i.Tame t (c ++ q) R.dot →
    R.Tame t (i.behind t (c ++ q)) sh →
    Ev fun f => member f u (p ++ c) ⟨ds.map D.tok ++ .eq :: (i.toks ++ (R.toks ++ .rb :: rest)), none, o⟩ = .ok (fin rest R (o ++ x)) := by
  intro ds
  induction ds with
  | nil => intro u c q h; exact (h rfl).elim
  | cons d ds ih =>
    intro u c q _ hu ha ht hc hq hx hy hit hRt
    simp only [T.go] at hq
    obtain ⟨m, hm, hq⟩ := Option.bind_eq_some_iff.1 hq
    obtain ⟨v, hv, hq⟩ := Option.bind_eq_some_iff.1 hq
    obtain ⟨q', hq', rfl⟩ := Option.map_eq_some_iff.1 hq
    obtain ⟨hvo, hva⟩ := ok_child hu hv
    have hin : Ev fun f => member f v (p ++ (c ++ [m])) ⟨skipEq (ds.map D.tok ++ .eq :: (i.toks ++ (R.toks ++ .rb :: rest))), none, o⟩ =
        .ok (fin rest R (o ++ x)) := by
      rw [show c ++ m :: q' = (c ++ [m]) ++ q' by simp] at hx hy hit hRt
      by_cases hds : ds = []
      · subst hds
        cases hq'
        rw [List.append_nil] at hx hy hit hRt
        exact mm_halts (mm hb hvo hva) ((at_child ht).trans hv) (by simp) hs hi hR hx hy hit hRt (Tail.dot_halts hdot)
      · rw [skipEq_des hds]
        exact ih v (c ++ [m]) q' hds hvo hva ((at_child ht).trans hv) (by simp) hq' hx hy hit hRt
    rw [← List.append_assoc] at hin
    refine Ev.succ (Ev.succ (Ev.succ (hin.mono fun f hf => ?_)))
    cases u with
    | scalar => cases hv
    | arr n e =>
      cases d with
      | field => cases hm
      | index k =>
        have hn : n ≠ 0 := fun h => ha e (by rw [h])
        simp only [T.select] at hm
        obtain ⟨v', hv', rfl⟩ := Option.map_eq_some_iff.1 hm
        simp only [T.child] at hv
        split at hv
        · cases hv
          simp only [List.map_cons, D.tok, List.cons_append, member, if_neg hn, array, readFirst, Res.bind, Option.map_none, arrayLoop, hf]
          simp only [fin, nextArray_dot hdot]
        · cases hv
    | struct k ms =>
      cases d with
      | index => cases hm
      | field k =>
        simp only [T.select] at hm
        obtain ⟨v', hv', rfl⟩ := Option.map_eq_some_iff.1 hm
        simp only [T.child] at hv
        simp only [List.map_cons, D.tok, List.cons_append, member, record, readFirst, Res.bind, Option.map_none, structLoop, hv, hf]
        simp only [fin, nextElement_dot hdot]
    | union k ms =>
      cases d with
      | index => cases hm
      | field k =>
        simp only [T.select] at hm
        obtain ⟨v', hv', rfl⟩ := Option.map_eq_some_iff.1 hm
        simp only [T.child] at hv
        simp only [List.map_cons, D.tok, List.cons_append, member, record, readFirst, Res.bind, Option.map_none, unionLoop, hv, hf]
        simp only [fin, nextElement_dot hdot]

/-- What the functions for an element get to read. -/
def Items.body (l : Items) (rest : List Tok) : List Tok :=
  match l.des with
  | [] => l.init.toks ++ (l.tail.toks ++ .rb :: rest)
  | _ :: ds => skipEq (ds.map D.tok ++ .eq :: (l.init.toks ++ (l.tail.toks ++ .rb :: rest)))

/-- The first item of what is left. -/
theorem first {N : Nat} (hb : HB N) {t : T} (hto : t.Ok) {p : Path} {l : Items} {cur : Option Path} {sh : Bool} {w o : List (Path × Ex)} {rest : List Tok}
    {i : Nat} (hl : sizeOf l ≤ N) (hr : l.run t p cur = some w) (hT : l.Tame t cur sh) (hcur : l.des = [] → cur = some [i]) :
    ∃ m v c, t.child m = some v ∧ (l.des = [] → m = i ∧ c = [m]) ∧ (∀ d ds, l.des = d :: ds → t.select d = some m) ∧
      Fin t p [m] l.tail (shutAfter t c l.des sh) w o rest fun f => member f v (p ++ [m]) ⟨l.body rest, none, o⟩ := by
  rw [Items.run_eq] at hr
  rw [Items.tame_eq] at hT
  obtain ⟨c, hc, hr⟩ := Option.bind_eq_some_iff.1 hr
  obtain ⟨x, hx, hr⟩ := Option.bind_eq_some_iff.1 hr
  obtain ⟨y, hy, rfl⟩ := Option.map_eq_some_iff.1 hr
  obtain ⟨hA, hT⟩ := hT
  obtain ⟨hit, hRt⟩ := hT c hc
  have hts := Items.tail_size l
  have hsm : l.init.small N := fun l' h => by have := Items.init_small l l' h; omega
  cases hd : l.des with
  | nil =>
    rw [hd, place, if_pos rfl, hcur hd] at hc
    cases hc
    have hch : ∃ v, t.child i = some v := by
      cases hch : t.child i with
      | some v => exact ⟨v, rfl⟩
      | none =>
        have : t.at [i] = none := by simp [T.at, hch]
        cases hi : l.init <;> rw [hi] at hx <;> simp [I.run, this] at hx
    obtain ⟨v, hv⟩ := hch
    obtain ⟨hvo, hva⟩ := ok_child hto hv
    refine ⟨i, v, [i], hv, fun _ => ⟨rfl, rfl⟩, fun d ds h => (by cases h), ?_⟩
    simp only [Items.body, hd]
    rw [hd] at hRt
    exact mm hb hvo hva t p [i] l.tail l.init _ x y o rest ((at_child (c := []) rfl).trans hv) (by simp) stable_after hsm (by omega) hx hy hit hRt
  | cons d ds =>
    rw [hd, place, if_neg (by simp)] at hc
    simp only [T.go] at hc
    obtain ⟨m, hm, hq⟩ := Option.bind_eq_some_iff.1 hc
    obtain ⟨v, hv, hq⟩ := Option.bind_eq_some_iff.1 hq
    obtain ⟨q', hq', rfl⟩ := Option.map_eq_some_iff.1 hq
    obtain ⟨hvo, hva⟩ := ok_child hto hv
    refine ⟨m, v, m :: q', hv, fun h => (by cases h), fun d' ds' h => (by cases h; exact hm), ?_⟩
    simp only [Items.body, hd]
    rw [hd] at hRt hA
    have hat : t.at [m] = some v := (at_child (c := []) rfl).trans hv
    by_cases hds : ds = []
    · subst hds
      cases hq'
      exact mm hb hvo hva t p [m] l.tail l.init _ x y o rest hat (by simp) stable_after hsm (by omega) hx hy hit hRt
    · have hdot : l.tail.dot = true := by
        cases d with
        | field a => exact hA.2.resolve_left hds
        | index a => exact hA.2.resolve_left hds
      rw [skipEq_des hds]
      have hE := chain hb (o := o) (rest := rest) stable_after hsm (by omega) hdot ds v [m] q' hds hvo hva hat (by simp) hq' hx hy hit hRt
      refine Fin.whole hE ?_ (tame_dot hdot hRt _)
      rw [Tail.run_halts (Tail.dot_halts hdot) _ (l.init.behind t (m :: q'))]
      exact hy

theorem body_nil {l : Items} {rest : List Tok} (h : l.des = []) : l.toks ++ .rb :: rest = l.body rest := by
  simp [Items.body, h, des_nil h]

theorem body_cons {l : Items} {rest : List Tok} {d : D} {ds : List D} (h : l.des = d :: ds) : ∃ r, l.toks ++ .rb :: rest = d.tok :: r ∧ skipEq r = l.body rest :=
  ⟨ds.map D.tok ++ .eq :: (l.init.toks ++ (l.tail.toks ++ .rb :: rest)), by rw [Items.toks_eq]; simp [h, desToks], by simp [Items.body, h]⟩

theorem body_head {l : Items} {rest : List Tok} (h : l.des = []) : (∃ e r, l.body rest = .ex e :: r) ∨ ∃ r, l.body rest = .lb :: r := by
  simp only [Items.body, h]
  rcases init_toks l.init with ⟨e, _, h⟩ | ⟨l', _, h⟩ <;> rw [h] <;> simp

/-- A structure. -/
theorem loop_struct {N k : Nat} {ms : List T} (hb : HB N) (hto : (T.struct k ms).Ok) {p : Path} {rest : List Tok} : ∀ (n : Nat) (l : Items) (i : Nat)
    (cur : Option Path) (sh : Bool) (w o : List (Path × Ex)), sizeOf l ≤ n → sizeOf l ≤ N → l.run (.struct k ms) p cur = some w →
    l.Tame (.struct k ms) cur sh → (l.des = [] → cur = some [i]) →
    ∃ tr, Ev fun f => structLoop f ms p true i ⟨l.toks ++ .rb :: rest, none, o⟩ = .ok (fin rest (.stop tr) (o ++ w)) := by
  intro n
  induction n with
  | zero => intro l i cur sh w o hn; cases l <;> simp at hn
  | succ n ih =>
    intro l i cur sh w o hn hN hr hT hcur
    obtain ⟨m, v, c, hv, hnil, hcons, R', o1, o2, cur', he, hw, hr', hT', hsz, hcur', _⟩ := first hb hto (o := o) (rest := rest) hN hr hT hcur
    have hv' : ms[m]? = some v := hv
    have hnx := next_child (t := .struct k ms) (c := []) rfl hv
    have hstep : ∀ f, member f v (p ++ [m]) ⟨l.body rest, none, o⟩ = .ok (fin rest R' (o ++ o1)) →
        structLoop (f + 1) ms p true i ⟨l.toks ++ .rb :: rest, none, o⟩ =
          if l.des = [] ∧ ms.length ≤ m + 1 then .ok (fin rest R' (o ++ o1))
          else
            match nextElement true (R'.toks ++ .rb :: rest) with
            | some r => structLoop f ms p true (m + 1) ⟨r, none, o ++ o1⟩
            | none => .ok (fin rest R' (o ++ o1)) := by
      intro f hf
      cases hd : l.des with
      | nil =>
        obtain ⟨rfl, _⟩ := hnil hd
        rw [body_nil hd]
        rcases body_head (rest := rest) hd with ⟨e, r, hh⟩ | ⟨r, hh⟩
        all_goals
          rw [hh] at hf ⊢
          simp only [structLoop, hv', hf, Res.bind, true_and]
          rfl
      | cons d ds =>
        have hs := hcons d ds hd
        cases d with
        | index a => cases hs
        | field a =>
          simp only [T.select] at hs
          obtain ⟨_, _, rfl⟩ := Option.map_eq_some_iff.1 hs
          obtain ⟨r, h1, h2⟩ := body_cons (rest := rest) hd
          rw [h1, if_neg (by simp)]
          simp only [D.tok, structLoop, hv', h2, hf, Res.bind]
          rfl
    have hts := Items.tail_size l
    cases hR' : R' with
    | stop tr =>
      rw [hR'] at hr'
      cases hr'
      refine ⟨tr, Ev.succ (he.mono fun f hf => (hstep f hf).trans ?_)⟩
      rw [hR', nextElement_stop, hw, List.append_nil]
      split <;> rfl
    | more l2 =>
      rw [hR'] at hr' hT' hsz
      have hsz : sizeOf l2 ≤ l.tail.size := hsz
      have hr2 : l2.run (.struct k ms) p cur' = some o2 := hr'
      have hT2 : l2.Tame (.struct k ms) cur' _ := hT'
      -- the place and that the loop goes on
      have hgo : ¬ (l.des = [] ∧ ms.length ≤ m + 1) ∧ nextElement true (R'.toks ++ .rb :: rest) = some (l2.toks ++ .rb :: rest) ∧
          (l2.des = [] → cur' = some [m + 1]) := by
        cases hd2 : l2.des with
        | nil =>
          have hc' : cur' = (T.struct k ms).next [m] := by
            rcases hcur' with h | ⟨h, _⟩
            · exact h
            · rw [hR'] at h
              exact (h hd2).elim
          have hne : cur' ≠ none := by
            intro h
            rw [Items.run_eq, hd2, place, if_pos rfl, h] at hr2
            cases hr2
          simp only [List.nil_append] at hnx
          rw [hnx] at hc'
          split at hc'
          · rename_i hcond
            refine ⟨fun h => ?_, by rw [hR', nextElement_nil hd2], fun _ => hc'⟩
            have : (T.struct k ms).child (m + 1) = none := List.getElem?_eq_none h.2
            rw [this] at hcond
            cases hcond.2
          · exact (hne hc').elim
        | cons d ds =>
          cases d with
          | index a =>
            rw [Items.run_eq, hd2, place, if_neg (by simp)] at hr2
            simp [T.go, T.select] at hr2
          | field a =>
            refine ⟨fun h => ?_, by rw [hR', nextElement_field hd2]; rfl, fun h => by cases h⟩
            have hA := ((Items.tame_eq l2 _ _ _).1 hT2).1
            rw [hd2] at hA
            have hA := hA.1
            rw [h.1, (hnil h.1).2] at hA
            simp [shutAfter] at hA
            omega
      obtain ⟨hg1, hg2, hg3⟩ := hgo
      obtain ⟨tr, he2⟩ := ih l2 (m + 1) cur' _ o2 (o ++ o1) (by omega) (by omega) hr2 hT2 hg3
      refine ⟨tr, Ev.succ ((he.and he2).mono fun f hf => (hstep f hf.1).trans ?_)⟩
      rw [if_neg hg1, hg2, hw, ← List.append_assoc]
      exact hf.2

/-- An array. -/
theorem loop_array {N k : Nat} {e : T} (hb : HB N) (hto : (T.arr k e).Ok) {p : Path} {rest : List Tok} : ∀ (n : Nat) (l : Items) (i c : Nat)
    (cur : Option Path) (sh : Bool) (w o : List (Path × Ex)), sizeOf l ≤ n → sizeOf l ≤ N → l.run (.arr k e) p cur = some w →
    l.Tame (.arr k e) cur sh → (l.des = [] → cur = some [i]) → (∀ j, cur = some [j] → c ≤ j) →
    ∃ tr, Ev fun f => arrayLoop f k e p true i c ⟨l.toks ++ .rb :: rest, none, o⟩ = .ok (fin rest (.stop tr) (o ++ w)) := by
  intro n
  induction n with
  | zero => intro l i c cur sh w o hn; cases l <;> simp at hn
  | succ n ih =>
    intro l i c cur sh w o hn hN hr hT hcur hcc
    obtain ⟨m, v, cc, hv, hnil, hcons, R', o1, o2, cur', he, hw, hr', hT', hsz, hcur', _⟩ := first hb hto (o := o) (rest := rest) hN hr hT hcur
    have hve : v = e := by
      simp only [T.child] at hv
      split at hv
      · cases hv; rfl
      · cases hv
    subst hve
    have hnx := next_child (t := .arr k v) (c := []) rfl hv
    have hcm : c ≤ m := by
      cases hd : l.des with
      | nil =>
        obtain ⟨rfl, _⟩ := hnil hd
        exact hcc _ (hcur hd)
      | cons d ds =>
        have hs := hcons d ds hd
        have hA := ((Items.tame_eq l _ _ _).1 hT).1
        rw [hd] at hA
        cases d with
        | field a => cases hs
        | index a =>
          simp only [T.select] at hs
          obtain ⟨_, _, rfl⟩ := Option.map_eq_some_iff.1 hs
          obtain ⟨⟨j, hj, hja⟩, _⟩ := hA
          have := hcc j hj
          omega
    have hmax : max c (m + 1) = m + 1 := by omega
    have hstep : ∀ f, member f v (p ++ [m]) ⟨l.body rest, none, o⟩ = .ok (fin rest R' (o ++ o1)) →
        arrayLoop (f + 1) k v p true i c ⟨l.toks ++ .rb :: rest, none, o⟩ =
          match nextArray true k (m + 1) (R'.toks ++ .rb :: rest) with
          | some r => arrayLoop f k v p true (m + 1) (m + 1) ⟨r, none, o ++ o1⟩
          | none => .ok (fin rest R' (o ++ o1)) := by
      intro f hf
      cases hd : l.des with
      | nil =>
        obtain ⟨rfl, _⟩ := hnil hd
        rw [body_nil hd]
        rcases body_head (rest := rest) hd with ⟨e, r, hh⟩ | ⟨r, hh⟩
        all_goals
          rw [hh] at hf ⊢
          simp only [arrayLoop, hf, Res.bind, hmax]
          rfl
      | cons d ds =>
        have hs := hcons d ds hd
        cases d with
        | field a => cases hs
        | index a =>
          simp only [T.select] at hs
          obtain ⟨_, _, rfl⟩ := Option.map_eq_some_iff.1 hs
          obtain ⟨r, h1, h2⟩ := body_cons (rest := rest) hd
          rw [h1]
          simp only [D.tok, arrayLoop, h2, hf, Res.bind, hmax]
          rfl
    have hts := Items.tail_size l
    cases hR' : R' with
    | stop tr =>
      rw [hR'] at hr'
      cases hr'
      refine ⟨tr, Ev.succ (he.mono fun f hf => (hstep f hf).trans ?_)⟩
      rw [hR', nextArray_stop, hw, List.append_nil]
    | more l2 =>
      rw [hR'] at hr' hT' hsz
      have hsz : sizeOf l2 ≤ l.tail.size := hsz
      have hr2 : l2.run (.arr k v) p cur' = some o2 := hr'
      have hT2 : l2.Tame (.arr k v) cur' _ := hT'
      simp only [List.nil_append] at hnx
      have hcc' : ∀ j, cur' = some [j] → m + 1 ≤ j := by
        intro j hj
        rcases hcur' with h | ⟨_, q, hq, h⟩
        · rw [h, hnx] at hj
          split at hj
          · cases hj; exact le_rfl
          · cases hj
        · rw [h] at hj
          cases q with
          | nil => exact (hq rfl).elim
          | cons a b => simp at hj
      have hgo : nextArray true k (m + 1) (R'.toks ++ .rb :: rest) = some (l2.toks ++ .rb :: rest) ∧ (l2.des = [] → cur' = some [m + 1]) := by
        cases hd2 : l2.des with
        | nil =>
          have hc' : cur' = (T.arr k v).next [m] := by
            rcases hcur' with h | ⟨h, _⟩
            · exact h
            · rw [hR'] at h
              exact (h hd2).elim
          have hne : cur' ≠ none := by
            intro h
            rw [Items.run_eq, hd2, place, if_pos rfl, h] at hr2
            cases hr2
          rw [hnx] at hc'
          split at hc'
          · rename_i hcond
            refine ⟨?_, fun _ => hc'⟩
            have h2 := hcond.2
            simp only [T.child] at h2
            rw [hR', nextArray_nil hd2, if_neg]
            split at h2
            · omega
            · cases h2
          · exact (hne hc').elim
        | cons d ds =>
          cases d with
          | field a =>
            rw [Items.run_eq, hd2, place, if_neg (by simp)] at hr2
            simp [T.go, T.select] at hr2
          | index a => exact ⟨by rw [hR', nextArray_index hd2]; rfl, fun h => by cases h⟩
      obtain ⟨hg2, hg3⟩ := hgo
      obtain ⟨tr, he2⟩ := ih l2 (m + 1) (m + 1) cur' _ o2 (o ++ o1) (by omega) (by omega) hr2 hT2 hg3 hcc'
      refine ⟨tr, Ev.succ ((he.and he2).mono fun f hf => (hstep f hf.1).trans ?_)⟩
      rw [hg2, hw, ← List.append_assoc]
      exact hf.2

/-- A union. -/
theorem loop_union {N k : Nat} {ms : List T} (hb : HB N) (hto : (T.union k ms).Ok) {p : Path} {rest : List Tok} {l : Items} {w o : List (Path × Ex)}
    (hN : sizeOf l ≤ N) (hr : l.run (.union k ms) p (some [0]) = some w) (hT : l.Tame (.union k ms) (some [0]) false) :
    ∃ tr, Ev fun f => unionLoop f ms p true false o ⟨l.toks ++ .rb :: rest, none, o⟩ = .ok (fin rest (.stop tr) (o ++ w)) := by
  obtain ⟨m, v, c, hv, hnil, hcons, R', o1, o2, cur', he, hw, hr', hT', hsz, hcur', _⟩ := first hb hto (o := o) (rest := rest) hN hr hT (fun _ => rfl)
  have hv' : ms[m]? = some v := hv
  have hnx := next_child (t := .union k ms) (c := []) rfl hv
  have hstep : ∀ f, member f v (p ++ [m]) ⟨l.body rest, none, o⟩ = .ok (fin rest R' (o ++ o1)) →
      unionLoop (f + 1) ms p true false o ⟨l.toks ++ .rb :: rest, none, o⟩ =
        match nextElement true (R'.toks ++ .rb :: rest) with
        | some r => unionLoop f ms p true true o ⟨r, none, o ++ o1⟩
        | none => .ok (fin rest R' (o ++ o1)) := by
    intro f hf
    cases hd : l.des with
    | nil =>
      obtain ⟨rfl, _⟩ := hnil hd
      rw [body_nil hd]
      rcases body_head (rest := rest) hd with ⟨e, r, hh⟩ | ⟨r, hh⟩
      all_goals
        rw [hh] at hf ⊢
        simp only [unionLoop, hv', hf, Res.bind, Bool.false_eq_true, if_false]
        rfl
    | cons d ds =>
      have hs := hcons d ds hd
      cases d with
      | index a => cases hs
      | field a =>
        simp only [T.select] at hs
        obtain ⟨_, _, rfl⟩ := Option.map_eq_some_iff.1 hs
        obtain ⟨r, h1, h2⟩ := body_cons (rest := rest) hd
        rw [h1]
        simp only [D.tok, unionLoop, hv', h2, hf, Res.bind]
        rfl
  cases hR' : R' with
  | stop tr =>
    rw [hR'] at hr'
    cases hr'
    refine ⟨tr, Ev.succ (he.mono fun f hf => (hstep f hf).trans ?_)⟩
    rw [hR', nextElement_stop, hw, List.append_nil]
  | more l2 =>
    exfalso
    rw [hR'] at hr' hT'
    have hr2 : l2.run (.union k ms) p cur' = some o2 := hr'
    have hT2 : l2.Tame (.union k ms) cur' _ := hT'
    cases hd2 : l2.des with
    | nil =>
      have hc' : cur' = (T.union k ms).next [m] := by
        rcases hcur' with h | ⟨h, _⟩
        · exact h
        · rw [hR'] at h
          exact (h hd2).elim
      simp only [List.nil_append] at hnx
      rw [hnx, if_neg (by simp [T.isUnion])] at hc'
      rw [Items.run_eq, hd2, place, if_pos rfl, hc'] at hr2
      cases hr2
    | cons d ds =>
      cases d with
      | index a =>
        rw [Items.run_eq, hd2, place, if_neg (by simp)] at hr2
        simp [T.go, T.select] at hr2
      | field a =>
        have hA := ((Items.tame_eq l2 _ _ _).1 hT2).1
        rw [hd2] at hA
        cases hA.1

end Verif.Brace
