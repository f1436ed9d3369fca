import Verif.Brace.Loops

/-!
# All lists
-/

namespace Verif.Brace

set_option linter.unusedSimpArgs false

theorem good_tame {t : T} (ht : t.isScalar = false) {l : Items} (h : l.Good t) : l.Tame t (some [0]) false := by
  cases l with
  | one d i tr =>
    simp only [Items.Good] at h
    simp only [Items.Tame]
    exact h.2 ht
  | cons d i r => exact h

theorem fill_run {t : T} (ht : t.isScalar = false) {p : Path} {l : Items} (h : ∀ e tr, l = .one [] (.ex e) tr → t.whole e = false) :
    l.fill t p = l.run t p (some [0]) := by
  cases l with
  | cons d i r => rw [Items.fill, Items.run, ht]; rfl
  | one d i tr =>
    cases d with
    | cons d ds => rw [Items.fill, Items.run, ht]; rfl; simp
    | nil =>
      cases i with
      | ex e => rw [Items.fill, h e tr rfl, Items.run]; rfl
      | list l => rw [Items.fill, Items.run, ht]; rfl; simp

theorem close_stop {tr : Bool} {rest : List Tok} {o : List (Path × Ex)} : close (fin rest (.stop tr) o) = .ok ⟨rest, none, o⟩ := by
  cases tr <;> simp [fin, Tail.toks, close]

/-- Reading the first expression ahead. -/
theorem readFirst_items {l : Items} {rest : List Tok} {o : List (Path × Ex)} : readFirst ⟨l.toks ++ .rb :: rest, none, o⟩ =
    match l.des, l.init with
    | [], .ex e => .ok ⟨l.tail.toks ++ .rb :: rest, some e, o⟩
    | _, _ => .ok ⟨l.toks ++ .rb :: rest, none, o⟩ := by
  cases hd : l.des with
  | nil =>
    rw [des_nil hd]
    cases hi : l.init <;> simp [I.toks, readFirst, readElement]
  | cons d ds =>
    obtain ⟨r, h, _⟩ := body_cons (rest := rest) hd
    rw [h]
    cases d <;> simp [D.tok, readFirst]

theorem agg_ev {P : Nat → Res} {Q : Nat → Res} {r : Res} (h : Ev fun f => P f = r) (hq : ∀ f, Q (f + 1) = P f) : Ev fun f => Q f = r :=
  Ev.succ (h.mono fun f hf => (hq f).trans hf)

theorem close_ev {P : Nat → Res} {rest : List Tok} {o : List (Path × Ex)} (h : ∃ tr, Ev fun f => P f = .ok (fin rest (.stop tr) o)) :
    Ev fun f => (P f).bind close = .ok ⟨rest, none, o⟩ := by
  obtain ⟨tr, h⟩ := h
  refine h.mono fun f hf => ?_
  rw [hf]
  exact close_stop

/-- The expression that is read first is for an element. -/
theorem not_takes {k : Nat} {u : T} {ms : List T} (hu : u = .struct k ms ∨ u = .union k ms) (hk : ∀ v ∈ ms, ∀ a, v.reach (.record k a) = none) {p : Path} {e : Ex}
    {x : List (Path × Ex)} (h : (I.ex e).run u p [0] = some x) : u.takes e = false := by
  by_contra hc
  have hc : u.takes e = true := by simpa using hc
  have hch : u.at [0] = ms[0]? := by
    rcases hu with rfl | rfl <;> simp only [T.at, T.child] <;> cases ms[0]? <;> rfl
  have he : ∃ a, e = .record k a := by
    rcases hu with rfl | rfl <;> cases e <;> simp [T.takes] at hc <;> exact ⟨_, by rw [hc]⟩
  obtain ⟨a, rfl⟩ := he
  simp only [I.run, hch] at h
  cases hm : ms[0]? with
  | none => rw [hm] at h; cases h
  | some v =>
    rw [hm] at h
    simp only [Option.bind_some, hk v (List.mem_of_getElem? hm) a] at h
    cases h

theorem run_first {l : Items} {t : T} {p : Path} {w : List (Path × Ex)} {e : Ex} (h : l.run t p (some [0]) = some w) (hd : l.des = []) (hi : l.init = .ex e) :
    ∃ x, (I.ex e).run t p [0] = some x := by
  rw [Items.run_eq, hd, place, if_pos rfl, hi, Option.bind_some] at h
  obtain ⟨x, hx, _⟩ := Option.bind_eq_some_iff.1 h
  exact ⟨x, hx⟩

theorem lists (N : Nat) : HB N := by
  induction N with
  | zero => intro l u p w rest o h; exact absurd h (by omega)
  | succ N ih =>
    intro l u p w rest o hl hu hs hf hg
    have hT := good_tame hs hg
    have hN : sizeOf l ≤ N := by omega
    cases hu' : u with
    | scalar => rw [hu'] at hs; cases hs
    | struct k ms =>
      subst hu'
      rw [fill_run hs (fun _ _ _ => rfl)] at hf
      refine close_ev ?_
      obtain ⟨tr, h⟩ := loop_struct ih hu (rest := rest) _ l 0 _ false w o le_rfl hN hf hT (fun _ => rfl)
      refine ⟨tr, agg_ev h fun f => ?_⟩
      simp only [agg, record]
      rw [readFirst_items]
      cases hu with
      | struct h1 h2 h3 hk =>
        cases hd : l.des with
        | cons d ds => simp [Res.bind]
        | nil =>
          cases hi : l.init with
          | list l' => simp [Res.bind]
          | ex e =>
            obtain ⟨x, hx⟩ := run_first hf hd hi
            simp only [Res.bind, Option.map_some, not_takes (.inl rfl) hk hx]
            rw [des_nil hd, hi, List.append_assoc]
            simp only [I.toks, List.cons_append, List.nil_append]
            exact structLoop_read.symm
    | union k ms =>
      subst hu'
      rw [fill_run hs (fun _ _ _ => rfl)] at hf
      refine close_ev ?_
      obtain ⟨tr, h⟩ := loop_union ih hu (rest := rest) (o := o) hN hf hT
      refine ⟨tr, agg_ev h fun f => ?_⟩
      simp only [agg, record]
      rw [readFirst_items]
      cases hu with
      | union h1 h2 h3 hk =>
        cases hd : l.des with
        | cons d ds => simp [Res.bind]
        | nil =>
          cases hi : l.init with
          | list l' => simp [Res.bind]
          | ex e =>
            obtain ⟨x, hx⟩ := run_first hf hd hi
            simp only [Res.bind, Option.map_some, not_takes (.inr rfl) hk hx]
            rw [des_nil hd, hi, List.append_assoc]
            simp only [I.toks, List.cons_append, List.nil_append]
            exact (unionLoop_read rfl tail_dot).symm
    | arr n v =>
      subst hu'
      by_cases hw : ∃ e tr, l = .one [] (.ex e) tr ∧ (T.arr n v).whole e = true
      · obtain ⟨e, tr, rfl, hw⟩ := hw
        rw [Items.fill, if_pos hw] at hf
        cases hf
        refine close_ev ⟨tr, Ev.succ (Ev.all fun f => ?_)⟩
        have hw : (T.arr n v).takes e = true := hw
        simp only [agg, array]
        rw [readFirst_items]
        simp [Items.des, Items.init, Items.tail, Res.bind, hw, assign, fin]
      · have hno : ∀ e tr, l = .one [] (.ex e) tr → (T.arr n v).whole e = false := by
          intro e tr h
          by_contra hc
          exact hw ⟨e, tr, h, by simpa using hc⟩
        rw [fill_run hs hno] at hf
        refine close_ev ?_
        obtain ⟨tr, h⟩ := loop_array ih hu (rest := rest) _ l 0 0 _ false w o le_rfl hN hf hT (fun _ => rfl) (fun j _ => by omega)
        refine ⟨tr, agg_ev h fun f => ?_⟩
        simp only [agg, array]
        rw [readFirst_items]
        cases hd : l.des with
        | cons d ds => simp [Res.bind]
        | nil =>
          cases hi : l.init with
          | list l' => simp [Res.bind]
          | ex e =>
            obtain ⟨x, hx⟩ := run_first hf hd hi
            have hnt : (T.arr n v).takes e = false := by
              by_contra hc
              have hc : (T.arr n v).takes e = true := by simpa using hc
              cases v with
              | scalar ch =>
                cases e with
                | string a =>
                  have : ch = true := hc
                  subst this
                  simp only [I.run, T.at, T.child] at hx
                  split at hx
                  · simp [T.at, T.reach, T.takes] at hx
                  · simp at hx
                | scalar => simp [T.takes] at hc
                | record => simp [T.takes] at hc
              | arr => simp [T.takes] at hc
              | struct => simp [T.takes] at hc
              | union => simp [T.takes] at hc
            simp only [Res.bind, Option.map_some, hnt]
            rw [des_nil hd, hi, List.append_assoc]
            simp only [I.toks, List.cons_append, List.nil_append]
            exact (arrayLoop_read tail_idx).symm

/-! ### What is assigned are elements -/

theorem reach_at : ∀ {u : T} {e : Ex} {q : Path}, u.reach e = some q → ∃ v, u.at q = some v ∧ v.takes e = true := by
  intro u e
  induction u, e using T.reach.induct with
  | case1 c e h => intro q hq; rw [T.reach, if_pos h] at hq; cases hq; exact ⟨_, rfl, h⟩
  | case2 c e h => intro q hq; rw [T.reach, if_neg h] at hq; cases hq
  | case3 n t e h => intro q hq; rw [T.reach, if_pos h] at hq; cases hq; exact ⟨_, rfl, h⟩
  | case4 n t e h ih =>
    intro q hq
    rw [T.reach, if_neg h] at hq
    obtain ⟨q', hq', rfl⟩ := Option.map_eq_some_iff.1 hq
    obtain ⟨v, hv, ht⟩ := ih hq'
    refine ⟨v, ?_, ht⟩
    simp only [T.at, T.child]
    rw [if_pos (by omega)]
    exact hv
  | case5 k e h => intro q hq; rw [T.reach, if_pos h] at hq; cases hq; exact ⟨_, rfl, h⟩
  | case6 k e h => intro q hq; rw [T.reach, if_neg h] at hq; cases hq
  | case7 k t r e h => intro q hq; rw [T.reach, if_pos h] at hq; cases hq; exact ⟨_, rfl, h⟩
  | case8 k t r e h ih =>
    intro q hq
    rw [T.reach, if_neg h] at hq
    obtain ⟨q', hq', rfl⟩ := Option.map_eq_some_iff.1 hq
    obtain ⟨v, hv, ht⟩ := ih hq'
    exact ⟨v, hv, ht⟩
  | case9 k e h => intro q hq; rw [T.reach, if_pos h] at hq; cases hq; exact ⟨_, rfl, h⟩
  | case10 k e h => intro q hq; rw [T.reach, if_neg h] at hq; cases hq
  | case11 k t r e h => intro q hq; rw [T.reach, if_pos h] at hq; cases hq; exact ⟨_, rfl, h⟩
  | case12 k t r e h ih =>
    intro q hq
    rw [T.reach, if_neg h] at hq
    obtain ⟨q', hq', rfl⟩ := Option.map_eq_some_iff.1 hq
    obtain ⟨v, hv, ht⟩ := ih hq'
    exact ⟨v, hv, ht⟩

/-- All of `w` is for elements of the object at `p` that can be assigned the value. -/
def Typed (t : T) (p : Path) (w : List (Path × Ex)) : Prop := ∀ x ∈ w, ∃ q v, x.1 = p ++ q ∧ t.at q = some v ∧ v.takes x.2 = true

theorem Typed.append {t : T} {p : Path} {v w : List (Path × Ex)} (h : Typed t p v) (g : Typed t p w) : Typed t p (v ++ w) := by
  intro x hx
  rcases List.mem_append.1 hx with h' | h'
  · exact h x h'
  · exact g x h'

theorem Typed.inside {t u : T} {p c : Path} {w : List (Path × Ex)} (hc : t.at c = some u) (h : Typed u (p ++ c) w) : Typed t p w := by
  intro x hx
  obtain ⟨q, v, h1, h2, h3⟩ := h x hx
  exact ⟨c ++ q, v, by rw [h1, List.append_assoc], by rw [at_append, hc]; exact h2, h3⟩

mutual
theorem I.typed (i : I) {t : T} {p c : Path} {w : List (Path × Ex)} (h : i.run t p c = some w) : Typed t p w := by
  cases i with
  | ex e =>
    simp only [I.run] at h
    obtain ⟨u, hu, h⟩ := Option.bind_eq_some_iff.1 h
    obtain ⟨q, hq, rfl⟩ := Option.map_eq_some_iff.1 h
    obtain ⟨v, hv, ht⟩ := reach_at hq
    intro x hx
    cases List.mem_singleton.1 hx
    exact ⟨c ++ q, v, List.append_assoc .., by rw [at_append, hu]; exact hv, ht⟩
  | list l =>
    simp only [I.run] at h
    obtain ⟨u, hu, h⟩ := Option.bind_eq_some_iff.1 h
    exact (Items.typed_fill l h).inside hu

theorem Items.typed_fill (l : Items) {t : T} {p : Path} {w : List (Path × Ex)} (h : l.fill t p = some w) : Typed t p w := by
  by_cases hw : ∃ e tr, l = .one [] (.ex e) tr ∧ t.whole e = true
  · obtain ⟨e, tr, rfl, hw⟩ := hw
    rw [Items.fill, if_pos hw] at h
    cases h
    have ht : t.takes e = true := by
      cases t <;> simp only [T.whole] at hw <;> first | exact hw | cases hw
    intro x hx
    cases List.mem_singleton.1 hx
    exact ⟨[], t, by simp, rfl, ht⟩
  · cases hs : t.isScalar with
    | true =>
      exfalso
      cases t <;> simp only [T.isScalar] at hs <;> first | (cases hs) | skip
      cases l with
      | cons d i r => simp [Items.fill, T.isScalar] at h
      | one d i tr =>
        cases d with
        | cons d ds => simp [Items.fill, T.isScalar] at h
        | nil =>
          cases i with
          | list l => simp [Items.fill, T.isScalar] at h
          | ex e =>
            rw [Items.fill, if_neg (fun hc => hw ⟨e, tr, rfl, hc⟩)] at h
            simp [I.run, T.at, T.child] at h
    | false =>
      rw [fill_run hs] at h
      · exact Items.typed l h
      · intro e tr he
        by_contra hc
        exact hw ⟨e, tr, he, by simpa using hc⟩

theorem Items.typed (l : Items) {t : T} {p : Path} {cur : Option Path} {w : List (Path × Ex)} (h : l.run t p cur = some w) : Typed t p w := by
  cases l with
  | one d i tr =>
    rw [Items.run] at h
    obtain ⟨c, hc, h⟩ := Option.bind_eq_some_iff.1 h
    exact I.typed i h
  | cons d i r =>
    rw [Items.run] at h
    obtain ⟨c, hc, h⟩ := Option.bind_eq_some_iff.1 h
    obtain ⟨x, hx, h⟩ := Option.bind_eq_some_iff.1 h
    obtain ⟨y, hy, rfl⟩ := Option.map_eq_some_iff.1 h
    exact (I.typed i hx).append (Items.typed r hy)
end

end Verif.Brace
