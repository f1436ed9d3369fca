import Verif.Opt.Skip

/-!
# The optimiser as a whole
-/

namespace Verif.Opt

section

variable {E : Env} (S : Sem E) (hE : EnvOk E)

theorem serialize_all {P : Prog} {N : Nat} (h : GraphOk P N) :
    Closed P (serialize P (N + 1) 0 []) ∧ 0 ∈ serialize P (N + 1) 0 []
      ∧ (serialize P (N + 1) 0 []).Nodup ∧ ∀ v ∈ serialize P (N + 1) 0 [], v < N := by
  obtain ⟨g, g0⟩ := serialize_ok h.lt (N + 1) 0 [] List.nodup_nil (by simp) h.pos (by simp)
  refine ⟨fun n hn => ?_, g0, g.nodup, g.lt⟩
  obtain ⟨a, b⟩ := g.succ n hn (by simp)
  exact ⟨a, fun y hy => b y (h.both n (by rw [hy]; rfl)) hy⟩

theorem sameCode_init (P : Prog) : SameCode P (initDataflow P) := fun n => by
  refine ⟨rfl, rfl, rfl, rfl, ?_⟩
  show (P n).code.map erase = ((P n).code.map fun s => { s with out := 0 }).map erase
  rw [List.map_map]
  rfl

include hE in
theorem optimize_ok (hS : Confined S) {P Q : Prog} {N fuel : Nat} (hok : ProgOk E P)
    (hg : GraphOk P N) (h : optimize E N fuel P = some Q) : Equiv S P Q := by
  obtain ⟨c1, c2, c3, -⟩ := serialize_all hg
  unfold optimize at h
  simp only at h
  cases hs : skipAll fuel (serialize P (N + 1) 0 []) P with
  | none => rw [hs] at h; cases h
  | some R =>
    rw [hs] at h
    have k := skipAll_ok (E := E) _ P R (fun _ h => h) c1 hs
    have hi := sameCode_init R
    refine Equiv.trans S (k.equiv S) (Equiv.trans S (equiv_same S hi) ?_)
    exact optLoop_ok S hE hS c2 c3 _ _ _ (progOk_same hi (k.ok hok))
      (closed_congr (fun n => ⟨(hi n).1, (hi n).2.1⟩) k.closed) h

include hE in
theorem optimize_some {P : Prog} {N : Nat} (hok : ProgOk E P) (hg : GraphOk P N)
    (hr : NoEmptyCycle P N) : ∃ fuel Q, optimize E N fuel P = some Q := by
  obtain ⟨rank, r1, r2⟩ := hr
  obtain ⟨c1, c2, c3, -⟩ := serialize_all hg
  generalize hb : serialize P (N + 1) 0 [] = bl at c1 c2 c3
  have key : ∀ fuel, N ≤ fuel → bl.length * 2 ^ 64 < fuel → total bl P < fuel →
      ∃ Q, optimize E N fuel P = some Q := by
    intro fuel f1 f2 f3
    obtain ⟨R, hR⟩ := skipAll_some (rank := rank) (N := fuel)
      (fun n => Nat.lt_of_lt_of_le (r1 n) f1) bl P r2
    have k := skipAll_ok (E := E) bl P R (fun _ h => h) c1 hR
    have hi := sameCode_init R
    have ht : total bl (initDataflow R) = total bl P := by
      rw [← total_same hi]
      unfold total
      simp only [k.code]
    obtain ⟨Q, hQ⟩ := optLoop_some hE c2 c3 f2 fuel (initDataflow R) up
      (progOk_same hi (k.ok hok)) (closed_congr (fun n => ⟨(hi n).1, (hi n).2.1⟩) k.closed)
      moving_init (by rw [ht]; exact f3)
    refine ⟨Q, ?_⟩
    unfold optimize
    simp only [hb, hR]
    exact hQ
  obtain ⟨Q, hQ⟩ := key (N + bl.length * 2 ^ 64 + total bl P + 1) (by omega) (by omega) (by omega)
  exact ⟨_, Q, hQ⟩

theorem agree_of_alike {L : Live} {x x' : State} (h : AlikeOn E L x x') : Agree E L x x' :=
  ⟨by rw [h.1, h.2.1], by rw [h.1]; rintro ⟨a, ha, -⟩; (cases ha), fun o i a b => h.2.2 o i b a⟩

theorem outcome_of_rel {X : Nat → Live} {bl : List Nat} {a b : Next} (h : NextRel E X bl a b) :
    SameOutcome E a b := by
  cases a <;> cases b
  · exact h.1
  · exact h.elim
  · exact h.elim
  · exact h

theorem params_tail {s : Stmt} {e : Expr} (hs : s.st ≠ .param) : ∀ (pre : List Stmt) (p : Bool)
    (post : List Stmt), ParamsOk p (pre ++ s :: post) e → ParamsOk false post e
  | [], p, post, h => by
    have h' : ParamsOk p (s :: post) e := h
    unfold ParamsOk at h'
    rw [if_neg hs] at h'
    exact h'.2
  | a :: pre, p, post, h => by
    have h' : ParamsOk p (a :: (pre ++ s :: post)) e := h
    unfold ParamsOk at h'
    split at h'
    · exact params_tail hs pre _ post h'.2
    · exact params_tail hs pre _ post h'.2

theorem ann_split {E : Env} {s : Stmt} {o : Live} : ∀ (pre post : List Stmt),
    Ann E (pre ++ s :: post) o → Sub (flow E post o) s.out
  | [], _, h => h.1
  | _ :: pre, post, h => ann_split pre post h.2

include hE in
theorem run_live (hS : Confined S) {P Q : Prog} {bl : List Nat} {fuel : Nat} (hok : ProgOk E P)
    (hc : Closed P bl) (h : dataflow E bl fuel P = some Q) (k n : Nat) (hn : n ∈ bl) (x x' : State)
    (ha : Agree E (Q n).inn x x') (hx : x.args = []) :
    NextRel E (inns Q) bl (run S Q k n x) (run S Q k n x') := by
  obtain ⟨s1, s2⟩ := dataflow_fixed fuel P Q h
  refine run_rel S hE hS (fun n => ⟨rfl, rfl, rfl, rfl⟩) (progOk_same s1 hok)
    (closed_congr (fun n => ⟨(s1 n).1, (s1 n).2.1⟩) hc) ?_ k n x x' hn ha hx
  intro j hj y y' hag hy
  have hj2 := progOk_same s1 hok j
  have he : (Q j).inn = _ := s2.eq j hj
  unfold inns at hag
  rw [he] at hag
  exact (execs_agree S hE hS (Q j).code _ (Q j).expr false y y' hag
    (fun s hs => (hj2.1 s hs).1) hj2.2.1 (fun _ => hy)).1

include hE in
theorem resume_live (hS : Confined S) {P Q : Prog} {bl : List Nat} {fuel : Nat} (hok : ProgOk E P)
    (hc : Closed P bl) (h : dataflow E bl fuel P = some Q) (k n : Nat) (hn : n ∈ bl)
    {pre post : List Stmt} {s : Stmt} (hcode : (Q n).code = pre ++ s :: post) (hs : s.st ≠ .param)
    {x x' : State} (ha : AlikeOn E s.out x x') :
    SameOutcome E (resume S Q k n post x) (resume S Q k n post x') := by
  obtain ⟨s1, s2⟩ := dataflow_fixed fuel P Q h
  have hok' := progOk_same s1 hok n
  have hc' : Closed Q bl := closed_congr (fun n => ⟨(s1 n).1, (s1 n).2.1⟩) hc
  have hann := s2.ann n hn
  rw [hcode] at hann
  have hsub := ann_split pre post hann
  have hag0 : Agree E (flow E post (endLive E (Q n) (succLive (Q n) (inns Q)))) x x' := by
    refine agree_of_alike ⟨ha.1, ha.2.1, fun o i h1 h2 => ha.2.2 o i h1 fun q => ?_⟩
    exact hsub o (h2 q)
  have hmem : ∀ t ∈ post, WholeStore E t := fun t ht =>
    (hok'.1 t (by rw [hcode]; exact List.mem_append_right _ (List.mem_cons_of_mem _ ht))).1
  have hp1 := hok'.2.1
  rw [hcode] at hp1
  have g1 := execs_agree S hE hS post _ (Q n).expr false x x' hag0 hmem
    (params_tail hs pre false post hp1) (fun _ => ha.1)
  have hl := leave_rel S hE hS (X := inns Q) (bl := bl) (b := Q n) (b' := Q n) rfl rfl rfl rfl g1.1
    g1.2
    (by
      intro hne
      have hp2 := hok'.2.2 hne { (Q n).expr with op := .cast } (by simp)
      rw [hcode] at hp2
      exact (execs_agree S hE hS post _ _ false x x' hag0 hmem
        (params_tail hs pre false post hp2) (fun _ => ha.1)).2 (by simp))
    (hc' n hn).1 (hc' n hn).2
  unfold resume
  revert hl
  cases leave S (Q n) (execs S post x) with
  | goto a y =>
    cases leave S (Q n) (execs S post x') with
    | goto a' y' =>
      rintro ⟨rfl, h2, h3, h4⟩
      exact outcome_of_rel (run_live S hE hS hok hc h k a h2 y y' h3 h4)
    | done => intro q; exact q.elim
  | done v m =>
    cases leave S (Q n) (execs S post x') with
    | goto => intro q; exact q.elim
    | done v' m' => intro q; exact q

end

end Verif.Opt
