import Verif.Opt.Solve

/-!
# The function as a whole
-/

namespace Verif.Opt

open Verif (Bytes)

/-- Same edges and same expressions at the end of blocks. -/
def SameGraph (P Q : Prog) : Prop :=
  ∀ n, (P n).j0 = (Q n).j0 ∧ (P n).j1 = (Q n).j1
    ∧ (P n).hasReturnValue = (Q n).hasReturnValue ∧ (P n).expr = (Q n).expr

def NextRel (E : Env) (X : Nat → Live) (bl : List Nat) : Next → Next → Prop
  | .goto n x, .goto n' x' => n = n' ∧ n ∈ bl ∧ Agree E (X n) x x' ∧ x.args = []
  | .done v m, .done v' m' => v = v' ∧ Same E (Outside E) m m'
  | _, _ => False

section

variable {E : Env} (S : Sem E) (hE : EnvOk E)

include hE in
theorem leave_rel (hS : Confined S) {X : Nat → Live} {bl : List Nat} {b b' : Block}
    (h0 : b.j0 = b'.j0) (h1 : b.j1 = b'.j1) (h2 : b.hasReturnValue = b'.hasReturnValue)
    (h3 : b.expr = b'.expr) {x x' : State}
    (h : Agree E (endLive E b (succLive b X)) x x')
    (ha : b.expr.op ≠ .call → x.args = []) (hb : ¬ b.evaluates → x.args = [])
    (hc0 : ∀ a, b.j0 = some a → a ∈ bl) (hc1 : ∀ a, b.j1 = some a → a ∈ bl) :
    NextRel E X bl (leave S b x) (leave S b' x') := by
  have hva : b.expr.op = .vaArg → x.args = [] := fun q => ha (by rw [q]; decide)
  unfold leave
  rw [← h0, ← h1, ← h2, ← h3]
  cases hj0 : b.j0 with
  | none =>
    simp only
    cases hr : b.hasReturnValue with
    | true =>
      have hu : Sub (use E b.expr) (endLive E b (succLive b X)) := by
        unfold endLive
        rw [if_pos (Or.inr hr)]
        exact Sub.or_right
      obtain ⟨g1, g2, -⟩ := evalE_agree S hE hS h hu hva
      simp only [if_true]
      exact ⟨by rw [g1], g2.outside⟩
    | false =>
      simp only [Bool.false_eq_true, if_false]
      exact ⟨rfl, h.outside⟩
  | some a =>
    cases hj1 : b.j1 with
    | none =>
      simp only
      have hne : ¬ b.evaluates := by
        rintro (⟨q, -⟩ | ⟨-, q⟩)
        · rw [hj0] at q; cases q
        · rw [hj1] at q; cases q
      refine ⟨rfl, hc0 a hj0, h.mono ?_, hb hne⟩
      unfold endLive succLive
      rw [hj0, hj1]
      simp only
      split
      · exact Sub.or_left
      · exact Sub.refl _
    | some c =>
      have e1 : endLive E b (succLive b X) = (X a ||| X c) ||| use E b.expr := by
        unfold endLive succLive
        rw [hj0, hj1]
        simp
      rw [e1] at h
      obtain ⟨g1, g2, g3, g4, g5⟩ := evalE_agree S hE hS h Sub.or_right hva
      have hargs : (evalE S b.expr x).1.args = [] := by
        by_cases hc : b.expr.op = .call
        · exact g4 hc
        · rw [g5 hc]; exact ha hc
      simp only [← g1]
      cases S.truth (evalE S b.expr x).2 with
      | true => exact ⟨rfl, hc1 c hj1, g2.mono (Sub.or_right.trans Sub.or_left), hargs⟩
      | false => exact ⟨rfl, hc0 a hj0, g2.mono (Sub.or_left.trans Sub.or_left), hargs⟩

theorem args_after (hE : EnvOk E) (hS : Confined S) {b : Block} (hb : BlockOk E b) {x : State}
    (hx : x.args = []) :
    (b.expr.op ≠ .call → (execs S b.code x).args = [])
      ∧ (¬ b.evaluates → (execs S b.code x).args = []) := by
  have hw : ∀ s ∈ b.code, WholeStore E s := fun s hs => (hb.1 s hs).1
  constructor
  · exact (execs_agree S hE hS b.code 0 b.expr false x x (Agree.refl _ x) hw hb.2.1
      (fun _ => hx)).2
  · intro hne
    exact (execs_agree S hE hS b.code 0 { b.expr with op := .cast } false x x (Agree.refl _ x) hw
      (hb.2.2 hne _ (by simp)) (fun _ => hx)).2 (by simp)

include hE in
/-- Two programs with the same edges run in step if each block keeps agreement on
what is live. -/
theorem run_rel (hS : Confined S) {X : Nat → Live} {bl : List Nat} {P P' : Prog}
    (hg : SameGraph P P') (hok : ProgOk E P) (hc : Closed P bl)
    (H : ∀ n ∈ bl, ∀ x x', Agree E (X n) x x' → x.args = [] →
      Agree E (endLive E (P n) (succLive (P n) X)) (execs S (P n).code x)
        (execs S (P' n).code x')) :
    ∀ (k n : Nat) (x x' : State), n ∈ bl → Agree E (X n) x x' → x.args = [] →
      NextRel E X bl (run S P k n x) (run S P' k n x')
  | 0, n, x, x', hn, h, ha => ⟨rfl, hn, h, ha⟩
  | k + 1, n, x, x', hn, h, ha => by
    obtain ⟨g0, g1, g2, g3⟩ := hg n
    obtain ⟨b1, b2⟩ := args_after S hE hS (hok n) ha
    have hl := leave_rel S hE hS (X := X) (bl := bl) g0 g1 g2 g3 (H n hn x x' h ha) b1 b2
      (hc n hn).1 (hc n hn).2
    have e1 : stepBlock S P n x = leave S (P n) (execs S (P n).code x) := rfl
    have e2 : stepBlock S P' n x' = leave S (P' n) (execs S (P' n).code x') := rfl
    unfold run
    rw [e1, e2]
    revert hl
    cases leave S (P n) (execs S (P n).code x) with
    | goto m y =>
      cases leave S (P' n) (execs S (P' n).code x') with
      | goto m' y' =>
        rintro ⟨rfl, q1, q2, q3⟩
        exact run_rel hS hg hok hc H k m y y' q1 q2 q3
      | done => intro q; exact q.elim
    | done v m =>
      cases leave S (P' n) (execs S (P' n).code x') with
      | goto => intro q; exact q.elim
      | done => intro q; exact q

theorem equiv_of_rel {X : Nat → Live} {bl : List Nat} {P P' : Prog}
    (h : ∀ k m, NextRel E X bl (run S P k 0 ⟨m, []⟩) (run S P' k 0 ⟨m, []⟩)) :
    Equiv S P P' := by
  intro m v
  constructor
  · rintro m' ⟨k, hk⟩
    have := h k m
    rw [hk] at this
    cases hr : run S P' k 0 ⟨m, []⟩ with
    | goto => rw [hr] at this; exact this.elim
    | done v' m'' =>
      rw [hr] at this
      obtain ⟨rfl, q⟩ := this
      exact ⟨m'', ⟨k, hr⟩, q⟩
  · rintro m' ⟨k, hk⟩
    have := h k m
    rw [hk] at this
    cases hr : run S P k 0 ⟨m, []⟩ with
    | goto => rw [hr] at this; exact this.elim
    | done v' m'' =>
      rw [hr] at this
      obtain ⟨rfl, q⟩ := this
      exact ⟨m'', ⟨k, hr⟩, fun o i a b => (q o i a b).symm⟩

theorem Equiv.refl (P : Prog) : Equiv S P P :=
  fun _ _ => ⟨fun m' h => ⟨m', h, fun _ _ _ _ => rfl⟩, fun m' h => ⟨m', h, fun _ _ _ _ => rfl⟩⟩

theorem Equiv.trans {P Q R : Prog} (h : Equiv S P Q) (g : Equiv S Q R) : Equiv S P R := by
  intro m v
  constructor
  · intro m' hm
    obtain ⟨m1, a, b⟩ := (h m v).1 m' hm
    obtain ⟨m2, c, d⟩ := (g m v).1 m1 a
    exact ⟨m2, c, fun o i x y => (b o i x y).trans (d o i x y)⟩
  · intro m' hm
    obtain ⟨m1, a, b⟩ := (g m v).2 m' hm
    obtain ⟨m2, c, d⟩ := (h m v).2 m1 a
    exact ⟨m2, c, fun o i x y => (b o i x y).trans (d o i x y)⟩

/-! ## Annotations do not matter -/

theorem execs_erase : ∀ (l : List Stmt) (x : State), execs S (l.map erase) x = execs S l x
  | [], _ => rfl
  | s :: r, x => by
    show execs S (r.map erase) (exec S (erase s) x) = execs S r (exec S s x)
    rw [execs_erase r]; rfl

theorem step_same {P Q : Prog} (h : SameCode P Q) (n : Nat) (x : State) :
    stepBlock S P n x = stepBlock S Q n x := by
  obtain ⟨h0, h1, h2, h3, h4⟩ := h n
  unfold stepBlock leave
  rw [h0, h1, h2, h3, ← execs_erase S (P n).code, h4, execs_erase]

theorem run_same {P Q : Prog} (h : SameCode P Q) : ∀ (k n : Nat) (x : State),
    run S P k n x = run S Q k n x
  | 0, _, _ => rfl
  | k + 1, n, x => by
    unfold run
    rw [step_same S h]
    cases stepBlock S Q n x with
    | goto => exact run_same h k _ _
    | done => rfl

theorem equiv_same {P Q : Prog} (h : SameCode P Q) : Equiv S P Q := by
  have : ∀ m v m', Returns S P m v m' ↔ Returns S Q m v m' := by
    intro m v m'
    unfold Returns
    simp only [run_same S h]
  intro m v
  exact ⟨fun m' q => ⟨m', (this m v m').1 q, fun _ _ _ _ => rfl⟩,
    fun m' q => ⟨m', (this m v m').2 q, fun _ _ _ _ => rfl⟩⟩

theorem stmtOk_erase {s : Stmt} : StmtOk E (erase s) ↔ StmtOk E s := Iff.rfl

theorem paramsOk_erase : ∀ (l : List Stmt) (p : Bool) (e : Expr),
    ParamsOk p (l.map erase) e ↔ ParamsOk p l e
  | [], _, _ => Iff.rfl
  | s :: r, p, e => by
    show ParamsOk p (erase s :: r.map erase) e ↔ _
    unfold ParamsOk
    have e1 : (erase s).st = s.st := rfl
    have e2 : (erase s).expr = s.expr := rfl
    rw [e1, e2, paramsOk_erase r, paramsOk_erase r]

theorem blockOk_congr {b b' : Block} (h0 : b.j0.isSome = b'.j0.isSome)
    (h1 : b.j1.isSome = b'.j1.isSome)
    (h2 : b.hasReturnValue = b'.hasReturnValue) (h3 : b.expr = b'.expr)
    (hc : b.code.map erase = b'.code.map erase) (h : BlockOk E b) : BlockOk E b' := by
  obtain ⟨a1, a2, a3⟩ := h
  have hev : b'.evaluates → b.evaluates := by
    rintro (⟨q1, q2⟩ | ⟨q1, q2⟩)
    · refine Or.inl ⟨?_, h2.trans q2⟩
      rw [q1] at h0
      cases hb : b.j0 with
      | none => rfl
      | some => rw [hb] at h0; cases h0
    · exact Or.inr ⟨by rw [h0]; exact q1, by rw [h1]; exact q2⟩
  refine ⟨?_, ?_, ?_⟩
  · intro s hs
    have : erase s ∈ b.code.map erase := by
      rw [hc]; exact List.mem_map_of_mem hs
    obtain ⟨t, ht, he⟩ := List.mem_map.1 this
    have := a1 t ht
    rw [← stmtOk_erase, he] at this
    exact this
  · rw [← h3, ← paramsOk_erase, ← hc, paramsOk_erase]; exact a2
  · intro hne e he
    rw [← paramsOk_erase, ← hc, paramsOk_erase]
    exact a3 (fun q => by
      apply hne
      rcases q with ⟨q1, q2⟩ | ⟨q1, q2⟩
      · refine Or.inl ⟨?_, h2.symm.trans q2⟩
        rw [q1] at h0
        cases hb : b'.j0 with
        | none => rfl
        | some => rw [hb] at h0; cases h0
      · exact Or.inr ⟨by rw [← h0]; exact q1, by rw [← h1]; exact q2⟩) e he

theorem progOk_same {P Q : Prog} (h : SameCode P Q) (hP : ProgOk E P) : ProgOk E Q := fun n =>
  blockOk_congr (by rw [(h n).1]) (by rw [(h n).2.1]) (h n).2.2.1 (h n).2.2.2.1 (h n).2.2.2.2 (hP n)

theorem closed_congr {P Q : Prog} {bl : List Nat} (h : ∀ n, (P n).j0 = (Q n).j0 ∧ (P n).j1 = (Q n).j1)
    (hP : Closed P bl) : Closed Q bl := fun n hn =>
  ⟨fun a q => (hP n hn).1 a ((h n).1.trans q), fun a q => (hP n hn).2 a ((h n).2.trans q)⟩

/-! ## One transformation of one block -/

/-- The vector covers what the analysis would compute. -/
def Post (E : Env) (bl : List Nat) (P : Prog) : Prop :=
  ∀ n ∈ bl, Sub (F E P n (inns P)) (P n).inn

def Anns (E : Env) (bl : List Nat) (P : Prog) : Prop :=
  ∀ n ∈ bl, Ann E (P n).code (endLive E (P n) (succLive (P n) (inns P)))

abbrev endOf (E : Env) (P : Prog) (n : Nat) : Live :=
  endLive E (P n) (succLive (P n) (inns P))

/-- What a transformation of a block has to satisfy. -/
structure Good (S : Sem E) (l l' : List Stmt) (o : Live) : Prop where
  flow : Sub (flow E l' o) (flow E l o)
  stmts : (∀ s ∈ l, StmtOk E s) → ∀ s ∈ l', StmtOk E s
  params : ∀ e p, ParamsOk p l e → ParamsOk p l' e
  agree : ∀ e x x', Agree E (Opt.flow E l o) x x' → (∀ s ∈ l, StmtOk E s) → ParamsOk false l e →
    x.args = [] → Agree E o (execs S l x) (execs S l' x')

theorem onCode_self (f : List Stmt → List Stmt × Nat) (P : Prog) (n : Nat) :
    (onCode f P n).1 n = { P n with code := (f (P n).code).1 } := by
  unfold onCode; simp

theorem onCode_other (f : List Stmt → List Stmt × Nat) (P : Prog) {n k : Nat} (h : k ≠ n) :
    (onCode f P n).1 k = P k := by
  unfold onCode; simp [h]

theorem onCode_graph (f : List Stmt → List Stmt × Nat) (P : Prog) (n : Nat) :
    SameGraph P (onCode f P n).1 := by
  intro k
  by_cases h : k = n
  · subst h; rw [onCode_self]; exact ⟨rfl, rfl, rfl, rfl⟩
  · rw [onCode_other f P h]; exact ⟨rfl, rfl, rfl, rfl⟩

theorem onCode_inns (f : List Stmt → List Stmt × Nat) (P : Prog) (n : Nat) :
    inns (onCode f P n).1 = inns P := by
  funext k
  show ((onCode f P n).1 k).inn = _
  by_cases h : k = n
  · subst h; rw [onCode_self]
  · rw [onCode_other f P h]

theorem endOf_graph {P Q : Prog} (h : SameGraph P Q) (hi : inns Q = inns P) (n : Nat) :
    endOf E Q n = endOf E P n := by
  obtain ⟨h0, h1, h2, h3⟩ := h n
  unfold endOf endLive succLive
  rw [hi, h0, h1, h2, h3]

include hE in
theorem onCode_good (hS : Confined S) {bl : List Nat} {P : Prog} (hok : ProgOk E P)
    (hc : Closed P bl) (hpost : Post E bl P) (h0 : 0 ∈ bl)
    (f : List Stmt → List Stmt × Nat) {n : Nat}
    (hf : Good S (P n).code (f (P n).code).1 (endOf E P n)) :
    Equiv S P (onCode f P n).1 ∧ ProgOk E (onCode f P n).1 ∧ Closed (onCode f P n).1 bl
      ∧ Post E bl (onCode f P n).1 := by
  have hg := onCode_graph f P n
  have hi := onCode_inns f P n
  refine ⟨?_, ?_, ?_, ?_⟩
  · apply equiv_of_rel (X := inns P) (bl := bl)
    intro k m
    refine run_rel S hE hS hg hok hc ?_ k 0 _ _ h0 (Agree.refl _ _) rfl
    intro j hj x x' hag hx
    have hag' := hag.mono (hpost j hj)
    by_cases h : j = n
    · subst h
      rw [onCode_self]
      exact hf.agree (P j).expr x x' hag' (hok j).1 (hok j).2.1 hx
    · rw [onCode_other f P h]
      exact (execs_agree S hE hS (P j).code _ (P j).expr false x x' hag'
        (fun s hs => ((hok j).1 s hs).1) (hok j).2.1 (fun _ => hx)).1
  · intro j
    by_cases h : j = n
    · subst h
      rw [onCode_self]
      obtain ⟨a1, a2, a3⟩ := hok j
      exact ⟨hf.stmts a1, hf.params _ _ a2, fun hne e he => hf.params _ _ (a3 hne e he)⟩
    · rw [onCode_other f P h]; exact hok j
  · exact closed_congr (fun k => ⟨(hg k).1, (hg k).2.1⟩) hc
  · intro j hj
    unfold F
    have he := endOf_graph (E := E) hg hi j
    unfold endOf at he
    rw [he]
    have := hpost j hj
    unfold F at this
    show Sub _ (inns (onCode f P n).1 j)
    rw [hi]
    by_cases h : j = n
    · subst h
      rw [onCode_self]
      exact hf.flow.trans this
    · rw [onCode_other f P h]; exact this

/-! ## One transformation of all blocks -/

theorem dse_good (hE : EnvOk E) (hS : Confined S) {l : List Stmt} {o : Live} (h : Ann E l o) :
    Good S l (dse E l).1 o :=
  ⟨(dse_flow hE l o h).1, dse_stmtOk l, fun e p => dse_params hE l e p,
    fun e x x' ha hw hp hx => dse_agree S hE hS l o e false x x' h ha hw hp (fun _ => hx)⟩

theorem tailAnn_of_ann {l : List Stmt} {o : Live} (h : Ann E l o) : TailAnn E l o := by
  cases l with
  | nil => trivial
  | cons => exact h.2

theorem merge_good (hE : EnvOk E) (hS : Confined S) {l : List Stmt} {o : Live} (h : Ann E l o)
    (hw : ∀ s ∈ l, StmtOk E s) : Good S l (merge E l).1 o := by
  obtain ⟨a, b, c, d⟩ := merge_ok S hE hS l.length l (Nat.le_refl _) o (tailAnn_of_ann h) hw
  exact ⟨a, fun _ => b, c, fun e x x' ha _ hp hx => d e false x x' ha hp (fun _ => hx)⟩

def total (bl : List Nat) (P : Prog) : Nat := (bl.map fun n => weight (P n).code).sum

theorem onCode_total (f : List Stmt → List Stmt × Nat)
    (hf : ∀ l, weight (f l).1 + (f l).2 ≤ weight l) {bl : List Nat} {P : Prog} {n : Nat}
    (hn : n ∈ bl) : total bl (onCode f P n).1 + (onCode f P n).2 ≤ total bl P := by
  have hle : ∀ k, weight ((onCode f P n).1 k).code ≤ weight (P k).code := by
    intro k
    by_cases h : k = n
    · subst h; rw [onCode_self]; have := hf (P k).code; simp only; omega
    · rw [onCode_other f P h]
  have hself : weight ((onCode f P n).1 n).code + (onCode f P n).2 ≤ weight (P n).code := by
    rw [onCode_self]; exact hf (P n).code
  unfold total
  clear hf
  induction bl with
  | nil => cases hn
  | cons a l ih =>
    simp only [List.map_cons, List.sum_cons]
    rcases List.mem_cons.1 hn with rfl | hn
    · have := sum_map_le (l := l) hle; omega
    · have := ih hn; have := hle a; omega

include hE in
theorem dse_all (hS : Confined S) {bl : List Nat} (h0 : 0 ∈ bl) : ∀ (ns : List Nat) (P : Prog),
    (∀ n ∈ ns, n ∈ bl) → ProgOk E P → Closed P bl → Post E bl P → Anns E bl P →
    Equiv S P (traverse (onCode (dse E)) ns P).1
      ∧ ProgOk E (traverse (onCode (dse E)) ns P).1
      ∧ Closed (traverse (onCode (dse E)) ns P).1 bl
      ∧ Post E bl (traverse (onCode (dse E)) ns P).1
      ∧ Anns E bl (traverse (onCode (dse E)) ns P).1
      ∧ total bl (traverse (onCode (dse E)) ns P).1 + (traverse (onCode (dse E)) ns P).2
          ≤ total bl P
  | [], P, _, h1, h2, h3, h4 => ⟨Equiv.refl S P, h1, h2, h3, h4, Nat.le_refl _⟩
  | n :: ns, P, hs, h1, h2, h3, h4 => by
    have hn := hs n List.mem_cons_self
    obtain ⟨a1, a2, a3, a4⟩ := onCode_good S hE hS h1 h2 h3 h0 (dse E) (dse_good S hE hS (h4 n hn))
    have a5 : Anns E bl (onCode (dse E) P n).1 := by
      intro j hj
      show Ann E _ (endOf E (onCode (dse E) P n).1 j)
      rw [endOf_graph (onCode_graph _ P n) (onCode_inns _ P n)]
      by_cases h : j = n
      · subst h
        rw [onCode_self]
        exact (dse_flow hE _ _ (h4 j hj)).2
      · rw [onCode_other _ P h]; exact h4 j hj
    have a6 := onCode_total (dse E) (dse_weight hE) (P := P) hn
    obtain ⟨b1, b2, b3, b4, b5, b6⟩ := dse_all hS h0 ns _
      (fun k hk => hs k (List.mem_cons_of_mem _ hk)) a2 a3 a4 a5
    refine ⟨Equiv.trans S a1 b1, b2, b3, b4, b5, ?_⟩
    show total bl (traverse (onCode (dse E)) ns (onCode (dse E) P n).1).1
      + ((onCode (dse E) P n).2 + (traverse (onCode (dse E)) ns (onCode (dse E) P n).1).2) ≤ _
    omega

include hE in
theorem merge_all (hS : Confined S) {bl : List Nat} (h0 : 0 ∈ bl) : ∀ (ns : List Nat) (P : Prog),
    (∀ n ∈ ns, n ∈ bl) → ns.Nodup → ProgOk E P → Closed P bl → Post E bl P →
    (∀ n ∈ ns, Ann E (P n).code (endOf E P n)) →
    Equiv S P (traverse (onCode (merge E)) ns P).1
      ∧ ProgOk E (traverse (onCode (merge E)) ns P).1
      ∧ Closed (traverse (onCode (merge E)) ns P).1 bl
      ∧ Post E bl (traverse (onCode (merge E)) ns P).1
      ∧ total bl (traverse (onCode (merge E)) ns P).1 + (traverse (onCode (merge E)) ns P).2
          ≤ total bl P
  | [], P, _, _, h1, h2, h3, _ => ⟨Equiv.refl S P, h1, h2, h3, Nat.le_refl _⟩
  | n :: ns, P, hs, hd, h1, h2, h3, h4 => by
    have hn := hs n List.mem_cons_self
    obtain ⟨hd1, hd2⟩ := List.nodup_cons.1 hd
    obtain ⟨a1, a2, a3, a4⟩ := onCode_good S hE hS h1 h2 h3 h0 (merge E)
      (merge_good S hE hS (h4 n List.mem_cons_self) (h1 n).1)
    have a5 : ∀ j ∈ ns, Ann E ((onCode (merge E) P n).1 j).code
        (endOf E (onCode (merge E) P n).1 j) := by
      intro j hj
      rw [endOf_graph (onCode_graph _ P n) (onCode_inns _ P n)]
      have h : j ≠ n := fun e => hd1 (e ▸ hj)
      rw [onCode_other _ P h]
      exact h4 j (List.mem_cons_of_mem _ hj)
    have a6 := onCode_total (merge E) (fun l => merge_weight hE l.length l (Nat.le_refl _))
      (P := P) hn
    obtain ⟨b1, b2, b3, b4, b6⟩ := merge_all hS h0 ns _
      (fun k hk => hs k (List.mem_cons_of_mem _ hk)) hd2 a2 a3 a4 a5
    refine ⟨Equiv.trans S a1 b1, b2, b3, b4, ?_⟩
    show total bl (traverse (onCode (merge E)) ns (onCode (merge E) P n).1).1
      + ((onCode (merge E) P n).2 + (traverse (onCode (merge E)) ns (onCode (merge E) P n).1).2) ≤ _
    omega

/-! ## The loop -/

theorem total_same {bl : List Nat} {P Q : Prog} (h : SameCode P Q) : total bl P = total bl Q := by
  unfold total
  congr 1
  apply List.map_congr_left
  intro n _
  have key : ∀ l : List Stmt, weight (l.map erase) = weight l := by
    intro l
    unfold weight
    rw [List.length_map, List.countP_map]
    rfl
  rw [← key, (h n).2.2.2.2, key]

include hE in
theorem optRound_ok (hS : Confined S) {bl : List Nat} (h0 : 0 ∈ bl) (hd : bl.Nodup) {P : Prog}
    (hok : ProgOk E P) (hc : Closed P bl) {fuel : Nat} {Q : Prog} {n : Nat}
    (h : optRound E bl fuel P = some (Q, n)) :
    Equiv S P Q ∧ ProgOk E Q ∧ Closed Q bl ∧ Post E bl Q ∧ total bl Q + n ≤ total bl P := by
  unfold optRound at h
  cases hdf : dataflow E bl fuel P with
  | none => rw [hdf] at h; cases h
  | some R =>
    rw [hdf] at h
    simp only [Option.some.injEq, Prod.mk.injEq] at h
    obtain ⟨h1, h2⟩ := h
    obtain ⟨s1, s2⟩ := dataflow_fixed fuel P R hdf
    have r1 := progOk_same s1 hok
    have r2 := closed_congr (fun k => ⟨(s1 k).1, (s1 k).2.1⟩) hc
    have r3 : Post E bl R := fun k hk => by rw [← s2.eq k hk]; exact Sub.refl _
    obtain ⟨a1, a2, a3, a4, a5, a6⟩ := dse_all S hE hS h0 bl R (fun _ q => q) r1 r2 r3 s2.ann
    obtain ⟨b1, b2, b3, b4, b6⟩ := merge_all S hE hS h0 bl _ (fun _ q => q) hd a2 a3 a4 a5
    subst h1
    refine ⟨Equiv.trans S (equiv_same S s1) (Equiv.trans S a1 b1), b2, b3, b4, ?_⟩
    rw [total_same s1]
    omega

include hE in
theorem optLoop_ok (hS : Confined S) {bl : List Nat} (h0 : 0 ∈ bl) (hd : bl.Nodup) {fuel : Nat} :
    ∀ (k : Nat) (P Q : Prog), ProgOk E P → Closed P bl → optLoop E bl fuel k P = some Q →
      Equiv S P Q
  | 0, _, _, _, _, h => by cases h
  | k + 1, P, Q, hok, hc, h => by
    unfold optLoop at h
    cases hr : optRound E bl fuel P with
    | none => rw [hr] at h; cases h
    | some q =>
      obtain ⟨R, n⟩ := q
      rw [hr] at h
      simp only at h
      obtain ⟨a1, a2, a3, -, -⟩ := optRound_ok S hE hS h0 hd hok hc hr
      split at h
      · cases h; exact a1
      · exact Equiv.trans S a1 (optLoop_ok hS h0 hd k R Q a2 a3 h)

end

end Verif.Opt
