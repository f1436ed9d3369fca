import Verif.Opt.Exec

/-!
# The two transformations of a block
-/

namespace Verif.Opt

open Verif (Bytes)

/-- The annotation of every statement covers what is live after it. -/
def Ann (E : Env) : List Stmt → Live → Prop
  | [], _ => True
  | s :: r, o => Sub (flow E r o) s.out ∧ Ann E r o

theorem ann_annotate (E : Env) : ∀ (l : List Stmt) (o : Live), Ann E (annotate E l o).1 o
  | [], _ => trivial
  | s :: r, o => by
    refine ⟨?_, ann_annotate E r o⟩
    show Sub (flow E (annotate E r o).1 o) (annotate E r o).2
    rw [flow_annotate]
    exact Sub.refl _

section

variable {E : Env} (S : Sem E) (hE : EnvOk E)

theorem not_live {y : Nat} (hE : EnvOk E) (ha : (E.sym y).automatic = true) {st : Stmt}
    (h : isLiveAfter E y st = false) : st.out.getLsbD y = false := by
  unfold isLiveAfter at h
  rw [if_pos (hE y ha).2, and_bit_ne_zero] at h
  exact h

include hE in
theorem deadStore_spec {s : Stmt} (h : deadStore E s = true) :
    ∃ y, s.st = .assign ∧ s.t.kind = .direct ∧ s.t.sym = some y
      ∧ (E.sym y).automatic = true ∧ s.out.getLsbD y = false := by
  unfold deadStore at h
  simp only [Bool.and_eq_true, beq_iff_eq] at h
  obtain ⟨⟨h1, h2⟩, h3⟩ := h
  cases hs : s.t.sym with
  | none => rw [hs] at h3; cases h3
  | some y =>
    rw [hs] at h3
    simp only [Bool.and_eq_true, Bool.not_eq_true'] at h3
    exact ⟨y, h1, h2, rfl, h3.2, not_live hE h3.2 h3.1⟩

/-- The definition of a dead variable removes nothing. -/
theorem sub_inOf {s : Stmt} {y : Nat} {out : Live} (hk : s.t.sym = some y)
    (hy : out.getLsbD y = false) : Sub out (inOf E s out) := by
  intro k h
  have hd : (defs E s).getLsbD k = false := by
    cases hc : (defs E s).getLsbD k
    · rfl
    · obtain ⟨-, -, q, -⟩ := defs_assign hc
      rw [hk] at q
      cases q
      rw [h] at hy; cases hy
  unfold inOf
  simp only [BitVec.getLsbD_or, BitVec.getLsbD_and, BitVec.getLsbD_not, h, hd,
    BitVec.lt_of_getLsbD h]
  simp

theorem getLsbD_of_sub {a b : Live} (h : Sub a b) {k : Nat} (hb : b.getLsbD k = false) :
    a.getLsbD k = false := by
  cases ha : a.getLsbD k
  · rfl
  · rw [h k ha] at hb; cases hb

theorem sub_or_left {a b c : Live} (h : Sub a b) : Sub a (b ||| c) := h.trans Sub.or_left

include hE in
/-- Dead store elimination leaves less live. -/
theorem dse_flow : ∀ (l : List Stmt) (o : Live), Ann E l o →
    Sub (flow E (dse E l).1 o) (flow E l o) ∧ Ann E (dse E l).1 o
  | [], o, _ => ⟨Sub.refl _, trivial⟩
  | s :: r, o, h => by
    obtain ⟨g1, g2⟩ := dse_flow r o h.2
    unfold dse
    by_cases hd : deadStore E s = true
    · obtain ⟨y, h1, h2, h3, h4, h5⟩ := deadStore_spec hE hd
      have hy := getLsbD_of_sub h.1 h5
      simp only [hd, if_true]
      by_cases he : s.expr.hasSideEffects = true
      · simp only [he, if_true]
        refine ⟨?_, g1.trans h.1, g2⟩
        show Sub (inOf E { s with st := .expr } (flow E (dse E r).1 o)) (inOf E s (flow E r o))
        refine (inOf_mono E _ g1).trans ?_
        have e1 : inOf E { s with st := .expr } (flow E r o)
            = (flow E r o &&& ~~~ 0) ||| use E s.expr := rfl
        rw [e1]
        apply Sub.or
        · have := sub_inOf (E := E) h3 hy
          intro k hk
          apply this k
          simp only [BitVec.getLsbD_and, Bool.and_eq_true] at hk
          exact hk.1
        · exact (use_uses s).trans (uses_inOf s _)
      · simp only [he, Bool.false_eq_true, if_false]
        exact ⟨g1.trans (sub_inOf h3 hy), g2⟩
    · simp only [hd, Bool.false_eq_true, if_false]
      exact ⟨inOf_mono E s g1, g1.trans h.1, g2⟩

theorem stmtOk_expr {s : Stmt} : StmtOk E { s with st := .expr } :=
  ⟨fun _ h => (by cases h), fun _ h => (by cases h), fun _ h => (by cases h)⟩

theorem dse_stmtOk : ∀ (l : List Stmt), (∀ s ∈ l, StmtOk E s) → ∀ s ∈ (dse E l).1, StmtOk E s
  | [], _, s, h => by cases h
  | a :: r, h, s, hs => by
    have ih := dse_stmtOk r (fun t ht => h t (List.mem_cons_of_mem _ ht))
    unfold dse at hs
    split at hs
    · split at hs
      · rcases List.mem_cons.1 hs with rfl | hs
        · exact stmtOk_expr
        · exact ih s hs
      · exact ih s hs
    · rcases List.mem_cons.1 hs with rfl | hs
      · exact h _ List.mem_cons_self
      · exact ih s hs

include hE in
theorem dse_params : ∀ (l : List Stmt) (e : Expr) (p : Bool), ParamsOk p l e →
    ParamsOk p (dse E l).1 e
  | [], _, _, h => h
  | s :: r, e, p, h => by
    unfold ParamsOk at h
    unfold dse
    by_cases hd : deadStore E s = true
    · obtain ⟨y, h1, -⟩ := deadStore_spec hE hd
      rw [if_neg (by rw [h1]; decide)] at h
      simp only [hd, if_true]
      by_cases he : s.expr.hasSideEffects = true
      · simp only [he, if_true]
        unfold ParamsOk
        simp only
        rw [if_neg (by decide)]
        exact ⟨fun g => ⟨Or.inr trivial, (h.1 g).2⟩, dse_params r e false h.2⟩
      · simp only [he, Bool.false_eq_true, if_false]
        have : p = false := by
          cases p
          · rfl
          · have := (h.1 rfl).2
            simp [Expr.hasSideEffects, this] at he
        subst this
        exact dse_params r e false h.2
    · simp only [hd, Bool.false_eq_true, if_false]
      unfold ParamsOk
      split
      · rename_i hs
        rw [if_pos hs] at h
        exact ⟨h.1, dse_params r e true h.2⟩
      · rename_i hs
        rw [if_neg hs] at h
        exact ⟨h.1, dse_params r e false h.2⟩

include hE in
/-- Dead store elimination keeps agreement on what is live. -/
theorem dse_agree (hS : Confined S) : ∀ (l : List Stmt) (o : Live) (e : Expr)
    (p : Bool) (x x' : State), Ann E l o → Agree E (flow E l o) x x' →
    (∀ s ∈ l, StmtOk E s) → ParamsOk p l e → (p = false → x.args = []) →
    Agree E o (execs S l x) (execs S (dse E l).1 x')
  | [], _, _, _, _, _, _, h, _, _, _ => h
  | s :: r, o, e, p, x, x', hann, h, hw, hp, ha => by
    have hp0 := hp
    unfold ParamsOk at hp
    have hw' : ∀ t ∈ r, StmtOk E t := fun t ht => hw t (List.mem_cons_of_mem _ ht)
    have hn : s.st ≠ .param → x.args = [] ∨
        ((s.st = .assign ∨ s.st = .expr) ∧ s.expr.op = .call) := by
      intro hs
      rw [if_neg hs] at hp
      cases p
      · exact Or.inl (ha rfl)
      · exact Or.inr (hp.1 rfl)
    have hpp : s.st = .param → s.expr.hasSideEffects = false := by
      intro hs; rw [if_pos hs] at hp; exact hp.1
    obtain ⟨g1, g2⟩ := exec_agree S hE hS h (hw s List.mem_cons_self).1 hpp hn
    unfold dse
    by_cases hd : deadStore E s = true
    · obtain ⟨y, h1, h2, h3, h4, h5⟩ := deadStore_spec hE hd
      have hy := getLsbD_of_sub hann.1 h5
      have hne : s.st ≠ .param := by rw [h1]; decide
      rw [if_neg hne] at hp
      simp only [hd, if_true]
      have hu : Sub (use E s.expr) (inOf E s (flow E r o)) :=
        (use_uses s).trans (uses_inOf s _)
      have hva : s.expr.op = .vaArg → x.args = [] := by
        intro q
        rcases hn hne with g | ⟨-, g⟩
        · exact g
        · rw [q] at g; cases g
      obtain ⟨k1, k2, k3, k4, k5⟩ := evalE_agree S hE hS h hu hva
      have e1 : exec S s x = ⟨store S (evalE S s.expr x).1.mem s.t (evalE S s.expr x).2,
        (evalE S s.expr x).1.args⟩ := by unfold exec; rw [h1]
      have hargs : (evalE S s.expr x).1.args = [] := by
        have := g2 hne
        rw [e1] at this
        exact this
      have step : Agree E (flow E r o) (exec S s x) (evalE S s.expr x').1 := by
        rw [e1]
        refine ⟨k2.args, ?_, ?_⟩
        · rintro ⟨a, hb, -⟩
          simp only [hargs] at hb; cases hb
        · intro b i hb hi
          have hby : b ≠ y := by
            rintro rfl
            rw [hb h4] at hy; cases hy
          show store S _ s.t _ b i = _
          rw [store_other S h2 h3 _ hby]
          exact k2.mem b i (fun q => sub_inOf h3 hy b (hb q)) hi
      by_cases he : s.expr.hasSideEffects = true
      · simp only [he, if_true]
        show Agree E o (execs S r (exec S s x))
          (execs S (dse E r).1 (exec S { s with st := .expr } x'))
        exact dse_agree hS r o e false _ _ hann.2 step hw' hp.2 (fun _ => g2 hne)
      · simp only [he, Bool.false_eq_true, if_false]
        rw [(k3 (by simpa using he)).2] at step
        exact dse_agree hS r o e false _ _ hann.2 step hw' hp.2 (fun _ => g2 hne)
    · simp only [hd, Bool.false_eq_true, if_false]
      show Agree E o (execs S r (exec S s x)) (execs S (dse E r).1 (exec S s x'))
      by_cases hs : s.st = .param
      · rw [if_pos hs] at hp
        exact dse_agree hS r o e true _ _ hann.2 g1 hw' hp.2 (fun g => nomatch g)
      · rw [if_neg hs] at hp
        exact dse_agree hS r o e false _ _ hann.2 g1 hw' hp.2 (fun _ => g2 hs)

/-! ## Merging -/

structure Mergeable (E : Env) (s1 s2 : Stmt) (y : Nat) : Prop where
  st1 : s1.st = .assign
  st2 : s2.st = .assign
  op2 : s2.expr.op = .cast
  ident : s2.expr.isIdentity = true
  kind1 : s1.t.kind = .direct
  sym1 : s1.t.sym = some y
  kindl : s2.expr.l.kind = .direct
  syml : s2.expr.l.sym = some y
  offl : s2.expr.l.off = s1.t.off
  tyl : s2.expr.l.ty = s1.t.ty
  fld1 : s1.t.isField = false
  fldl : s2.expr.l.isField = false
  ty2 : s2.t.ty = s1.t.ty
  auto : (E.sym y).automatic = true
  dead : s2.out.getLsbD y = false

include hE in
theorem canMerge_spec {s1 s2 : Stmt} (h : canMerge E s1 s2 = true) :
    ∃ y, Mergeable E s1 s2 y := by
  unfold canMerge varEqual at h
  simp only [Bool.and_eq_true, beq_iff_eq] at h
  obtain ⟨⟨⟨⟨⟨⟨h1, h2⟩, h3⟩, h4⟩, h5⟩, h6⟩, h7⟩ := h
  obtain ⟨⟨⟨⟨⟨a1, a2⟩, a3⟩, a4⟩, a5⟩, a6⟩ := h4
  cases hs : s1.t.sym with
  | none => rw [hs] at h7; cases h7
  | some y =>
    rw [hs] at h7
    simp only [Bool.and_eq_true, Bool.not_eq_true'] at h7
    obtain ⟨⟨b1, b2⟩, b3⟩ := h7
    have hop : s2.expr.op = .cast := by
      unfold Expr.isIdentity at h3
      simp only [Bool.and_eq_true, beq_iff_eq] at h3
      exact h3.1
    refine ⟨y, h1, h2, hop, h3, h6, hs, ?_, ?_, a6.symm, a1.symm, b2, ?_, h5.symm, b1,
      not_live hE b1 b3⟩
    · rw [← a3]; exact h6
    · rw [← a2]; exact hs
    · unfold Var.isField at b2 ⊢
      rw [← a4]; exact b2

theorem clip_clip (n : Nat) (v : Bytes) : clip n (clip n v) = clip n v := by
  unfold clip
  apply List.map_congr_left
  intro i hi
  rw [List.getD_eq_getElem?_getD, List.getElem?_map, List.getElem?_range (List.mem_range.1 hi)]
  rfl

theorem store_clip {m : Mem} {t : Var} (v : Bytes) :
    store S m t (clip (E.size t.ty) v) = store S m t v := by
  unfold store
  simp only [clip_clip]

/-- Reading back what has just been stored. -/
theorem read_write {m : Mem} {o a n : Nat} (hb : a + n ≤ E.ext o) (v : Bytes) :
    read E (write m o a (clip n v)) o a n = clip n v := by
  unfold read
  conv_rhs => unfold clip
  apply List.map_congr_left
  intro i hi
  have hi' := List.mem_range.1 hi
  rw [if_pos (by omega)]
  unfold write
  rw [length_clip, if_pos ⟨rfl, by omega, by omega⟩]
  rw [Nat.add_sub_cancel_left]
  unfold clip
  rw [List.getD_eq_getElem?_getD, List.getElem?_map, List.getElem?_range hi']
  rfl

/-- A pointer the second target goes through is not the variable that
disappears. -/
theorem merge_ptr {s1 s2 : Stmt} {y : Nat} (h : Mergeable E s1 s2 y) (h1 : StmtOk E s1)
    (h2 : StmtOk E s2) (hk : s2.t.kind = .deref) {p : Nat} (hp : s2.t.sym = some p) :
    p ≠ y := by
  rintro rfl
  obtain ⟨q1, q2⟩ := h2.2.1 p h.st2 hk hp
  obtain ⟨-, -, q3⟩ := h1.1 p h.st1 h.kind1 h.sym1 q1
  exact q2 (h.ty2.trans q3)

include hE in
/-- The merged statement does what the two did, except to the variable in
between. -/
theorem merge_pair {s1 s2 : Stmt} {y : Nat} (h : Mergeable E s1 s2 y) (h1 : StmtOk E s1)
    (h2 : StmtOk E s2) (x : State) :
    (exec S s2 (exec S s1 x)).args = (exec S { s1 with t := s2.t } x).args
      ∧ Same E (· ≠ y) (exec S s2 (exec S s1 x)).mem (exec S { s1 with t := s2.t } x).mem := by
  have e1 : exec S s1 x = ⟨store S (evalE S s1.expr x).1.mem s1.t (evalE S s1.expr x).2,
      (evalE S s1.expr x).1.args⟩ := by unfold exec; rw [h.st1]
  have e2 : ∀ z : State, exec S s2 z = ⟨store S z.mem s2.t (value S z.mem s2.expr.l), z.args⟩ := by
    intro z; unfold exec evalE; rw [h.st2, h.op2, h.ident]; rfl
  have e3 : exec S { s1 with t := s2.t } x
      = ⟨store S (evalE S s1.expr x).1.mem s2.t (evalE S s1.expr x).2,
      (evalE S s1.expr x).1.args⟩ := by unfold exec; simp only [h.st1]
  rw [e1, e2, e3]
  refine ⟨rfl, ?_⟩
  generalize (evalE S s1.expr x).1.mem = m
  generalize (evalE S s1.expr x).2 = v
  have ho := (hE y h.auto).2
  have hm : Same E (· ≠ y) (store S m s1.t v) m := fun o i hne _ =>
    store_other S h.kind1 h.sym1 v hne i
  have hv : value S (store S m s1.t v) s2.expr.l = clip (E.size s1.t.ty) v := by
    have hpl : place S (store S m s1.t v) s2.expr.l = some (y, s1.t.off) := by
      unfold place
      rw [h.kindl, h.syml, h.offl]
      simp [ho]
    unfold value
    rw [hpl]
    simp only [h.fldl, h.tyl]
    rw [store_direct S h.kind1 h.sym1 ho h.fld1]
    exact read_write (h1.2.2 y h.st1 h.kind1 h.sym1) v
  show Same E _ (store S (store S m s1.t v) s2.t (value S (store S m s1.t v) s2.expr.l))
    (store S m s2.t v)
  rw [hv, ← h.ty2, store_clip]
  apply store_same S hm
  unfold place
  split
  · rfl
  · rename_i p hk hs
    rw [read_same hm (merge_ptr h h1 h2 hk hs)]
  · rfl
  · rfl

include hE in
theorem merge_pair_flow {s1 s2 : Stmt} {y : Nat} (h : Mergeable E s1 s2 y)
    (h1 : StmtOk E s1) (h2 : StmtOk E s2) {F : Live} (hF : F.getLsbD y = false) :
    Sub (inOf E { s1 with t := s2.t } F) (inOf E s1 (inOf E s2 F)) := by
  have hd : ∀ k, (defs E s1).getLsbD k = true → k = y := by
    intro k hk
    obtain ⟨-, -, q, -⟩ := defs_assign hk
    rw [h.sym1] at q; cases q; rfl
  have lift : ∀ k, (inOf E s2 F).getLsbD k = true → k ≠ y →
      (inOf E s1 (inOf E s2 F)).getLsbD k = true := by
    intro k hk hne
    have hdk : (defs E s1).getLsbD k = false := by
      cases hc : (defs E s1).getLsbD k
      · rfl
      · exact absurd (hd k hc) hne
    unfold inOf
    simp only [BitVec.getLsbD_or, BitVec.getLsbD_and, BitVec.getLsbD_not]
    have := hk
    unfold inOf at this
    simp only [BitVec.getLsbD_or, BitVec.getLsbD_and, BitVec.getLsbD_not] at this
    rw [this, hdk]
    simp [BitVec.lt_of_getLsbD hk]
  have hdef : defs E { s1 with t := s2.t } = defs E s2 := by
    unfold defs; rw [h.st2]; simp only [h.st1]
  have huse : Sub (uses E { s1 with t := s2.t }) (inOf E s1 (inOf E s2 F)) := by
    unfold uses
    simp only [h.st1]
    split
    · rename_i hk
      apply Sub.or
      · exact (use_uses s1).trans (uses_inOf s1 _)
      · intro k hkk
        obtain ⟨p, hp⟩ := Option.isSome_iff_exists.1 hk.2
        have hpy := merge_ptr h h1 h2 hk.1 hp
        have hin : (inOf E s2 F).getLsbD k = true := by
          apply uses_inOf s2 F
          unfold uses
          rw [h.st2]
          simp only [hk, and_self, if_true]
          exact Sub.or_right k hkk
        refine lift k hin ?_
        rintro rfl
        unfold setUseBit at hkk
        simp only [hp] at hkk
        split at hkk
        · rw [getLsbD_bit] at hkk
          simp only [decide_eq_true_eq] at hkk
          exact hpy hkk.1.symm
        · simp at hkk
    · exact (use_uses s1).trans (uses_inOf s1 _)
  intro k hk
  have hk' := hk
  unfold inOf at hk'
  rw [hdef] at hk'
  simp only [BitVec.getLsbD_or, BitVec.getLsbD_and, Bool.or_eq_true, Bool.and_eq_true] at hk'
  rcases hk' with ⟨q1, q2⟩ | q
  · apply lift k
    · unfold inOf
      simp only [BitVec.getLsbD_or, BitVec.getLsbD_and, q1, q2]
      simp
    · rintro rfl; rw [q1] at hF; cases hF
  · exact huse k q

def TailAnn (E : Env) : List Stmt → Live → Prop
  | [], _ => True
  | _ :: r, o => Ann E r o

theorem merge_stmtOk_pair {s1 s2 : Stmt} {y : Nat} (h : Mergeable E s1 s2 y)
    (h2 : StmtOk E s2) : StmtOk E { s1 with t := s2.t } :=
  ⟨fun z _ b c d => h2.1 z h.st2 b c d, fun z _ b c => h2.2.1 z h.st2 b c,
    fun z _ b c => h2.2.2 z h.st2 b c⟩

theorem merge_params_pair {s1 s2 : Stmt} {y : Nat} (h : Mergeable E s1 s2 y) {p : Bool}
    {r : List Stmt} {e : Expr} (hp : ParamsOk p (s1 :: s2 :: r) e) :
    ParamsOk p ({ s1 with t := s2.t } :: r) e := by
  unfold ParamsOk at hp ⊢
  rw [if_neg (by rw [h.st1]; decide)] at hp
  simp only
  rw [if_neg (by rw [h.st1]; decide)]
  obtain ⟨g1, g2⟩ := hp
  unfold ParamsOk at g2
  rw [if_neg (by rw [h.st2]; decide)] at g2
  exact ⟨g1, g2.2⟩

theorem Agree.trans {L : Live} {a b c : State} (h : Agree E L a b) (g : Agree E L b c) :
    Agree E L a c where
  args := h.args.trans g.args
  ptr := fun q o i t hi => (h.ptr q o i t hi).trans (g.ptr (h.args ▸ q) o i t hi)
  mem := fun o i t hi => (h.mem o i t hi).trans (g.mem o i t hi)

theorem Agree.refl (L : Live) (a : State) : Agree E L a a :=
  ⟨rfl, fun _ _ _ _ _ => rfl, fun _ _ _ _ => rfl⟩

include hE in
/-- Everything there is to know about merging the assignments of a block. -/
theorem merge_ok (hS : Confined S) (n : Nat) : ∀ (l : List Stmt), l.length ≤ n →
    ∀ (o : Live), TailAnn E l o → (∀ s ∈ l, StmtOk E s) →
    Sub (flow E (merge E l).1 o) (flow E l o)
      ∧ (∀ s ∈ (merge E l).1, StmtOk E s)
      ∧ (∀ e p, ParamsOk p l e → ParamsOk p (merge E l).1 e)
      ∧ (∀ e p x x', Agree E (flow E l o) x x' → ParamsOk p l e → (p = false → x.args = []) →
          Agree E o (execs S l x) (execs S (merge E l).1 x')) := by
  induction n with
  | zero =>
    intro l hl
    cases l with
    | nil =>
      intro o _ hw
      unfold merge
      exact ⟨Sub.refl _, hw, fun _ _ h => h, fun _ _ _ _ h _ _ => h⟩
    | cons => simp at hl
  | succ n ih =>
    intro l hl o hann hw
    match l, hl, hann, hw with
    | [], _, _, hw =>
      unfold merge
      exact ⟨Sub.refl _, hw, fun _ _ h => h, fun _ _ _ _ h _ _ => h⟩
    | [s], _, _, hw =>
      unfold merge
      refine ⟨Sub.refl _, hw, fun _ _ h => h, fun e p x x' h hp ha => ?_⟩
      exact (execs_agree S hE hS [s] o e p x x' h (fun t ht => (hw t ht).1) hp ha).1
    | s1 :: s2 :: r, hl, hann, hw =>
      have h1 := hw s1 List.mem_cons_self
      have h2 := hw s2 (List.mem_cons_of_mem _ List.mem_cons_self)
      have hr : ∀ t ∈ r, StmtOk E t := fun t ht =>
        hw t (List.mem_cons_of_mem _ (List.mem_cons_of_mem _ ht))
      simp only [List.length_cons] at hl
      unfold merge
      by_cases hc : canMerge E s1 s2 = true
      · obtain ⟨y, hm⟩ := canMerge_spec hE hc
        simp only [hc, if_true]
        have hy : (flow E r o).getLsbD y = false := getLsbD_of_sub hann.1 hm.dead
        have hok : ∀ s ∈ { s1 with t := s2.t } :: r, StmtOk E s := by
          intro s hs
          rcases List.mem_cons.1 hs with rfl | hs
          · exact merge_stmtOk_pair hm h2
          · exact hr s hs
        obtain ⟨a1, a2, a3, a4⟩ := ih ({ s1 with t := s2.t } :: r)
          (by simp only [List.length_cons]; omega) o hann.2 hok
        have hfl := merge_pair_flow hE hm h1 h2 hy
        refine ⟨a1.trans hfl, a2, fun e p hp => a3 e p (merge_params_pair hm hp), ?_⟩
        intro e p x x' hag hp ha
        have hp' := merge_params_pair hm hp
        refine Agree.trans ?_ (a4 e p x x' (hag.mono hfl) hp' ha)
        show Agree E o (execs S r (exec S s2 (exec S s1 x)))
          (execs S r (exec S { s1 with t := s2.t } x))
        obtain ⟨b1, b2⟩ := merge_pair S hE hm h1 h2 x
        have hps := hp
        unfold ParamsOk at hps
        rw [if_neg (by rw [hm.st1]; decide)] at hps
        have hps2 := hps.2
        unfold ParamsOk at hps2
        rw [if_neg (by rw [hm.st2]; decide)] at hps2
        have hn1 : s1.st ≠ .param → x.args = [] ∨
            ((s1.st = .assign ∨ s1.st = .expr) ∧ s1.expr.op = .call) := by
          intro _
          cases p
          · exact Or.inl (ha rfl)
          · exact Or.inr (hps.1 rfl)
        have hargs1 := (exec_agree S hE hS (Agree.refl (inOf E s1 0) x) h1.1
          (fun g => by rw [hm.st1] at g; cases g) hn1).2 (by rw [hm.st1]; decide)
        have hargs2 := (exec_agree S hE hS (Agree.refl (inOf E s2 0) (exec S s1 x)) h2.1
          (fun g => by rw [hm.st2] at g; cases g) (fun _ => Or.inl hargs1)).2
          (by rw [hm.st2]; decide)
        refine (execs_agree S hE hS r o e false _ _ ⟨b1, ?_, ?_⟩ (fun t ht => (hr t ht).1)
          hps2.2 (fun _ => hargs2)).1
        · rintro ⟨a, hb, -⟩
          rw [hargs2] at hb; cases hb
        · refine b2.mono fun q hq => ?_
          rintro rfl
          rw [hq hm.auto] at hy; cases hy
      · simp only [hc, Bool.false_eq_true, if_false]
        have hok : ∀ s ∈ s2 :: r, StmtOk E s := fun t ht => hw t (List.mem_cons_of_mem _ ht)
        obtain ⟨a1, a2, a3, a4⟩ := ih (s2 :: r) (by simp only [List.length_cons]; omega) o
          hann.2 hok
        refine ⟨inOf_mono E s1 a1, ?_, ?_, ?_⟩
        · intro s hs
          rcases List.mem_cons.1 hs with rfl | hs
          · exact h1
          · exact a2 s hs
        · intro e p hp
          unfold ParamsOk at hp ⊢
          split
          · rename_i hs
            rw [if_pos hs] at hp
            exact ⟨hp.1, a3 e true hp.2⟩
          · rename_i hs
            rw [if_neg hs] at hp
            exact ⟨hp.1, a3 e false hp.2⟩
        · intro e p x x' hag hp ha
          show Agree E o (execs S (s2 :: r) (exec S s1 x))
            (execs S (merge E (s2 :: r)).1 (exec S s1 x'))
          unfold ParamsOk at hp
          have hn : s1.st ≠ .param → x.args = [] ∨
              ((s1.st = .assign ∨ s1.st = .expr) ∧ s1.expr.op = .call) := by
            intro hs
            rw [if_neg hs] at hp
            cases p
            · exact Or.inl (ha rfl)
            · exact Or.inr (hp.1 rfl)
          have hpp : s1.st = .param → s1.expr.hasSideEffects = false := by
            intro hs; rw [if_pos hs] at hp; exact hp.1
          obtain ⟨g1, g2⟩ := exec_agree S hE hS hag h1.1 hpp hn
          by_cases hs : s1.st = .param
          · rw [if_pos hs] at hp
            exact a4 e true _ _ g1 hp.2 (fun g => nomatch g)
          · rw [if_neg hs] at hp
            exact a4 e false _ _ g1 hp.2 (fun _ => g2 hs)

/-! ## Progress -/

def weight (l : List Stmt) : Nat := l.length + l.countP (fun s => s.st == .assign)

include hE in
theorem dse_weight : ∀ l : List Stmt, weight (dse E l).1 + (dse E l).2 ≤ weight l
  | [] => Nat.le_refl _
  | s :: r => by
    have ih := dse_weight r
    unfold dse
    unfold weight at *
    by_cases hd : deadStore E s = true
    · obtain ⟨y, h1, -⟩ := deadStore_spec hE hd
      simp only [hd, if_true]
      split
      · simp [List.countP_cons, h1]; omega
      · simp [List.countP_cons, h1]; omega
    · simp only [hd, Bool.false_eq_true, if_false, List.countP_cons, List.length_cons]
      omega

include hE in
theorem merge_weight (n : Nat) : ∀ l : List Stmt, l.length ≤ n →
    weight (merge E l).1 + (merge E l).2 ≤ weight l := by
  induction n with
  | zero =>
    intro l hl
    cases l with
    | nil => unfold merge; exact Nat.le_refl _
    | cons => simp at hl
  | succ n ih =>
    intro l hl
    match l, hl with
    | [], _ => unfold merge; exact Nat.le_refl _
    | [s], _ => unfold merge; exact Nat.le_refl _
    | s1 :: s2 :: r, hl =>
      simp only [List.length_cons] at hl
      unfold merge
      by_cases hc : canMerge E s1 s2 = true
      · obtain ⟨y, hm⟩ := canMerge_spec hE hc
        simp only [hc, if_true]
        have := ih ({ s1 with t := s2.t } :: r) (by simp only [List.length_cons]; omega)
        unfold weight at *
        simp only [List.length_cons, List.countP_cons, hm.st1, hm.st2] at this ⊢
        simp at this ⊢
        omega
      · simp only [hc, Bool.false_eq_true, if_false]
        have := ih (s2 :: r) (by simp only [List.length_cons]; omega)
        unfold weight at *
        simp only [List.length_cons, List.countP_cons] at this ⊢
        omega

end

end Verif.Opt
