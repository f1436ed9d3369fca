import Verif.Opt.Flow

/-!
# Executing a block in two memories that agree on what is live
-/

namespace Verif.Opt

open Verif (Bytes)

section

variable {E : Env} (S : Sem E) (hE : EnvOk E)

theorem store_direct {m : Mem} {t : Var} {y : Nat} (hk : t.kind = .direct)
    (hs : t.sym = some y) (ho : (E.sym y).object = true) (hf : t.isField = false)
    (v : Bytes) :
    store S m t v = write m y t.off (clip (E.size t.ty) v) := by
  unfold store place
  rw [hk, hs]
  simp [ho, hf]

theorem store_whole {m : Mem} {t : Var} {y : Nat} (hk : t.kind = .direct)
    (hs : t.sym = some y) (ho : (E.sym y).object = true) (hf : t.isField = false)
    (h0 : t.off = 0) (hty : t.ty = (E.sym y).ty) (v : Bytes) {i : Nat} (hi : i < E.ext y) :
    store S m t v y i = v.getD i 0 := by
  rw [store_direct S hk hs ho hf, h0, hty]
  unfold write
  rw [length_clip, if_pos ⟨rfl, Nat.zero_le _, by rw [Nat.zero_add]; exact hi⟩]
  simp only [Nat.sub_zero, clip]
  rw [List.getD_eq_getElem?_getD, List.getElem?_map]
  have : i < E.size (E.sym y).ty := hi
  rw [List.getElem?_range this]
  rfl

/-- A store to a named object changes only that object. -/
theorem store_other {m : Mem} {t : Var} {y : Nat} (hk : t.kind = .direct)
    (hs : t.sym = some y) (v : Bytes) {o : Nat} (ho : o ≠ y) (i : Nat) :
    store S m t v o i = m o i := by
  unfold store place
  rw [hk, hs]
  by_cases hb : (E.sym y).object = true
  · simp only [hb, if_true]
    unfold write
    rw [if_neg (fun c => ho c.1)]
  · simp only [hb]; rfl

theorem defs_assign {s : Stmt} {k : Nat} (h : (defs E s).getLsbD k = true) :
    s.st = .assign ∧ s.t.kind = .direct ∧ s.t.sym = some k
      ∧ (E.sym k).scalar = true := by
  unfold defs at h
  split at h
  · rename_i ha
    unfold setDefBit at h
    split at h
    · rename_i y hk hy
      split at h
      · rename_i hc
        rw [getLsbD_bit] at h
        simp only [decide_eq_true_eq] at h
        obtain ⟨rfl, -⟩ := h
        exact ⟨ha, hk, hy, hc⟩
      · simp at h
    · simp at h
  · simp at h

/-- The target of an assignment is the same place in both memories. -/
theorem target_place (hE : EnvOk E) {s : Stmt} {L : Live} (ha : s.st = .assign)
    {m m' : Mem} (hu : Sub (uses E s) L) (hm : Same E (Inside E L) m m') :
    place S m s.t = place S m' s.t := by
  unfold place
  split
  · rfl
  · rename_i y hk hy
    have : Inside E L y := by
      intro hauto
      unfold uses at hu
      rw [ha] at hu
      simp only [hk, hy, Option.isSome_some, and_self, if_true] at hu
      have h2 : Sub (bit y) L := by
        have := Sub.or_right.trans hu
        unfold setUseBit at this
        simp only [(hE y hauto).2, if_true] at this
        exact this
      exact use_bit h2 hE hauto
    rw [read_same hm this]
  · rfl
  · rfl

theorem use_uses (s : Stmt) : Sub (use E s.expr) (uses E s) := by
  unfold uses
  split
  · split
    · exact Sub.or_left
    · exact Sub.refl _
  · split
    · exact Sub.all _
    · exact Sub.refl _
  · exact Sub.refl _

theorem uses_inOf (s : Stmt) (out : Live) : Sub (uses E s) (inOf E s out) := Sub.or_right

include hE in
theorem exec_agree (hS : Confined S) {s : Stmt} {out : Live} {x x' : State}
    (h : Agree E (inOf E s out) x x') (hw : WholeStore E s)
    (hp : s.st = .param → s.expr.hasSideEffects = false)
    (hn : s.st ≠ .param → x.args = [] ∨ ((s.st = .assign ∨ s.st = .expr) ∧ s.expr.op = .call)) :
    Agree E out (exec S s x) (exec S s x')
      ∧ (s.st ≠ .param → (exec S s x).args = []) := by
  have hu : Sub (use E s.expr) (inOf E s out) := (use_uses s).trans (uses_inOf s out)
  have hva : s.expr.op = .vaArg → s.st ≠ .param → x.args = [] := by
    intro h1 h2
    rcases hn h2 with g | ⟨-, g⟩
    · exact g
    · rw [h1] at g; cases g
  have hva' : s.expr.op = .vaArg → x.args = [] := by
    intro h1
    by_cases h2 : s.st = .param
    · have := hp h2
      simp [Expr.hasSideEffects, h1] at this
    · exact hva h1 h2
  obtain ⟨g1, g2, g3, g4, g5⟩ := evalE_agree S hE hS h hu hva'
  have hargs : s.st ≠ .param → (s.st = .assign ∨ s.st = .expr) →
      (evalE S s.expr x).1.args = [] := by
    intro h1 h2
    by_cases hc : s.expr.op = .call
    · exact g4 hc
    · rw [g5 hc]
      rcases hn h1 with g | ⟨-, g⟩
      · exact g
      · exact absurd g hc
  have keep : s.st ≠ .assign → Sub out (inOf E s out) := by
    intro hne k hk
    unfold inOf
    have : defs E s = 0 := by
      unfold defs; split
      · contradiction
      · rfl
    rw [this]
    simp only [BitVec.getLsbD_or, BitVec.getLsbD_and, BitVec.getLsbD_not, hk,
      BitVec.lt_of_getLsbD hk]
    simp
  cases hst : s.st with
  | expr =>
    have e1 : ∀ y, exec S s y = (evalE S s.expr y).1 := by intro y; unfold exec; rw [hst]
    rw [e1, e1]
    refine ⟨g2.mono (keep (by rw [hst]; decide)), fun _ => ?_⟩
    exact hargs (by rw [hst]; decide) (Or.inr hst)
  | param =>
    have e1 : ∀ y, exec S s y = ⟨(evalE S s.expr y).1.mem,
        (evalE S s.expr y).1.args ++ [(s.expr.ty, (evalE S s.expr y).2)]⟩ := by
      intro y; unfold exec; rw [hst]
    rw [e1, e1]
    obtain ⟨k1, k2⟩ := g3 (hp hst)
    refine ⟨⟨?_, ?_, ?_⟩, fun g => absurd rfl g⟩
    · show _ ++ _ = _ ++ _
      rw [g2.args, g1]
    · rintro ⟨a, ha, hb⟩
      show Same E _ (evalE S s.expr x).1.mem (evalE S s.expr x').1.mem
      rw [k1, k2]
      simp only [List.mem_append, List.mem_singleton] at ha
      rcases ha with ha | ha
      · rw [k1] at ha
        exact h.ptr ⟨a, ha, hb⟩
      · subst ha
        have hall : Sub (BitVec.allOnes 64) (inOf E s out) := by
          refine Sub.trans ?_ (uses_inOf s out)
          unfold uses
          rw [hst]
          simp only at hb
          simp only [hb, if_true]
          exact Sub.refl _
        exact Agree.all hE (h.mem.mono fun o f a => inside_of_all hall hE o a)
    · show Same E _ (evalE S s.expr x).1.mem (evalE S s.expr x').1.mem
      exact (g2.mono (keep (by rw [hst]; decide))).mem
  | vaStart =>
    have e1 : ∀ y : State, exec S s y = ⟨store S y.mem s.expr.l S.vaStart, y.args⟩ := by
      intro y; unfold exec; rw [hst]
    rw [e1, e1]
    have ha : x.args = [] := by
      rcases hn (by rw [hst]; decide) with g | ⟨g, -⟩
      · exact g
      · rw [hst] at g; rcases g with g | g <;> cases g
    refine ⟨⟨h.args, ?_, ?_⟩, fun _ => ha⟩
    · rintro ⟨a, hb, -⟩
      simp only [ha] at hb; cases hb
    · have := store_same S h.mem (place_same S hE h.mem (use_l _ hu)) S.vaStart
      exact this.mono fun o f a => keep (by rw [hst]; decide) o (f a)
  | assign =>
    have e1 : ∀ y, exec S s y = ⟨store S (evalE S s.expr y).1.mem s.t (evalE S s.expr y).2,
        (evalE S s.expr y).1.args⟩ := by intro y; unfold exec; rw [hst]
    rw [e1, e1]
    have ha := hargs (by rw [hst]; decide) (Or.inl hst)
    refine ⟨⟨g2.args, ?_, ?_⟩, fun _ => ha⟩
    · rintro ⟨a, hb, -⟩
      simp only [ha] at hb; cases hb
    · show Same E _ (store S (evalE S s.expr x).1.mem s.t (evalE S s.expr x).2)
        (store S (evalE S s.expr x').1.mem s.t (evalE S s.expr x').2)
      rw [← g1]
      have hst' := store_same S g2.mem (target_place S hE hst (uses_inOf s out) g2.mem)
        (evalE S s.expr x).2
      intro o i ho hi
      by_cases hin : Inside E (inOf E s out) o
      · exact hst' o i hin hi
      · have hau : (E.sym o).automatic = true := by
          by_contra c; exact hin fun a => absurd a c
        have hout := ho hau
        have hd : (defs E s).getLsbD o = true := by
          by_contra c
          apply hin
          intro _
          unfold inOf
          have : (defs E s).getLsbD o = false := by simpa using c
          simp only [BitVec.getLsbD_or, BitVec.getLsbD_and, BitVec.getLsbD_not, hout, this,
            BitVec.lt_of_getLsbD hout]
          simp
        obtain ⟨q1, q2, q3, q4⟩ := defs_assign hd
        obtain ⟨w1, w2, w3⟩ := hw o q1 q2 q3 q4
        rw [store_whole S q2 q3 (hE o hau).2 w2 w1 w3 _ hi,
          store_whole S q2 q3 (hE o hau).2 w2 w1 w3 _ hi]

include hE in
/-- Executing a list of statements. -/
theorem execs_agree (hS : Confined S) : ∀ (l : List Stmt) (o : Live) (e : Expr)
    (pending : Bool) (x x' : State), Agree E (flow E l o) x x' →
    (∀ s ∈ l, WholeStore E s) → ParamsOk pending l e → (pending = false → x.args = []) →
    Agree E o (execs S l x) (execs S l x')
      ∧ (e.op ≠ .call → (execs S l x).args = [])
  | [], o, e, pending, x, x', h, _, hp, ha => by
    refine ⟨h, fun hc => ?_⟩
    cases pending
    · exact ha rfl
    · exact absurd (hp rfl) hc
  | s :: r, o, e, pending, x, x', h, hw, hp, ha => by
    unfold ParamsOk at hp
    have hn : s.st ≠ .param → x.args = [] ∨
        ((s.st = .assign ∨ s.st = .expr) ∧ s.expr.op = .call) := by
      intro hs
      rw [if_neg hs] at hp
      cases pending
      · exact Or.inl (ha rfl)
      · exact Or.inr (hp.1 rfl)
    have hpp : s.st = .param → s.expr.hasSideEffects = false := by
      intro hs; rw [if_pos hs] at hp; exact hp.1
    obtain ⟨g1, g2⟩ := exec_agree S hE hS h (hw s List.mem_cons_self) hpp hn
    have hw' : ∀ s ∈ r, WholeStore E s := fun t ht => hw t (List.mem_cons_of_mem _ ht)
    by_cases hs : s.st = .param
    · rw [if_pos hs] at hp
      exact execs_agree hS r o e true _ _ g1 hw' hp.2 (fun g => nomatch g)
    · rw [if_neg hs] at hp
      exact execs_agree hS r o e false _ _ g1 hw' hp.2 (fun _ => g2 hs)

end

end Verif.Opt
