import Verif.Opt.Spec

/-!
# Liveness within a block

What is live before a list of statements, as a function of what is live after it,
and the effect of executing the list in two memories that agree on what is live.
-/

namespace Verif.Opt

open Verif (Bytes)

def Sub (a b : Live) : Prop := ∀ k, a.getLsbD k = true → b.getLsbD k = true

theorem Sub.refl (a : Live) : Sub a a := fun _ h => h
theorem Sub.trans {a b c : Live} (h : Sub a b) (g : Sub b c) : Sub a c :=
  fun k x => g k (h k x)
theorem Sub.or_left {a b : Live} : Sub a (a ||| b) := by
  intro k h; simp [h]
theorem Sub.or_right {a b : Live} : Sub b (a ||| b) := by
  intro k h; simp [h]
theorem Sub.or {a b c : Live} (h : Sub a c) (g : Sub b c) : Sub (a ||| b) c := by
  intro k x
  simp only [BitVec.getLsbD_or, Bool.or_eq_true] at x
  exact x.elim (h k) (g k)
theorem Sub.zero (a : Live) : Sub 0 a := by
  intro k h; simp at h
theorem Sub.all (a : Live) : Sub a (BitVec.allOnes 64) := by
  intro k h
  rw [BitVec.getLsbD_allOnes]
  have := BitVec.lt_of_getLsbD h
  simpa using this
theorem Sub.mono_or {a b c d : Live} (h : Sub a b) (g : Sub c d) : Sub (a ||| c) (b ||| d) :=
  Sub.or (h.trans Sub.or_left) (g.trans Sub.or_right)
theorem Sub.antisymm {a b : Live} (h : Sub a b) (g : Sub b a) : a = b := by
  apply BitVec.eq_of_getLsbD_eq
  intro i _
  cases ha : a.getLsbD i <;> cases hb : b.getLsbD i
  · rfl
  · exact absurd (g i hb) (by rw [ha]; decide)
  · exact absurd (h i ha) (by rw [hb]; decide)
  · rfl

theorem getLsbD_bit (s k : Nat) : (bit s).getLsbD k = decide (k = s ∧ s < 64) := by
  unfold bit
  rw [BitVec.getLsbD_shiftLeft]
  by_cases h : k < 64
  · by_cases g : k < s
    · have : k ≠ s := by omega
      simp [g, this]
    · have h1 : (1#64).getLsbD (k - s) = decide (k - s = 0) := by
        rw [BitVec.getLsbD_one]; simp
      rw [h1]
      by_cases e : k = s
      · subst e; simp [h]
      · have : k - s ≠ 0 := by omega
        simp [this, e]
  · have : ¬ (k = s ∧ s < 64) := by omega
    simp [h, this]

theorem and_bit_ne_zero (a : Live) (s : Nat) :
    ((a &&& bit s) != 0) = (a.getLsbD s) := by
  cases h : a.getLsbD s
  · have : a &&& bit s = 0 := by
      apply BitVec.eq_of_getLsbD_eq
      intro i _
      rw [BitVec.getLsbD_and, getLsbD_bit]
      by_cases e : i = s
      · subst e; simp [h]
      · simp [e]
    simp [this]
  · have hs : s < 64 := BitVec.lt_of_getLsbD h
    have : a &&& bit s ≠ 0 := by
      intro e
      have g : (a &&& bit s).getLsbD s = true := by
        rw [BitVec.getLsbD_and, getLsbD_bit, h]; simp [hs]
      rw [e] at g
      simp at g
    simpa using this

def flow (E : Env) (l : List Stmt) (o : Live) : Live := (annotate E l o).2

@[simp] theorem flow_nil (E o) : flow E [] o = o := rfl
@[simp] theorem flow_cons (E s r o) : flow E (s :: r) o = inOf E s (flow E r o) := rfl

theorem inOf_mono (E : Env) (s : Stmt) {a b : Live} (h : Sub a b) :
    Sub (inOf E s a) (inOf E s b) := by
  intro k x
  simp only [inOf, BitVec.getLsbD_or, BitVec.getLsbD_and, Bool.or_eq_true,
    Bool.and_eq_true] at x ⊢
  exact x.imp (fun y => ⟨h k y.1, y.2⟩) id

theorem flow_mono (E : Env) : ∀ (l : List Stmt) {a b : Live}, Sub a b →
    Sub (flow E l a) (flow E l b)
  | [], _, _, h => h
  | s :: r, _, _, h => inOf_mono E s (flow_mono E r h)

/-- `inOf` does not look at the annotation. -/
theorem inOf_out (E : Env) (s : Stmt) (w o : Live) :
    inOf E { s with out := w } o = inOf E s o := rfl

theorem flow_annotate (E : Env) : ∀ (l : List Stmt) (o o' : Live),
    flow E (annotate E l o).1 o' = flow E l o'
  | [], _, _ => rfl
  | s :: r, o, o' => by
    show inOf E { s with out := _ } (flow E (annotate E r o).1 o') = _
    rw [flow_annotate E r]; rfl

/-! ## Agreement -/

/-- The two states agree on everything except automatic variables outside `L`. -/
structure Agree (E : Env) (L : Live) (x x' : State) : Prop where
  args : x.args = x'.args
  ptr : (∃ a ∈ x.args, E.hasPtr a.1 = true) → Same E (fun _ => True) x.mem x'.mem
  mem : Same E (fun o => (E.sym o).automatic = true → L.getLsbD o = true) x.mem x'.mem

theorem Same.mono {E : Env} {A B : Nat → Prop} {m m' : Mem} (h : Same E A m m')
    (g : ∀ o, B o → A o) : Same E B m m' := fun o i b => h o i (g o b)

theorem Agree.mono {E : Env} {L K : Live} {x x' : State} (h : Agree E L x x')
    (g : Sub K L) : Agree E K x x' :=
  ⟨h.args, h.ptr, h.mem.mono fun o a b => g o (a b)⟩

theorem Agree.outside {E : Env} {L : Live} {x x' : State} (h : Agree E L x x') :
    Same E (Outside E) x.mem x'.mem :=
  h.mem.mono fun o a b => by rw [a] at b; cases b

theorem Agree.all {E : Env} (hE : EnvOk E) {x x' : State}
    (h : Same E (fun o => (E.sym o).automatic = true →
      (BitVec.allOnes 64).getLsbD o = true) x.mem x'.mem) :
    Same E (fun _ => True) x.mem x'.mem :=
  h.mono fun o _ b => by
    rw [BitVec.getLsbD_allOnes]; simpa using (hE o b).1

section

variable {E : Env} (S : Sem E) (hE : EnvOk E)

theorem read_same {m m' : Mem} {A : Nat → Prop} (h : Same E A m m') {o : Nat} (ho : A o)
    (a n : Nat) : read E m o a n = read E m' o a n := by
  unfold read
  apply List.map_congr_left
  intro i _
  split
  · exact h o _ ho (by assumption)
  · rfl

abbrev Inside (E : Env) (L : Live) : Nat → Prop :=
  fun o => (E.sym o).automatic = true → L.getLsbD o = true

theorem use_bit {L : Live} {s : Nat} (h : Sub (bit s) L) (hE : EnvOk E) :
    Inside E L s := by
  intro a
  apply h
  rw [getLsbD_bit]
  simpa using (hE s a).1

theorem inside_of_all {L : Live} (h : Sub (BitVec.allOnes 64) L) (hE : EnvOk E) (o : Nat) :
    Inside E L o := by
  intro a
  apply h
  rw [BitVec.getLsbD_allOnes]
  simpa using (hE o a).1

include hE in
/-- Operands the analysis counts as used have the same value, and designate the
same place. -/
theorem place_same {L : Live} {m m' : Mem} (hm : Same E (Inside E L) m m') {v : Var}
    (h : Sub (setUseBit E v) L) : place S m v = place S m' v := by
  unfold place
  unfold setUseBit at h
  split <;> rename_i hk hs <;> simp only [hk, hs] at h ⊢
  · congr 2
    exact read_same hm (inside_of_all h hE _) _ _

include hE in
theorem value_same {L : Live} {m m' : Mem} (hm : Same E (Inside E L) m m') {v : Var}
    (h : Sub (setUseBit E v) L) : value S m v = value S m' v := by
  unfold value
  rw [place_same S hE hm h]
  split
  · rename_i o a hp
    have : Inside E L o := by
      unfold place at hp
      unfold setUseBit at h
      split at hp
      · rename_i hk hs
        simp only [hk, hs] at h
        split at hp
        · rename_i ho
          cases hp
          rw [if_pos ho] at h
          exact use_bit h hE
        · cases hp
      · rename_i hk hs
        simp only [hk] at h
        exact inside_of_all h hE _
      · rename_i hk hs
        simp only [hk] at h
        exact inside_of_all h hE _
      · cases hp
    rw [read_same hm this]
  · rfl

theorem write_same {A : Nat → Prop} {m m' : Mem} (hm : Same E A m m') (o a : Nat)
    {v v' : Bytes} (hl : v.length = v'.length) (hv : A o → v = v') :
    Same E A (write m o a v) (write m' o a v') := by
  intro o' i ha hi
  unfold write
  by_cases c : o' = o ∧ a ≤ i ∧ i < a + v.length
  · have c' : o' = o ∧ a ≤ i ∧ i < a + v'.length := by rw [← hl]; exact c
    rw [if_pos c, if_pos c', hv (c.1 ▸ ha)]
  · have c' : ¬ (o' = o ∧ a ≤ i ∧ i < a + v'.length) := by rw [← hl]; exact c
    rw [if_neg c, if_neg c']
    exact hm o' i ha hi

@[simp] theorem length_clip (n : Nat) (v : Bytes) : (clip n v).length = n := by
  simp [clip]

@[simp] theorem length_read (m : Mem) (o a n : Nat) : (read E m o a n).length = n := by
  simp [read]

theorem store_same {A : Nat → Prop} {m m' : Mem} (hm : Same E A m m') {v : Var}
    (hp : place S m v = place S m' v) (x : Bytes) :
    Same E A (store S m v x) (store S m' v x) := by
  unfold store
  rw [← hp]
  split
  · rename_i o a _
    apply write_same hm
    · split <;> simp
    · intro ho
      rw [read_same hm ho]
  · exact hm

theorem use_l (e : Expr) {L : Live} (h : Sub (use E e) L) : Sub (setUseBit E e.l) L := by
  unfold use at h
  split at h
  · exact Sub.or_right.trans h
  · exact h

theorem use_r (e : Expr) {L : Live} {n : Nat} (h : Sub (use E e) L) (ho : e.op = .binary n) :
    Sub (setUseBit E e.r) L := by
  unfold use at h
  rw [ho] at h
  exact Sub.or_left.trans h

include hE in
/-- Agreement is kept by evaluating an expression whose operands are live. -/
theorem evalE_agree (hS : Confined S) {L : Live} {x x' : State} (h : Agree E L x x')
    {e : Expr} (hu : Sub (use E e) L) (hargs : e.op = .vaArg → x.args = []) :
    (evalE S e x).2 = (evalE S e x').2 ∧ Agree E L (evalE S e x).1 (evalE S e x').1
      ∧ (e.hasSideEffects = false → (evalE S e x).1 = x ∧ (evalE S e x').1 = x')
      ∧ (e.op = .call → (evalE S e x).1.args = [])
      ∧ (e.op ≠ .call → (evalE S e x).1.args = x.args) := by
  have hl := value_same S hE h.mem (use_l e hu)
  cases ho : e.op with
  | call =>
    have e1 : ∀ y : State, evalE S e y
        = (⟨(S.call (value S y.mem e.l) y.args y.mem).1, []⟩,
           (S.call (value S y.mem e.l) y.args y.mem).2) := by
      intro y; unfold evalE; rw [ho]
    rw [e1, e1, ← hl, ← h.args]
    have key : (S.call (value S x.mem e.l) x.args x.mem).2
          = (S.call (value S x.mem e.l) x.args x'.mem).2
        ∧ Same E (Inside E L) (S.call (value S x.mem e.l) x.args x.mem).1
            (S.call (value S x.mem e.l) x.args x'.mem).1 := by
      by_cases hp : ∃ a ∈ x.args, E.hasPtr a.1 = true
      · obtain ⟨g1, g2⟩ := S.call_ext (value S x.mem e.l) x.args x.mem x'.mem (h.ptr hp)
        exact ⟨g1, g2.mono fun _ _ => trivial⟩
      · have hp' : ∀ a ∈ x.args, E.hasPtr a.1 = false := by
          intro a ha
          cases hb : E.hasPtr a.1
          · rfl
          · exact absurd ⟨a, ha, hb⟩ hp
        obtain ⟨g1, g2, g3⟩ := hS (value S x.mem e.l) x.args x.mem x'.mem hp' h.outside
        obtain ⟨-, -, g4⟩ := hS (value S x.mem e.l) x.args x'.mem x.mem hp'
          (fun o i a b => (h.outside o i a b).symm)
        refine ⟨g1, fun o i a b => ?_⟩
        by_cases hb : (E.sym o).automatic = true
        · rw [g3 o i hb b, g4 o i hb b]
          exact h.mem o i a b
        · exact g2 o i (by simpa [Outside] using hb) b
    refine ⟨key.1, ⟨rfl, ?_, key.2⟩, ?_, fun _ => rfl, fun g => absurd rfl g⟩
    · rintro ⟨a, ha, -⟩; cases ha
    · intro g; simp [Expr.hasSideEffects, ho] at g
  | vaArg =>
    have e1 : ∀ y : State, evalE S e y
        = (⟨store S y.mem e.l (S.vaArg e.ty (value S y.mem e.l)).2, y.args⟩,
           (S.vaArg e.ty (value S y.mem e.l)).1) := by
      intro y; unfold evalE; rw [ho]
    rw [e1, e1, ← hl]
    refine ⟨rfl, ⟨h.args, ?_, ?_⟩, ?_, (fun g => nomatch g), fun _ => rfl⟩
    · rintro ⟨a, ha, -⟩
      simp only [hargs ho] at ha
      cases ha
    · exact store_same S h.mem (place_same S hE h.mem (use_l e hu)) _
    · intro g; simp [Expr.hasSideEffects, ho] at g
  | binary n =>
    have e1 : ∀ y : State, evalE S e y
        = (y, S.op (.binary n) e.ty (value S y.mem e.l) (value S y.mem e.r)) := by
      intro y; unfold evalE; rw [ho]
    rw [e1, e1, ← hl, ← value_same S hE h.mem (use_r e hu ho)]
    exact ⟨rfl, h, fun _ => ⟨rfl, rfl⟩, (fun g => nomatch g), fun _ => rfl⟩
  | cast | not | neg =>
    unfold evalE
    rw [ho]
    simp only [← hl]
    by_cases hi : e.isIdentity = true
    · simp only [hi, if_true]
      exact ⟨trivial, h, fun _ => ⟨trivial, trivial⟩, (fun g => nomatch g), fun _ => trivial⟩
    · simp only [hi, Bool.false_eq_true, if_false]
      exact ⟨trivial, h, fun _ => ⟨trivial, trivial⟩, (fun g => nomatch g), fun _ => trivial⟩

end

end Verif.Opt
