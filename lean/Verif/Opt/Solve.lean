import Verif.Opt.Transform

/-!
# The iteration to a fixed point
-/

namespace Verif.Opt

open Verif (Bytes)

/-- Forget the annotation. -/
def erase (s : Stmt) : Stmt := { s with out := 0 }

/-- Same program up to annotations. -/
def SameCode (P Q : Prog) : Prop :=
  ∀ n, (P n).j0 = (Q n).j0 ∧ (P n).j1 = (Q n).j1
    ∧ (P n).hasReturnValue = (Q n).hasReturnValue ∧ (P n).expr = (Q n).expr
    ∧ (P n).code.map erase = (Q n).code.map erase

theorem SameCode.refl (P : Prog) : SameCode P P := fun _ => ⟨rfl, rfl, rfl, rfl, rfl⟩
theorem SameCode.symm {P Q : Prog} (h : SameCode P Q) : SameCode Q P := fun n =>
  ⟨(h n).1.symm, (h n).2.1.symm, (h n).2.2.1.symm, (h n).2.2.2.1.symm, (h n).2.2.2.2.symm⟩
theorem SameCode.trans {P Q R : Prog} (h : SameCode P Q) (g : SameCode Q R) : SameCode P R :=
  fun n => ⟨(h n).1.trans (g n).1, (h n).2.1.trans (g n).2.1, (h n).2.2.1.trans (g n).2.2.1,
    (h n).2.2.2.1.trans (g n).2.2.2.1, (h n).2.2.2.2.trans (g n).2.2.2.2⟩

theorem flow_erase (E : Env) : ∀ (l : List Stmt) (o : Live),
    flow E (l.map erase) o = flow E l o
  | [], _ => rfl
  | s :: r, o => by
    show inOf E (erase s) (flow E (r.map erase) o) = _
    rw [flow_erase E r]; rfl

theorem annotate_erase (E : Env) : ∀ (l : List Stmt) (o : Live),
    (annotate E l o).1.map erase = l.map erase
  | [], _ => rfl
  | s :: r, o => by
    show erase _ :: ((annotate E r o).1.map erase) = _
    rw [annotate_erase E r]; rfl

/-- What the analysis would compute for block `n` from the vector `X`. -/
def F (E : Env) (P : Prog) (n : Nat) (X : Nat → Live) : Live :=
  flow E (P n).code (endLive E (P n) (succLive (P n) X))

abbrev inns (P : Prog) : Nat → Live := fun n => (P n).inn

theorem endLive_same {E : Env} {P Q : Prog} (h : SameCode P Q) (n : Nat) (X : Nat → Live) :
    endLive E (P n) (succLive (P n) X) = endLive E (Q n) (succLive (Q n) X) := by
  obtain ⟨h0, h1, h2, h3, -⟩ := h n
  unfold endLive succLive
  rw [h0, h1, h2, h3]

theorem F_same {E : Env} {P Q : Prog} (h : SameCode P Q) (n : Nat) (X : Nat → Live) :
    F E P n X = F E Q n X := by
  unfold F
  rw [endLive_same h, ← flow_erase E (P n).code, (h n).2.2.2.2, flow_erase]

theorem succLive_mono (b : Block) {X Y : Nat → Live} (h : ∀ n, Sub (X n) (Y n)) :
    Sub (succLive b X) (succLive b Y) := by
  unfold succLive
  split
  · exact Sub.refl _
  · split
    · exact h _
    · exact Sub.mono_or (h _) (h _)

theorem F_mono (E : Env) (P : Prog) (n : Nat) {X Y : Nat → Live}
    (h : ∀ n, Sub (X n) (Y n)) : Sub (F E P n X) (F E P n Y) := by
  unfold F
  apply flow_mono
  unfold endLive
  split
  · exact Sub.mono_or (succLive_mono _ h) (Sub.refl _)
  · exact succLive_mono _ h

theorem visit_inn (E : Env) (P : Prog) (n k : Nat) :
    ((liveVisit E P n).1 k).inn = if k = n then F E P n (inns P) else (P k).inn := by
  unfold liveVisit liveVariableAnalysis
  by_cases h : k = n
  · subst h; simp [F, flow]
  · simp [h]

theorem visit_count (E : Env) (P : Prog) (n : Nat) :
    (liveVisit E P n).2 = if F E P n (inns P) = (P n).inn then 0 else 1 := by
  unfold liveVisit liveVariableAnalysis F flow
  by_cases h : (annotate E (P n).code (endLive E (P n) (succLive (P n) (inns P)))).2 = (P n).inn
  · rw [if_pos h]; simp [h]
  · rw [if_neg h]; simp [h]

theorem visit_same (E : Env) (P : Prog) (n : Nat) : SameCode P (liveVisit E P n).1 := by
  intro k
  unfold liveVisit liveVariableAnalysis
  by_cases h : k = n
  · subst h
    simp [annotate_erase]
  · simp [h]

theorem visit_other (E : Env) (P : Prog) (n k : Nat) (h : k ≠ n) :
    (liveVisit E P n).1 k = P k := by
  unfold liveVisit liveVariableAnalysis
  simp [h]

theorem visit_code (E : Env) (P : Prog) (n : Nat) :
    ((liveVisit E P n).1 n).code
      = (annotate E (P n).code (endLive E (P n) (succLive (P n) (inns P)))).1 := by
  unfold liveVisit liveVariableAnalysis
  simp

/-- A direction in which the iteration makes progress. -/
structure Dir where
  R : Live → Live → Prop
  μ : Live → Nat
  refl : ∀ a, R a a
  trans : ∀ {a b c}, R a b → R b c → R a c
  drop : ∀ {a b}, R a b → a ≠ b → μ b < μ a
  mono : ∀ (E : Env) (P : Prog) (n : Nat) {X Y : Nat → Live}, (∀ n, R (X n) (Y n)) →
    R (F E P n X) (F E P n Y)
  bound : ∀ a, μ a ≤ 2 ^ 64

theorem Sub.toNat_le {a b : Live} (h : Sub a b) : a.toNat ≤ b.toNat := by
  have : a = a &&& b := by
    apply BitVec.eq_of_getLsbD_eq
    intro i _
    rw [BitVec.getLsbD_and]
    cases ha : a.getLsbD i
    · rfl
    · rw [h i ha]; rfl
  rw [this, BitVec.toNat_and]
  exact Nat.and_le_right

def up : Dir where
  R := Sub
  μ := fun a => 2 ^ 64 - a.toNat
  refl := Sub.refl
  trans := Sub.trans
  drop := by
    intro a b h hne
    have h1 := h.toNat_le
    have h2 : a.toNat ≠ b.toNat := fun e => hne (BitVec.eq_of_toNat_eq e)
    have h3 := b.isLt
    show 2 ^ 64 - b.toNat < 2 ^ 64 - a.toNat
    omega
  mono := fun E P n _ _ h => F_mono E P n h
  bound := fun a => Nat.sub_le _ _

def down : Dir where
  R := fun a b => Sub b a
  μ := fun a => a.toNat
  refl := Sub.refl
  trans := fun h g => g.trans h
  drop := by
    intro a b h hne
    have h1 := h.toNat_le
    have h2 : a.toNat ≠ b.toNat := fun e => hne (BitVec.eq_of_toNat_eq e)
    show b.toNat < a.toNat
    omega
  mono := fun E P n _ _ h => F_mono E P n h
  bound := fun a => Nat.le_of_lt a.isLt

def potential (D : Dir) (bl : List Nat) (P : Prog) : Nat := (bl.map fun n => D.μ (P n).inn).sum

def Moving (D : Dir) (E : Env) (bl : List Nat) (P : Prog) : Prop :=
  ∀ n ∈ bl, D.R (P n).inn (F E P n (inns P))

theorem sum_map_le {l : List Nat} {f g : Nat → Nat} (h : ∀ n, f n ≤ g n) :
    (l.map f).sum ≤ (l.map g).sum := by
  induction l with
  | nil => exact Nat.le_refl _
  | cons a l ih => simp only [List.map_cons, List.sum_cons]; have := h a; omega

theorem sum_map_lt {l : List Nat} {f g : Nat → Nat} (h : ∀ n, f n ≤ g n) {n : Nat}
    (hn : n ∈ l) (hlt : f n < g n) : (l.map f).sum < (l.map g).sum := by
  induction l with
  | nil => cases hn
  | cons a l ih =>
    simp only [List.map_cons, List.sum_cons]
    rcases List.mem_cons.1 hn with rfl | hn
    · have := sum_map_le (l := l) h; omega
    · have := ih hn; have := h a; omega

theorem visit_moving (D : Dir) {E : Env} {bl : List Nat} {P : Prog} (h : Moving D E bl P)
    {n : Nat} (hn : n ∈ bl) :
    Moving D E bl (liveVisit E P n).1
      ∧ potential D bl (liveVisit E P n).1 + (liveVisit E P n).2 ≤ potential D bl P := by
  have hle : ∀ k, D.R (P k).inn ((liveVisit E P n).1 k).inn := by
    intro k
    rw [visit_inn]
    split
    · rename_i e; subst e; exact h k hn
    · exact D.refl _
  constructor
  · intro k hk
    rw [← F_same (visit_same E P n)]
    have hm := D.mono E P k (X := inns P) (Y := inns (liveVisit E P n).1) hle
    rw [visit_inn]
    split
    · rename_i e; subst e; exact hm
    · exact D.trans (h k hk) hm
  · have hμ : ∀ k, D.μ ((liveVisit E P n).1 k).inn ≤ D.μ (P k).inn := by
      intro k
      by_cases e : (P k).inn = ((liveVisit E P n).1 k).inn
      · rw [← e]
      · exact Nat.le_of_lt (D.drop (hle k) e)
    rw [visit_count]
    unfold potential
    split
    · have := sum_map_le (l := bl) hμ; omega
    · rename_i hne
      have : D.μ ((liveVisit E P n).1 n).inn < D.μ (P n).inn := by
        apply D.drop (hle n)
        rw [visit_inn, if_pos rfl]
        exact fun e => hne e.symm
      have := sum_map_lt hμ hn this
      omega

theorem traverse_moving (D : Dir) {E : Env} {bl : List Nat} : ∀ (ns : List Nat) (P : Prog),
    (∀ n ∈ ns, n ∈ bl) → Moving D E bl P →
    Moving D E bl (traverse (liveVisit E) ns P).1
      ∧ potential D bl (traverse (liveVisit E) ns P).1 + (traverse (liveVisit E) ns P).2
        ≤ potential D bl P
  | [], _, _, h => ⟨h, Nat.le_refl _⟩
  | n :: ns, P, hs, h => by
    obtain ⟨a1, a2⟩ := visit_moving D h (hs n List.mem_cons_self)
    obtain ⟨b1, b2⟩ := traverse_moving D ns _ (fun k hk => hs k (List.mem_cons_of_mem _ hk)) a1
    refine ⟨b1, ?_⟩
    show potential D bl (traverse (liveVisit E) ns (liveVisit E P n).1).1
      + ((liveVisit E P n).2 + (traverse (liveVisit E) ns (liveVisit E P n).1).2) ≤ _
    omega

theorem traverse_same {E : Env} : ∀ (ns : List Nat) (P : Prog),
    SameCode P (traverse (liveVisit E) ns P).1
  | [], P => SameCode.refl P
  | n :: ns, P => (visit_same E P n).trans (traverse_same ns _)

/-- The iteration comes to an end. -/
theorem dataflow_terminates (D : Dir) {E : Env} {bl : List Nat} : ∀ (fuel : Nat) (P : Prog),
    Moving D E bl P → potential D bl P < fuel → ∃ Q, dataflow E bl fuel P = some Q
  | 0, _, _, h => absurd h (Nat.not_lt_zero _)
  | fuel + 1, P, hm, h => by
    obtain ⟨a1, a2⟩ := traverse_moving D bl P (fun _ h => h) hm
    unfold dataflow
    by_cases hc : (traverse (liveVisit E) bl P).2 = 0
    · simp only [hc, if_true]
      exact ⟨_, rfl⟩
    · simp only [hc, if_false]
      exact dataflow_terminates D fuel _ a1 (by omega)

theorem potential_bound (D : Dir) (bl : List Nat) (P : Prog) :
    potential D bl P ≤ bl.length * 2 ^ 64 := by
  unfold potential
  induction bl with
  | nil => simp
  | cons a l ih =>
    simp only [List.map_cons, List.sum_cons, List.length_cons, Nat.add_mul, Nat.one_mul]
    have := D.bound (P a).inn
    omega

/-- The state the iteration stops in. -/
structure Fixed (E : Env) (bl : List Nat) (P : Prog) : Prop where
  eq : ∀ n ∈ bl, (P n).inn = F E P n (inns P)
  ann : ∀ n ∈ bl, Ann E (P n).code (endLive E (P n) (succLive (P n) (inns P)))

theorem traverse_other {E : Env} : ∀ (ns : List Nat) (P : Prog) (k : Nat), k ∉ ns →
    (traverse (liveVisit E) ns P).1 k = P k
  | [], _, _, _ => rfl
  | n :: ns, P, k, h => by
    have h1 : k ≠ n := fun e => h (e ▸ List.mem_cons_self)
    have h2 : k ∉ ns := fun e => h (List.mem_cons_of_mem _ e)
    show (traverse (liveVisit E) ns (liveVisit E P n).1).1 k = P k
    rw [traverse_other ns _ k h2, visit_other E P n k h1]

theorem traverse_zero {E : Env} : ∀ (ns : List Nat) (P : Prog),
    (traverse (liveVisit E) ns P).2 = 0 →
    inns (traverse (liveVisit E) ns P).1 = inns P
      ∧ ∀ n ∈ ns, (P n).inn = F E P n (inns P)
        ∧ Ann E ((traverse (liveVisit E) ns P).1 n).code
            (endLive E (P n) (succLive (P n) (inns P)))
  | [], P, _ => ⟨rfl, fun _ h => by cases h⟩
  | n :: ns, P, h => by
    have h' : (liveVisit E P n).2 + (traverse (liveVisit E) ns (liveVisit E P n).1).2 = 0 := h
    have ha : (liveVisit E P n).2 = 0 := by omega
    have hb : (traverse (liveVisit E) ns (liveVisit E P n).1).2 = 0 := by omega
    rw [visit_count] at ha
    have hF : F E P n (inns P) = (P n).inn := by
      by_contra c; rw [if_neg c] at ha; cases ha
    have hi : inns (liveVisit E P n).1 = inns P := by
      funext k
      show ((liveVisit E P n).1 k).inn = _
      rw [visit_inn]
      split
      · rename_i e; subst e; exact hF
      · rfl
    obtain ⟨c1, c2⟩ := traverse_zero ns _ hb
    have hsame := visit_same E P n
    refine ⟨c1.trans hi, ?_⟩
    intro k hk
    show (P k).inn = _ ∧ Ann E ((traverse (liveVisit E) ns (liveVisit E P n).1).1 k).code _
    by_cases hkn : k ∈ ns
    · obtain ⟨d1, d2⟩ := c2 k hkn
      rw [hi, ← F_same hsame] at d1
      rw [hi, ← endLive_same hsame] at d2
      refine ⟨?_, d2⟩
      rw [← d1]
      exact (congrFun hi k).symm
    · rcases List.mem_cons.1 hk with rfl | hk
      · refine ⟨hF.symm, ?_⟩
        rw [traverse_other ns _ k hkn, visit_code]
        exact ann_annotate E _ _
      · exact absurd hk hkn

theorem dataflow_fixed {E : Env} {bl : List Nat} : ∀ (fuel : Nat) (P Q : Prog),
    dataflow E bl fuel P = some Q → SameCode P Q ∧ Fixed E bl Q
  | 0, _, _, h => by cases h
  | fuel + 1, P, Q, h => by
    unfold dataflow at h
    by_cases hc : (traverse (liveVisit E) bl P).2 = 0
    · simp only [hc, if_true, Option.some.injEq] at h
      subst h
      obtain ⟨c1, c2⟩ := traverse_zero bl P hc
      have hsame := traverse_same (E := E) bl P
      refine ⟨hsame, ⟨fun n hn => ?_, fun n hn => ?_⟩⟩
      · rw [c1, ← F_same hsame]
        exact (congrFun c1 n).trans (c2 n hn).1
      · rw [c1, ← endLive_same hsame]
        exact (c2 n hn).2
    · simp only [hc, if_false] at h
      obtain ⟨a, b⟩ := dataflow_fixed fuel _ Q h
      exact ⟨(traverse_same bl P).trans a, b⟩

end Verif.Opt
