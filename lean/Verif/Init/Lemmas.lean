import Verif.Init.Spec
import Verif.Tac

/-!
# Lemmas about sorting, padding and merging
-/

namespace Verif.Init

/-! ## Writes -/

theorem run_nil (m : Mem) : run [] m = m := rfl

theorem run_cons (a : Asg) (as : List Asg) (m : Mem) : run (a :: as) m = run as (a.write m) := rfl

theorem run_append (as bs : List Asg) (m : Mem) : run (as ++ bs) m = run bs (run as m) := by
  simp [run, List.foldl_append]

theorem write_comm {a b : Asg} (h : a.stop ≤ b.start) (m : Mem) : a.write (b.write m) = b.write (a.write m) := by
  funext i
  simp only [Asg.write, Asg.stop] at *
  split <;> split <;> first | rfl | omega

theorem start_same {a b : Asg} (h : Same a b) : a.start = b.start := by
  obtain ⟨h1, h2, h3, h4⟩ := h
  simp [Asg.start, h1, h2, h3]

theorem len_same {a b : Asg} (h : Same a b) : a.len = b.len := by
  obtain ⟨h1, h2, h3, h4⟩ := h
  simp [Asg.len, h3, h4]

theorem write_absorb {a b : Asg} (h : Same a b) (m : Mem) : b.write (a.write m) = b.write m := by
  funext i
  simp only [Asg.write, start_same h, len_same h]
  split <;> rfl

theorem len_pos {a : Asg} (h : 1 ≤ a.size) : 1 ≤ a.len := by
  unfold Asg.len; split <;> omega

/-! ## Sorting -/

/-- Last one first. -/
def Sorted (rev : List Asg) : Prop := rev.Pairwise fun y z => Before z y

theorem before_trans {a b c : Asg} (hb : 1 ≤ b.size) (h1 : Before a b) (h2 : Before b c) : Before a c := by
  obtain ⟨h1, h3, h5, h7⟩ := h1
  obtain ⟨h2, h4, h6, h8⟩ := h2
  have := len_pos hb
  have hab : a.stop ≤ c.start := by unfold Asg.stop at *; omega
  refine ⟨hab, by omega, fun h => ⟨(h5 (by omega)).1, (h6 (by omega)).2⟩, fun h => ?_⟩
  by_cases h9 : b.off < c.off
  · have := h8 h9
    unfold Asg.stop at *
    omega
  · have := h7 (by omega)
    omega

theorem before_off_fo {a b : Asg} (ha : 1 ≤ a.size) (ha' : a.fw = 0 → a.fo = 0) 
    (h : Before a b) : ¬ (a.off = b.off ∧ a.fo = b.fo) := by
  rintro ⟨h1, h2⟩
  have := h.2.2.1 h1
  have := len_pos ha
  have := h.1
  unfold Asg.stop Asg.start at *
  split at this <;> simp_all

theorem insertRev_ok (x : Asg) (hx : 1 ≤ x.size) (hx' : x.fw = 0 → x.fo = 0) : ∀ rev : List Asg,
    (∀ y ∈ rev, 1 ≤ y.size ∧ (y.fw = 0 → y.fo = 0)) → (∀ y ∈ rev, Compat y x) → Sorted rev →
    ∃ r, insertRev rev x = .ok r ∧ Sorted r ∧ (∀ z ∈ r, z = x ∨ z ∈ rev) ∧
      (∀ m, run r.reverse m = x.write (run rev.reverse m)) ∧ (∀ z, Before z x → (∀ y ∈ rev, Before z y) → ∀ y ∈ r, Before z y) := by
  intro rev
  induction rev with
  | nil =>
    intro _ _ _
    exact ⟨[x], rfl, List.pairwise_singleton _ _, by simp, fun m => rfl, by simp⟩
  | cons y ys ih =>
    intro hr hc hs
    obtain ⟨hy, hy'⟩ := hr y (by simp)
    have hcy := hc y (by simp)
    have hs2 := hs
    rw [Sorted, List.pairwise_cons] at hs
    unfold insertRev
    by_cases h1 : y.off > x.off
    · rw [if_pos h1]
      have hb : Before x y := by
        rcases hcy with h | h | h
        · exact absurd h.1 (by omega)
        · exact absurd h.2.1 (by omega)
        · exact h.1
      obtain ⟨r, e, s1, s2, s3, s4⟩ := ih (fun z hz => hr z (by simp [hz])) (fun z hz => hc z (by simp [hz])) hs.2
      refine ⟨y :: r, by rw [e]; rfl, ?_, ?_, ?_, ?_⟩
      · rw [Sorted, List.pairwise_cons]
        refine ⟨?_, s1⟩
        intro z hz
        rcases s2 z hz with rfl | h
        · exact hb
        · exact hs.1 z h
      · intro z hz
        rcases List.mem_cons.1 hz with rfl | h
        · simp
        · rcases s2 z h with rfl | h
          · simp
          · simp [h]
      · intro m
        rw [List.reverse_cons, run_append, s3, List.reverse_cons, run_append]
        simp only [run_cons, run_nil]
        exact (write_comm hb.1 _).symm
      · intro z hz hzz w hw
        rcases List.mem_cons.1 hw with rfl | h
        · exact hzz w (by simp)
        · exact s4 z hz (fun v hv => hzz v (by simp [hv])) w h
    · rw [if_neg h1]
      by_cases h2 : y.off = x.off ∧ y.fo = x.fo
      · rw [if_pos h2]
        have hsm : Same y x := by
          rcases hcy with h | h | h
          · exact h
          · exact absurd h2 (before_off_fo hy hy' h)
          · exact absurd h2.1 h.2
        rw [if_pos hsm.2.2.1]
        refine ⟨x :: ys, rfl, ?_, ?_, ?_, ?_⟩
        · rw [Sorted, List.pairwise_cons]
          refine ⟨fun z hz => ?_, hs.2⟩
          have := hs.1 z hz
          unfold Before at *
          rw [← start_same hsm, ← hsm.1, ← hsm.2.2.1]
          exact this
        · intro z hz
          rcases List.mem_cons.1 hz with h | h <;> simp [h]
        · intro m
          rw [List.reverse_cons, run_append, List.reverse_cons, run_append]
          simp only [run_cons, run_nil]
          exact (write_absorb hsm _).symm
        · intro z hz hzz w hw
          rcases List.mem_cons.1 hw with rfl | h
          · exact hz
          · exact hzz w (by simp [h])
      · rw [if_neg h2]
        have hb : Before y x := by
          rcases hcy with h | h | h
          · exact absurd ⟨h.1, h.2.1⟩ h2
          · exact h
          · have := h.1.2.1
            exact absurd (show y.off = x.off by omega) h.2
        refine ⟨x :: y :: ys, rfl, ?_, ?_, ?_, ?_⟩
        · rw [Sorted, List.pairwise_cons]
          refine ⟨?_, hs2⟩
          intro z hz
          rcases List.mem_cons.1 hz with rfl | h
          · exact hb
          · exact before_trans hy (hs.1 z h) hb
        · simp
        · intro m
          rw [List.reverse_cons, run_append]
          simp only [run_cons, run_nil]
        · intro z hz hzz w hw
          rcases List.mem_cons.1 hw with rfl | h
          · exact hz
          · exact hzz w h

theorem sortFrom_ok : ∀ (xs rev : List Asg), (∀ y ∈ rev ++ xs, 1 ≤ y.size ∧ (y.fw = 0 → y.fo = 0)) →
    (∀ y ∈ rev, ∀ x ∈ xs, Compat y x) → xs.Pairwise Compat → Sorted rev →
    ∃ r, sortFrom rev xs = .ok r ∧ r.Pairwise Before ∧ (∀ z ∈ r, z ∈ rev ∨ z ∈ xs) ∧
      ∀ m, run r m = run xs (run rev.reverse m) := by
  intro xs
  induction xs with
  | nil =>
    intro rev hr _ _ hs
    refine ⟨rev.reverse, rfl, ?_, by simp, fun m => rfl⟩
    rw [List.pairwise_reverse]
    exact hs
  | cons x xs ih =>
    intro rev hr hc hp hs
    obtain ⟨hx, hx'⟩ := hr x (by simp)
    rw [List.pairwise_cons] at hp
    obtain ⟨r, e, s1, s2, s3, -⟩ := insertRev_ok x hx hx' rev (fun y hy => hr y (by simp [hy]))
      (fun y hy => hc y hy x (by simp)) hs
    obtain ⟨r', e', t1, t2, t3⟩ := ih r
      (by
        intro y hy
        rcases List.mem_append.1 hy with h | h
        · rcases s2 y h with rfl | h
          · exact ⟨hx, hx'⟩
          · exact hr y (by simp [h])
        · exact hr y (by simp [h]))
      (by
        intro y hy z hz
        rcases s2 y hy with rfl | h
        · exact hp.1 z hz
        · exact hc y h z (by simp [hz]))
      hp.2 s1
    refine ⟨r', by simp only [sortFrom, e]; exact e', t1, ?_, ?_⟩
    · intro z hz
      rcases t2 z hz with h | h
      · rcases s2 z h with rfl | h
        · simp
        · simp [h]
      · simp [h]
    · intro m
      rw [t3, s3, run_cons]

/-! ## Padding -/

/-- Zero the bits from `p` to `q`. -/
def clear (p q : Nat) (m : Mem) : Mem := fun i => if p ≤ i ∧ i < q then false else m i

theorem contiguous_append {p q r : Nat} {as bs : List Asg} :
    Contiguous p as q → Contiguous q bs r → Contiguous p (as ++ bs) r := by
  induction as generalizing p with
  | nil => intro h1 h2; cases h1; exact h2
  | cons a as ih => intro h1 h2; exact ⟨h1.1, ih h1.2 h2⟩

theorem contiguous_le {p q : Nat} {as : List Asg} : Contiguous p as q → p ≤ q := by
  induction as generalizing p with
  | nil => intro h; exact Nat.le_of_eq h
  | cons a as ih => intro h; exact Nat.le_trans (Nat.le_add_right _ _) (ih h.2)

/-- Consecutive zeros clear the range. -/
theorem run_zeros : ∀ (ps : List Asg) (p q : Nat) (m : Mem), (∀ a ∈ ps, a.val = .imm 0) → Contiguous p ps q →
    run ps m = clear p q m := by
  intro ps
  induction ps with
  | nil =>
    intro p q m _ h
    cases h
    funext i
    simp only [run_nil, clear]
    rw [if_neg (by omega)]
  | cons a as ih =>
    intro p q m hz h
    rw [run_cons, ih (p + a.len) q _ (fun b hb => hz b (by simp [hb])) h.2]
    have h3 := contiguous_le h.2
    funext i
    have hv : ∀ j, a.val.bit j = false := by
      intro j
      rw [hz a (by simp)]
      simp [Val.bit]
    simp only [clear, Asg.write, h.1, hv]
    split <;> split <;> first | rfl | omega | (split <;> first | rfl | omega)

def lastOf : Asg → List Asg → Asg
  | x, [] => x
  | _, p :: ps => lastOf p ps

/-- Two consecutive statements: at the same offset only as fields, with the size of the storage unit; a new offset starts at
field offset 0. -/
def Link (U : Nat → Nat) (x y : Asg) : Prop :=
  (x.off = y.off → x.fw ≠ 0 ∧ y.fw ≠ 0 ∧ max 4 (max x.size y.size) = U x.off) ∧ (x.off ≠ y.off → y.fo = 0)

def Linked (U : Nat → Nat) : Asg → List Asg → Prop
  | _, [] => True
  | x, y :: ys => Link U x y ∧ Linked U y ys

theorem linked_append {U : Nat → Nat} {x : Asg} {ps qs : List Asg} :
    Linked U x ps → Linked U (lastOf x ps) qs → Linked U x (ps ++ qs) := by
  induction ps generalizing x with
  | nil => intro _ h; exact h
  | cons p ps ih => intro h1 h2; exact ⟨h1.1, ih h1.2 h2⟩

theorem lastOf_append (x : Asg) (ps qs : List Asg) : lastOf x (ps ++ qs) = lastOf (lastOf x ps) qs := by
  induction ps generalizing x with
  | nil => rfl
  | cons p ps ih => exact ih p

/-- A statement of the result. -/
def Elem (U : Nat → Nat) (e : Asg) : Prop :=
  1 ≤ e.size ∧ (e.fw = 0 → e.fo = 0) ∧
    (e.fw ≠ 0 → (∃ v, e.val = .imm v) ∧ e.fo + e.fw ≤ U e.off * 8 ∧ e.size ≤ U e.off)

theorem chunk_le (n : Nat) (h : 0 < n) : 1 ≤ chunk n ∧ chunk n ≤ n := by
  unfold chunk
  dsimp only
  split <;> split <;> omega

theorem zeroBytes_ok (U : Nat → Nat) (S : Nat) : ∀ (fuel off n : Nat) (x : Asg), n ≤ fuel → off + n ≤ S →
    (∀ o, off ≤ o → o ≤ S → x.off ≠ o) →
    Contiguous (off * 8) (zeroBytes fuel off n) ((off + n) * 8) ∧ (∀ a ∈ zeroBytes fuel off n, a.val = .imm 0 ∧ Elem U a ∧ a.fw = 0) ∧
    Linked U x (zeroBytes fuel off n) ∧ ∀ o, off + n ≤ o → o ≤ S → (lastOf x (zeroBytes fuel off n)).off ≠ o := by
  intro fuel
  induction fuel with
  | zero =>
    intro off n x hn hS hx
    have : n = 0 := by omega
    subst this
    exact ⟨rfl, by simp [zeroBytes], trivial, hx⟩
  | succ fuel ih =>
    intro off n x hn hS hx
    unfold zeroBytes
    by_cases h : n = 0
    · subst h
      rw [if_pos rfl]
      exact ⟨rfl, by simp, trivial, hx⟩
    · rw [if_neg h]
      obtain ⟨h1, h2⟩ := chunk_le n (by omega)
      obtain ⟨i1, i2, i3, i4⟩ := ih (off + chunk n) (n - chunk n) (zero off 0 0 (chunk n)) (by omega) (by omega)
        (by intro o ho _; simp only [zero]; omega)
      have he : off + chunk n + (n - chunk n) = off + n := by omega
      rw [he] at i1 i4
      refine ⟨⟨by simp [zero, Asg.start], ?_⟩, ?_, ⟨⟨?_, fun _ => rfl⟩, i3⟩, i4⟩
      · have : off * 8 + (zero off 0 0 (chunk n)).len = (off + chunk n) * 8 := by simp [zero, Asg.len]; omega
        rw [this]; exact i1
      · intro a ha
        rcases List.mem_cons.1 ha with rfl | h
        · exact ⟨rfl, ⟨h1, fun _ => rfl, fun h => absurd rfl h⟩, rfl⟩
        · exact i2 a h
      · intro h
        exact absurd h (hx off (Nat.le_refl _) (by omega))

/-- The position `off`, `fo` reached after statement `x`. -/
def At (U : Nat → Nat) (S : Nat) (x : Asg) (off fo : Nat) : Prop :=
  (fo = 0 → ∀ o, off ≤ o → o ≤ S → x.off ≠ o) ∧
    (fo ≠ 0 → x.off = off ∧ x.fw ≠ 0 ∧ max 4 x.size = U off ∧ fo ≤ U off * 8)

/-- What is known about the last statement before `off`, `fo` when the next one is real. -/
def Reach (U : Nat → Nat) (S : Nat) (x : Asg) (off fo : Nat) : Prop :=
  (fo = 0 → ∀ o, off ≤ o → o ≤ S → x.off ≠ o) ∧ (fo ≠ 0 → x.off = off ∧ x.fw ≠ 0 ∧ x.size ≤ U off)

/-- The gap is one that `initialize_padding` fills correctly. -/
def GoodGap (off fo noff : Nat) : Prop :=
  off < noff → fo ≠ 0 → off * 8 + fo = noff * 8 → fo = 8 ∨ fo = 16 ∨ fo = 32 ∨ fo = 64

theorem fieldPad_ok (U : Nat → Nat) (hU : ∀ o, U o = 4 ∨ U o = 8) (S off fo nfo : Nat) (hS : off ≤ S) (x : Asg) (hx : At U S x off fo) (h : fo ≤ nfo)
    (h64 : nfo ≠ 0 → nfo < U off * 8 ∨ fo = nfo) :
    ∃ ps, fieldPad off fo nfo = .ok ps ∧ Contiguous (off * 8 + fo) ps (off * 8 + nfo) ∧
      (∀ a ∈ ps, a.val = .imm 0 ∧ Elem U a ∧ a.fw ≠ 0) ∧ (nfo = 0 → ps = []) ∧ Linked U x ps ∧ Reach U S (lastOf x ps) off nfo := by
  unfold fieldPad
  rw [if_neg (by omega)]
  by_cases h1 : nfo = fo
  · rw [if_pos h1]
    refine ⟨[], rfl, by rw [h1]; rfl, by simp, fun _ => rfl, trivial, ?_⟩
    subst h1
    refine ⟨hx.1, fun h => ?_⟩
    obtain ⟨a, b, c, d⟩ := hx.2 h
    exact ⟨a, b, by show x.size ≤ _; omega⟩
  · rw [if_neg h1]
    have hlt : nfo < U off * 8 := by
      rcases h64 (by omega) with h | h
      · exact h
      · omega
    have hu := hU off
    rw [if_neg (by omega)]
    generalize hs : (if nfo > 32 then 8 else if nfo > 16 then 4 else if nfo > 8 then 2 else 1 : Nat) = s
    have hs1 : 1 ≤ s ∧ s ≤ U off := by
      rw [← hs]
      split
      · omega
      · split
        · omega
        · split <;> omega
    have hw : nfo - fo ≠ 0 := by omega
    refine ⟨_, rfl, ⟨?_, ?_⟩, ?_, by omega, ⟨⟨?_, ?_⟩, trivial⟩, ?_⟩
    · simp [zero, Asg.start, hw]
    · simp [zero, Asg.len, hw, Contiguous]; omega
    · simp only [List.mem_singleton]
      rintro a rfl
      exact ⟨rfl, ⟨hs1.1, fun h => absurd h hw, fun _ => ⟨⟨0, rfl⟩, by simp only [zero]; omega, hs1.2⟩⟩, hw⟩
    · intro he
      simp only [zero] at he
      by_cases h0 : fo = 0
      · exact absurd he (hx.1 h0 off (Nat.le_refl _) hS)
      · obtain ⟨a, b, c, d⟩ := hx.2 h0
        refine ⟨b, hw, ?_⟩
        simp only [zero]
        rw [a]
        omega
    · intro he
      simp only [zero] at he ⊢
      by_contra h0
      exact he (hx.2 h0).1
    · exact ⟨fun h => absurd h (by omega), fun _ => ⟨rfl, hw, hs1.2⟩⟩

theorem closeUnit_ok (U : Nat → Nat) (hU : ∀ o, U o = 4 ∨ U o = 8) (S off fo noff : Nat) (hS : noff ≤ S) (x : Asg) (hx : At U S x off fo) (hlt : off < noff)
    (h : off * 8 + fo ≤ noff * 8) (hg : GoodGap off fo noff) :
    ∃ ps off', closeUnit off fo noff = .ok (ps, off') ∧ off' ≤ noff ∧ Contiguous (off * 8 + fo) ps (off' * 8) ∧
      (∀ a ∈ ps, a.val = .imm 0 ∧ Elem U a) ∧ (fo = 0 → ps = []) ∧ Linked U x ps ∧ ∀ o, off' ≤ o → o ≤ S → (lastOf x ps).off ≠ o := by
  unfold closeUnit
  by_cases h1 : fo = 8 ∨ fo = 16 ∨ fo = 32 ∨ fo = 64
  · rw [if_pos h1]
    obtain ⟨a, b, c, d⟩ := hx.2 (by omega)
    refine ⟨[], _, rfl, by omega, ?_, by simp, fun _ => rfl, trivial, ?_⟩
    · show off * 8 + fo = _
      omega
    · intro o ho _
      simp only [lastOf]
      omega
  · rw [if_neg h1]
    by_cases h0 : fo = 0
    · rw [if_pos h0]
      subst h0
      exact ⟨[], _, rfl, by omega, rfl, by simp, fun _ => rfl, trivial, hx.1 rfl⟩
    · rw [if_neg h0]
      obtain ⟨a, b, c, d⟩ := hx.2 h0
      have hu := hU off
      rw [if_neg (by omega)]
      generalize hs : (if fo < 32 then 4 else 8 : Nat) = s
      have hs1 : (s = 4 ∨ s = 8) ∧ s ≤ U off ∧ fo < s * 8 := by
        rw [← hs]
        split <;> omega
      dsimp only
      have hb : ¬ off * 8 + fo = noff * 8 := by
        intro e
        exact h1 (hg hlt h0 e)
      rw [if_neg (by omega), if_neg (by omega)]
      generalize hw : s * 8 - fo - (off + s - noff) * 8 = w
      have hw0 : w ≠ 0 := by omega
      refine ⟨_, _, rfl, by omega, ⟨?_, ?_⟩, ?_, by omega, ⟨⟨?_, ?_⟩, trivial⟩, ?_⟩
      · simp [zero, Asg.start, hw0]
      · simp only [zero, Asg.len, hw0, Contiguous, if_false]
        omega
      · simp only [List.mem_singleton]
        rintro e rfl
        exact ⟨rfl, ⟨by simp only [zero]; omega, fun h => absurd h hw0, fun _ => ⟨⟨0, rfl⟩, by simp only [zero]; omega, hs1.2.1⟩⟩⟩
      · intro _
        refine ⟨b, hw0, ?_⟩
        simp only [zero]
        rw [a]
        omega
      · intro he
        simp only [zero] at he
        exact absurd a he
      · intro o ho _
        simp only [lastOf, zero]
        omega

theorem padding_ok (U : Nat → Nat) (hU : ∀ o, U o = 4 ∨ U o = 8) (S off fo noff nfo : Nat) (hS : noff ≤ S) (x : Asg) (hx : At U S x off fo) (hle : off ≤ noff)
    (h : off * 8 + fo ≤ noff * 8 + nfo) (h' : off < noff → off * 8 + fo ≤ noff * 8) (hg : GoodGap off fo noff)
    (h64 : nfo ≠ 0 → nfo < U noff * 8) :
    ∃ ps, padding off fo noff nfo = .ok ps ∧ Contiguous (off * 8 + fo) ps (noff * 8 + nfo) ∧
      (∀ a ∈ ps, a.val = .imm 0 ∧ Elem U a) ∧ (fo = 0 → nfo = 0 → ∀ a ∈ ps, a.fw = 0) ∧ Linked U x ps ∧
      Reach U S (lastOf x ps) noff nfo := by
  unfold padding
  rw [if_neg (by omega)]
  by_cases h1 : off = noff
  · rw [if_pos h1]
    subst h1
    obtain ⟨ps, e, c, z, n, l, r⟩ := fieldPad_ok U hU S off fo nfo hS x hx (by omega) (fun h => .inl (h64 h))
    exact ⟨ps, e, c, fun a ha => ⟨(z a ha).1, (z a ha).2.1⟩, fun _ h => by simp [n h], l, r⟩
  · rw [if_neg h1]
    have hlt : off < noff := by omega
    obtain ⟨ps, off', e, hoff, c, z, n, l, r⟩ := closeUnit_ok U hU S off fo noff hS x hx hlt (h' hlt) hg
    obtain ⟨zc, zz, zl, zr⟩ := zeroBytes_ok U S (noff - off') off' (noff - off') (lastOf x ps) (Nat.le_refl _) (by omega) r
    have he : off' + (noff - off') = noff := by omega
    rw [he] at zc zr
    have hat : At U S (lastOf (lastOf x ps) (zeroBytes (noff - off') off' (noff - off'))) noff 0 := ⟨fun _ => zr, fun h => absurd rfl h⟩
    obtain ⟨qs, e', c', z', n', l', r'⟩ := fieldPad_ok U hU S noff 0 nfo hS _ hat (by omega) (fun h => .inl (h64 h))
    refine ⟨ps ++ zeroBytes (noff - off') off' (noff - off') ++ qs, ?_, ?_, ?_, ?_, ?_, ?_⟩
    · rw [e]
      show (if off' > noff then _ else _) = _
      rw [if_neg (by omega), e']
      rfl
    · exact contiguous_append (contiguous_append c zc) c'
    · intro a ha
      rcases List.mem_append.1 ha with h | h
      · rcases List.mem_append.1 h with h | h
        · exact z a h
        · exact ⟨(zz a h).1, (zz a h).2.1⟩
      · exact ⟨(z' a h).1, (z' a h).2.1⟩
    · intro h0 h0' a ha
      rw [n h0, n' h0'] at ha
      simp only [List.nil_append, List.append_nil] at ha
      exact (zz a ha).2.2
    · refine linked_append (linked_append l zl) ?_
      rw [lastOf_append]
      exact l'
    · rw [lastOf_append, lastOf_append]
      exact r'

/-! ## Filling the gaps -/

/-- An element that comes from the source. -/
def Real (U : Nat → Nat) (S : Nat) (a : Asg) : Prop :=
  Elem U a ∧ (a.fw ≠ 0 → max 4 a.size = U a.off) ∧ a.off < S ∧ a.stop ≤ S * 8

theorem clear_step {p q s : Nat} {a : Asg} (m : Mem) (h1 : p ≤ a.start) (h2 : a.stop ≤ s) (hq : q = a.start) :
    clear a.stop s (a.write (clear p q m)) = a.write (clear p s m) := by
  funext i
  subst hq
  have : a.stop = a.start + a.len := rfl
  simp only [clear, Asg.write]
  split <;> split <;> first | rfl | omega | (split <;> first | rfl | omega | (split <;> first | rfl | omega))

theorem fill_ok (U : Nat → Nat) (hU : ∀ o, U o = 4 ∨ U o = 8) (S : Nat) : ∀ (as : List Asg) (off fo : Nat) (x : Asg),
    At U S x off fo → (∀ a ∈ as, Real U S a) → as.Pairwise Before →
    (∀ a ∈ as, off ≤ a.off ∧ off * 8 + fo ≤ a.start ∧ (off < a.off → off * 8 + fo ≤ a.off * 8)) → off ≤ S → off * 8 + fo ≤ S * 8 →
    (∀ a ∈ as, GoodGap off fo a.off) → GoodGap off fo S →
    (∀ a ∈ as, ∀ b ∈ as, a.fw ≠ 0 → GoodGap a.off (a.fo + a.fw) b.off) → (∀ a ∈ as, a.fw ≠ 0 → GoodGap a.off (a.fo + a.fw) S) →
    ∃ out, fill S off fo as = .ok out ∧ Contiguous (off * 8 + fo) out (S * 8) ∧ (∀ a ∈ out, Elem U a) ∧ (∀ a ∈ as, a ∈ out) ∧
      (fo = 0 → (∀ a ∈ as, a.fw = 0) → ∀ a ∈ out, a.fw = 0) ∧ Linked U x out ∧
      ∀ m, run out m = run as (clear (off * 8 + fo) (S * 8) m) := by
  intro as
  induction as with
  | nil =>
    intro off fo x hx _ _ _ hS hS' _ hg _ _
    obtain ⟨ps, e, c, z, n, l, -⟩ := padding_ok U hU S off fo S 0 (Nat.le_refl _) x hx hS (by omega) (by omega) hg (fun h => absurd rfl h)
    refine ⟨ps, e, c, fun a ha => (z a ha).2, by simp, fun h _ => n h rfl, l, fun m => ?_⟩
    rw [run_zeros ps _ _ m (fun a ha => (z a ha).1) c]
    rfl
  | cons a as ih =>
    intro off fo x hx hr hp hpos hS hS' hga hgS hgg hggS
    obtain ⟨⟨ha1, ha2, ha3⟩, ha4, ha5, ha6⟩ := hr a (by simp)
    obtain ⟨p1, p2, p2'⟩ := hpos a (by simp)
    have hst : a.start = a.off * 8 + a.fo := by
      unfold Asg.start
      split
      · rename_i h; rw [ha2 h]; rfl
      · rfl
    have hu := hU a.off
    have hfw : a.fo ≠ 0 → a.fw ≠ 0 := fun h h' => h (ha2 h')
    obtain ⟨ps, e, c, z, n, l, r⟩ := padding_ok U hU S off fo a.off a.fo (by omega) x hx p1 (by omega) p2' (hga a (by simp))
      (fun h => by have := (ha3 (hfw h)).2.1; have := hfw h; omega)
    have hlink : Link U (lastOf x ps) a := by
      constructor
      · intro he
        by_cases h0 : a.fo = 0
        · exact absurd he (r.1 h0 a.off (Nat.le_refl _) (by omega))
        · obtain ⟨r1, r2, r3⟩ := r.2 h0
          have := ha4 (hfw h0)
          refine ⟨r2, hfw h0, ?_⟩
          rw [r1]
          omega
      · intro he
        by_contra h0
        exact he (r.2 h0).1
    rw [List.pairwise_cons] at hp
    have hnext : ∀ noff nfo, At U S a noff nfo → noff * 8 + nfo = a.stop → a.off ≤ noff →
        (∀ b ∈ as, noff ≤ b.off ∧ (noff < b.off → noff * 8 + nfo ≤ b.off * 8)) → noff ≤ S → (∀ b ∈ as, GoodGap noff nfo b.off) →
        GoodGap noff nfo S → (a.fw = 0 → nfo = 0) → 
        fill S off fo (a :: as) = (do let p ← padding off fo a.off a.fo; let r ← fill S noff nfo as; .ok (p ++ a :: r)) →
        ∃ out, fill S off fo (a :: as) = .ok out ∧ Contiguous (off * 8 + fo) out (S * 8) ∧ (∀ b ∈ out, Elem U b) ∧
          (∀ b ∈ a :: as, b ∈ out) ∧ (fo = 0 → (∀ b ∈ a :: as, b.fw = 0) → ∀ b ∈ out, b.fw = 0) ∧ Linked U x out ∧
          ∀ m, run out m = run (a :: as) (clear (off * 8 + fo) (S * 8) m) := by
      intro noff nfo hat hstop hoff hb hnS hg1 hg2 hz hfill
      obtain ⟨out, o1, o2, o3, o4, o5, o6, o7⟩ := ih noff nfo a hat (fun b hb => hr b (by simp [hb])) hp.2
        (fun b hb' => ⟨(hb b hb').1, by rw [hstop]; exact (hp.1 b hb').1, (hb b hb').2⟩) hnS (by omega) hg1 hg2
        (fun b hb c hc => hgg b (by simp [hb]) c (by simp [hc])) (fun b hb => hggS b (by simp [hb]))
      refine ⟨ps ++ a :: out, ?_, ?_, ?_, ?_, ?_, ?_, ?_⟩
      · rw [hfill, e, o1]; rfl
      · refine contiguous_append c ⟨hst, ?_⟩
        rw [← hst]
        rw [hstop] at o2
        exact o2
      · intro b hb
        rcases List.mem_append.1 hb with h | h
        · exact (z b h).2
        · rcases List.mem_cons.1 h with rfl | h
          · exact ⟨ha1, ha2, ha3⟩
          · exact o3 b h
      · intro b hb
        rcases List.mem_cons.1 hb with rfl | h
        · simp
        · simp [o4 b h]
      · intro h0 hall b hb
        have ha0 := hall a (by simp)
        rcases List.mem_append.1 hb with h | h
        · exact n h0 (ha2 ha0) b h
        · rcases List.mem_cons.1 h with rfl | h
          · exact ha0
          · exact o5 (hz ha0) (fun b hb => hall b (by simp [hb])) b h
      · exact linked_append l ⟨hlink, o6⟩
      · intro m
        rw [run_append, run_cons, o7, run_zeros ps _ _ m (fun a ha => (z a ha).1) c, run_cons, hstop,
          clear_step m p2 ha6 hst.symm]
    by_cases hf : a.fw = 0
    · have hlen : a.stop = (a.off + a.size) * 8 := by
        unfold Asg.stop
        rw [hst, ha2 hf]
        simp only [Asg.len, hf, if_true]
        omega
      refine hnext (a.off + a.size) a.fo ?_ ?_ (by omega) ?_ (by omega) ?_ ?_ (fun _ => ha2 hf) ?_
      · exact ⟨fun _ o ho _ => by omega, fun h => absurd (ha2 hf) h⟩
      · rw [hlen, ha2 hf]; rfl
      · intro b hb
        obtain ⟨q1, q2, q3, q4⟩ := hp.1 b hb
        have q5 : a.off < b.off := by
          rcases Nat.lt_or_eq_of_le q2 with h | h
          · exact h
          · exact absurd hf (q3 h).1
        have := q4 q5
        rw [ha2 hf]
        omega
      · intro b hb h h'
        exact absurd (ha2 hf) h'
      · intro h h'
        exact absurd (ha2 hf) h'
      · simp only [fill, hf, if_true]
    · have hlen : a.stop = a.off * 8 + (a.fo + a.fw) := by
        unfold Asg.stop
        rw [hst]
        simp only [Asg.len, hf, if_false]
        omega
      have hu' := ha3 hf
      refine hnext a.off (a.fo + a.fw) ?_ ?_ (by omega) ?_ (by omega) ?_ ?_ (fun h => absurd h hf) ?_
      · exact ⟨fun h => by omega, fun _ => ⟨rfl, hf, ha4 hf, hu'.2.1⟩⟩
      · rw [hlen]
      · intro b hb
        obtain ⟨q1, q2, q3, q4⟩ := hp.1 b hb
        rw [← hlen]
        exact ⟨q2, q4⟩
      · intro b hb
        exact hgg a (by simp) b (by simp [hb]) hf
      · exact hggS a (by simp) hf
      · simp only [fill, hf, if_false]

/-! ## Merging -/

theorem mask_bit (w i : Nat) (hw : w < 64) : ((1#64 <<< w) - 1#64).getLsbD i = decide (i < w) := by
  have h : ((1#64 <<< w) - 1#64) = BitVec.ofNat 64 (2 ^ w - 1) := by
    apply BitVec.eq_of_toNat_eq
    have h1 : 2 ^ w < 2 ^ 64 := Nat.pow_lt_pow_right (by omega) hw
    have h2 : 1 ≤ 2 ^ w := Nat.one_le_two_pow
    simp [BitVec.toNat_sub, Nat.shiftLeft_eq]
    omega
  rw [h, BitVec.getLsbD_ofNat, Nat.testBit_two_pow_sub_one]
  by_cases h1 : i < w <;> simp [h1]
  omega

theorem merged_bit (va vb : BitVec 64) (n k j : Nat) (hn : n < 64) (hk : k < 64) (hs : n + k ≤ 64) :
    (((va &&& ((1#64 <<< n) - 1#64)) <<< 0) ||| ((vb &&& ((1#64 <<< k) - 1#64)) <<< n)).getLsbD j =
      if j < n then va.getLsbD j else if j < n + k then vb.getLsbD (j - n) else false := by
  simp only [BitVec.getLsbD_or, BitVec.getLsbD_shiftLeft, BitVec.getLsbD_and, mask_bit _ _ hn, mask_bit _ _ hk]
  split
  · rename_i h
    simp [h, show j < 64 by omega]
  · rename_i h
    split
    · rename_i h'
      simp [h, show j < 64 by omega, show j - n < k by omega]
    · rename_i h'
      simp [h, show ¬ j - n < k by omega]

theorem merge_ok (U : Nat → Nat) (hU : ∀ o, U o = 4 ∨ U o = 8) (a b : Asg) (ha : Elem U a) (hb : Elem U b) (h0 : a.fo = 0)
    (hs : b.start = a.stop) (he : a.off = b.off) (hl : Link U a b) :
    ∃ c, mergeAsg a b = .ok (.yes c) ∧ Elem U c ∧ c.fo = 0 ∧ c.off = a.off ∧ c.start = a.start ∧ c.stop = b.stop ∧ c.size = U a.off ∧
      (∀ m, c.write m = b.write (a.write m)) ∧ (c.fw = 0 → c.stop = (a.off + U a.off) * 8) := by
  obtain ⟨f1, f2, f3⟩ := hl.1 he
  obtain ⟨-, -, a1⟩ := ha
  obtain ⟨-, -, b1⟩ := hb
  obtain ⟨⟨va, a2⟩, a3, a4⟩ := a1 f1
  obtain ⟨⟨vb, b2⟩, b3, b4⟩ := b1 f2
  have hbfo : b.fo = a.fw := by
    unfold Asg.stop Asg.start Asg.len at hs
    rw [if_neg f1, if_neg f2, if_neg f1] at hs
    omega
  rw [← he] at b3 b4
  have hu := hU a.off
  have hfin : mergeAsg a b = .ok (.yes { a with
      size := max 4 (max a.size b.size)
      val := .imm (((va &&& ((1#64 <<< a.fw) - 1#64)) <<< a.fo) ||| ((vb &&& ((1#64 <<< b.fw) - 1#64)) <<< b.fo))
      fw := if a.fo = 0 ∧ a.fw + b.fw = max 4 (max a.size b.size) * 8 then 0 else a.fw + b.fw }) := by
    unfold mergeAsg Asg.const?
    rw [a2, b2]
    dsimp only
    rw [if_neg (by omega), if_neg (by omega), if_neg (by omega)]
  refine ⟨_, hfin, ?_, h0, rfl, ?_, ?_, f3, ?_, ?_⟩
  · refine ⟨?_, fun _ => h0, fun _ => ⟨⟨_, rfl⟩, ?_, ?_⟩⟩
    · simp only; omega
    · simp only
      split <;> omega
    · simp only; omega
  · simp only [Asg.start, f1, h0, if_false, Nat.add_zero, ite_self]
  · unfold Asg.stop Asg.start Asg.len
    simp only [h0, f2, f3, if_false, Nat.add_zero, ite_self, true_and]
    split <;> split <;> omega
  · intro m
    funext i
    have hlen : ∀ (z : Val), ({ a with
      size := max 4 (max a.size b.size)
      val := z
      fw := if a.fo = 0 ∧ a.fw + b.fw = max 4 (max a.size b.size) * 8 then 0 else a.fw + b.fw } : Asg).len = a.fw + b.fw := by
      intro z
      unfold Asg.len
      simp only [h0, f3, true_and]
      split <;> split <;> omega
    have hst : ∀ (z : Val), ({ a with
      size := max 4 (max a.size b.size)
      val := z
      fw := if a.fo = 0 ∧ a.fw + b.fw = max 4 (max a.size b.size) * 8 then 0 else a.fw + b.fw } : Asg).start = a.off * 8 := by
      intro z
      simp only [Asg.start, h0, Nat.add_zero, ite_self]
    have ha' : a.start = a.off * 8 := by simp only [Asg.start, h0, Nat.add_zero, ite_self]
    have hb' : b.start = a.off * 8 + a.fw := by simp only [Asg.start, f2, if_false, hbfo, ← he]
    have hla : a.len = a.fw := by simp only [Asg.len, f1, if_false]
    have hlb : b.len = b.fw := by simp only [Asg.len, f2, if_false]
    have hbit : ∀ j, (Val.imm (((va &&& ((1#64 <<< a.fw) - 1#64)) <<< a.fo) |||
        ((vb &&& ((1#64 <<< b.fw) - 1#64)) <<< b.fo))).bit j =
        if j < a.fw then va.getLsbD j else if j < a.fw + b.fw then vb.getLsbD (j - a.fw) else false := by
      intro j
      rw [h0, hbfo]
      exact merged_bit va vb a.fw b.fw j (by omega) (by omega) (by omega)
    unfold Asg.write
    rw [hlen, hst, ha', hb', hla, hlb]
    simp only [hbit]
    simp only [a2, b2, Val.bit]
    by_cases hA : a.off * 8 ≤ i ∧ i < a.off * 8 + a.fw
    · rw [if_pos (by omega), if_pos (by omega), if_neg (by omega), if_pos hA]
    · by_cases hB : a.off * 8 + a.fw ≤ i ∧ i < a.off * 8 + a.fw + b.fw
      · rw [if_pos (by omega), if_neg (by omega), if_pos (by omega), if_pos hB]
        congr 1; omega
      · rw [if_neg (by omega), if_neg hB, if_neg hA]
  · intro hz
    unfold Asg.stop Asg.start Asg.len
    simp only at hz ⊢
    rw [if_pos hz, if_pos hz, f3]
    omega

theorem mergeAsg_no (a b : Asg) (h : a.off ≠ b.off) : mergeAsg a b = .ok .no := by
  unfold mergeAsg
  split
  · rw [if_pos h]
  · rfl

/-- Whole bytes at the start of a unit. -/
def WholeBytes (e : Asg) : Prop := e.fo = 0 ∧ e.fw % 8 = 0

theorem mergeAll_ok (U : Nat → Nat) (hU : ∀ o, U o = 4 ∨ U o = 8) (S : Nat) : ∀ (bs : List Asg) (a : Asg), Elem U a → a.fo = 0 →
    (∀ b ∈ bs, Elem U b) → Contiguous a.stop bs (S * 8) → Linked U a bs →
    ∃ out, mergeAll a bs = .ok out ∧ Contiguous a.start out (S * 8) ∧ (∀ e ∈ out, WholeBytes e) ∧
      ∀ m, run out m = run (a :: bs) m := by
  intro bs
  induction bs with
  | nil =>
    intro a ha h0 _ hc _
    refine ⟨[a], rfl, ⟨rfl, hc⟩, ?_, fun m => rfl⟩
    simp only [List.mem_singleton]
    rintro e rfl
    refine ⟨h0, ?_⟩
    have hc' : e.stop = S * 8 := hc
    unfold Asg.stop Asg.start Asg.len at hc'
    split at hc' <;> omega
  | cons b bs ih =>
    intro a ha h0 hb hc hl
    have hb1 := hb b (by simp)
    by_cases he : a.off = b.off
    · obtain ⟨c, e, c1, c2, c3, c4, c5, c6, c7, c8⟩ := merge_ok U hU a b ha hb1 h0 hc.1 he hl.1
      obtain ⟨out, o1, o2, o3, o4⟩ := ih c c1 c2 (fun z hz => hb z (by simp [hz]))
        (by
          rw [c5]
          have : b.stop = a.stop + b.len := by rw [← hc.1]; rfl
          rw [this]; exact hc.2)
        (by
          cases bs with
          | nil => trivial
          | cons d ds =>
            obtain ⟨l1, l2, l3⟩ := hl
            refine ⟨⟨?_, ?_⟩, l3⟩
            · intro hd
              have hd1 := hb d (by simp)
              obtain ⟨k1, k2, k3⟩ := l2.1 (by rw [← hd, c3, he])
              obtain ⟨-, k4, k5⟩ := hd1.2.2 k2
              rw [← hd, c3] at k4 k5
              have hu := hU a.off
              refine ⟨?_, k2, by rw [c6, c3]; omega⟩
              intro hz
              have := c8 hz
              have h3 : d.start = a.stop + b.len := hc.2.1
              have h4 : c.stop = a.stop + b.len := by rw [c5, ← hc.1]; rfl
              have h5 : d.start = d.off * 8 + d.fo := by unfold Asg.start; rw [if_neg k2]
              rw [← hd, c3] at h5
              omega
            · intro hd
              exact l2.2 (by rw [← he, ← c3]; exact hd))
      refine ⟨out, ?_, by rw [← c4]; exact o2, o3, fun m => ?_⟩
      · rw [mergeAll, e]
        exact o1
      · rw [o4, run_cons, c7]
        rfl
    · have hbfo := hl.1.2 he
      obtain ⟨out, o1, o2, o3, o4⟩ := ih b hb1 hbfo (fun z hz => hb z (by simp [hz]))
        (by
          have : b.stop = a.stop + b.len := by rw [← hc.1]; rfl
          rw [this]; exact hc.2) hl.2
      have hbs : b.start = b.off * 8 := by unfold Asg.start; rw [hbfo]; simp
      have has : a.start = a.off * 8 := by unfold Asg.start; rw [h0]; simp
      refine ⟨a :: out, ?_, ⟨rfl, ?_⟩, ?_, fun m => ?_⟩
      · rw [mergeAll, mergeAsg_no a b he]
        show (do let r ← mergeAll b bs; .ok (a :: r)) = _
        rw [o1]; rfl
      · have : b.start = a.start + a.len := hc.1
        rw [← this]; exact o2
      · intro e hm
        rcases List.mem_cons.1 hm with rfl | h
        · refine ⟨h0, ?_⟩
          have h1 : b.start = e.start + e.len := hc.1
          unfold Asg.len at h1
          split at h1 <;> omega
        · exact o3 e h
      · rw [run_cons, o4]; rfl

theorem validate_ok : ∀ (as : List Asg) (prev : Option Nat) (p q : Nat), (∀ e ∈ as, WholeBytes e) → Contiguous p as (q * 8) →
    validate prev p as = .ok q := by
  intro as
  induction as with
  | nil =>
    intro prev p q _ h
    have h : p = q * 8 := h
    subst h
    unfold validate
    rw [if_pos (by omega)]
    congr 1
    omega
  | cons a as ih =>
    intro prev p q hw hc
    obtain ⟨h1, h2⟩ := hw a (by simp)
    have hst : a.start = a.off * 8 := by unfold Asg.start; rw [h1]; simp
    have hc1 := hc.1
    have hc2 := hc.2
    unfold validate
    by_cases hf : a.fw = 0
    · rw [if_neg (by simp [hf]), if_neg (by omega)]
      have hl : a.len = a.size * 8 := by simp [Asg.len, hf]
      rw [hl] at hc2
      exact ih _ _ _ (fun e he => hw e (by simp [he])) hc2
    · rw [if_pos hf, if_neg (by simp [h1]), if_neg (by rw [h1]; omega)]
      have hl : a.len = a.fw := by simp [Asg.len, hf]
      rw [hl] at hc2
      exact ih _ _ _ (fun e he => hw e (by simp [he])) hc2

/-! ## The result as a function of the bits before -/

theorem run_congr (as : List Asg) (i : Nat) : ∀ m m' : Mem, m i = m' i → run as m i = run as m' i := by
  induction as with
  | nil => intro m m' h; exact h
  | cons a as ih =>
    intro m m' h
    rw [run_cons, run_cons]
    apply ih
    simp only [Asg.write]
    split
    · rfl
    · exact h

theorem run_outside (as : List Asg) (i S : Nat) (hS : S ≤ i) : ∀ m : Mem, (∀ a ∈ as, a.stop ≤ S) → run as m i = m i := by
  induction as with
  | nil => intro m _; rfl
  | cons a as ih =>
    intro m h
    rw [run_cons, ih _ (fun b hb => h b (by simp [hb]))]
    have := h a (by simp)
    unfold Asg.stop at this
    simp only [Asg.write]
    rw [if_neg (by omega)]

theorem run_clear (vs : List Asg) (S : Nat) (h : ∀ a ∈ vs, a.stop ≤ S) (m : Mem) (i : Nat) :
    run vs (clear 0 S m) i = if i < S then wanted vs i else m i := by
  split
  · rename_i hi
    exact run_congr vs i _ _ (by simp [clear, hi])
  · rename_i hi
    rw [run_outside vs i S (by omega) _ h]
    simp [clear, hi]

end Verif.Init
