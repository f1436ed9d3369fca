import Verif.Opt.Whole
import Mathlib.Data.List.Perm.Subperm

/-!
# Termination, jump threading and the order of blocks
-/

namespace Verif.Opt

open Verif (Bytes)

section

variable {E : Env}

/-- A semantics in which calls do nothing; used where only the syntax matters. -/
def idle (E : Env) : Sem E where
  decode := fun _ _ => (0, 0)
  addr := fun _ _ => []
  const := fun _ _ => []
  op := fun _ _ _ _ => []
  fieldGet := fun _ _ v => v
  fieldPut := fun _ _ v _ => v
  call := fun _ _ m => (m, [])
  call_ext := fun _ _ _ _ h => ⟨rfl, h⟩
  vaArg := fun _ v => (v, v)
  vaStart := []
  truth := fun _ => true

theorem idle_confined : Confined (idle E) := fun _ _ _ _ _ h => ⟨rfl, h, fun _ _ _ _ => rfl⟩

theorem moving_of_post {bl : List Nat} {P : Prog} (h : Post E bl P) : Moving down E bl P := h

theorem moving_init {bl : List Nat} {P : Prog} : Moving up E bl (initDataflow P) :=
  fun _ _ => Sub.zero _

theorem optRound_some {D : Dir} {bl : List Nat} {P : Prog} {fuel : Nat} (h : Moving D E bl P)
    (hf : bl.length * 2 ^ 64 < fuel) : ∃ q, optRound E bl fuel P = some q := by
  obtain ⟨Q, hQ⟩ := dataflow_terminates D fuel P h
    (Nat.lt_of_le_of_lt (potential_bound D bl P) hf)
  unfold optRound
  rw [hQ]
  exact ⟨_, rfl⟩

theorem optLoop_some (hE : EnvOk E) {bl : List Nat} (h0 : 0 ∈ bl) (hd : bl.Nodup) {fuel : Nat}
    (hf : bl.length * 2 ^ 64 < fuel) :
    ∀ (k : Nat) (P : Prog) (D : Dir), ProgOk E P → Closed P bl → Moving D E bl P →
      total bl P < k → ∃ Q, optLoop E bl fuel k P = some Q
  | 0, _, _, _, _, _, h => absurd h (Nat.not_lt_zero _)
  | k + 1, P, D, hok, hc, hm, h => by
    obtain ⟨⟨R, n⟩, hr⟩ := optRound_some hm hf
    obtain ⟨-, a2, a3, a4, a5⟩ := optRound_ok (idle E) hE idle_confined h0 hd hok hc hr
    unfold optLoop
    rw [hr]
    simp only
    split
    · exact ⟨_, rfl⟩
    · exact optLoop_some hE h0 hd hf k R down a2 a3 (moving_of_post a4) (by omega)

/-! ## Jump threading -/

def Empty (b : Block) : Prop := b.code = [] ∧ b.j1 = none ∧ b.j0.isSome

theorem run_goto (S : Sem E) {P : Prog} {n m : Nat} {x y : State} {k : Nat}
    (h : stepBlock S P n x = .goto m y) : run S P (k + 1) n x = run S P k m y := by
  show (match stepBlock S P n x with
    | .goto n' x' => run S P k n' x'
    | .done v m => .done v m) = _
  rw [h]

theorem skipTo_steps (S : Sem E) (P : Prog) : ∀ (fuel x x' : Nat), skipTo P fuel x = some x' →
    ∃ j, (∀ k st, run S P (j + k) x st = run S P k x' st)
      ∧ (∀ k st, k ≤ j → ∃ y, run S P k x st = .goto y st)
  | 0, _, _, h => by cases h
  | fuel + 1, x, x', h => by
    unfold skipTo at h
    split at h
    · rename_i hc
      cases hj : (P x).j0 with
      | none =>
        rw [hj] at h
        cases h
        exact ⟨0, fun k st => by rw [Nat.zero_add], fun k st hk => ⟨x, by
          have : k = 0 := by omega
          subst this; rfl⟩⟩
      | some y =>
        rw [hj] at h
        obtain ⟨j, h1, h2⟩ := skipTo_steps S P fuel y x' h
        have hs : ∀ st, stepBlock S P x st = .goto y st := by
          intro st
          unfold stepBlock leave
          rw [hc.1, hc.2, hj]
          rfl
        refine ⟨j + 1, ?_, ?_⟩
        · intro k st
          have : j + 1 + k = (j + k) + 1 := by omega
          rw [this, run_goto S (hs st)]
          exact h1 k st
        · intro k st hk
          cases k with
          | zero => exact ⟨x, rfl⟩
          | succ k =>
            obtain ⟨z, hz⟩ := h2 k st (by omega)
            refine ⟨z, ?_⟩
            rw [run_goto S (hs st)]
            exact hz
    · cases h
      exact ⟨0, fun k st => by rw [Nat.zero_add], fun k st hk => ⟨x, by
          have : k = 0 := by omega
          subst this; rfl⟩⟩

theorem skipTo_mem (P : Prog) {bl : List Nat} (hc : Closed P bl) : ∀ (fuel x x' : Nat),
    skipTo P fuel x = some x' → x ∈ bl → x' ∈ bl
  | 0, _, _, h, _ => by cases h
  | fuel + 1, x, x', h, hx => by
    unfold skipTo at h
    split at h
    · cases hj : (P x).j0 with
      | none => rw [hj] at h; cases h; exact hx
      | some y => rw [hj] at h; exact skipTo_mem P hc fuel y x' h ((hc x hx).1 y hj)
    · cases h; exact hx

/-- Redirecting the edges of one block past empty blocks. -/
structure Redirect (S : Sem E) (P Q : Prog) (n : Nat) : Prop where
  other : ∀ k, k ≠ n → Q k = P k
  code : (Q n).code = (P n).code
  expr : (Q n).expr = (P n).expr
  ret : (Q n).hasReturnValue = (P n).hasReturnValue
  inn : (Q n).inn = (P n).inn
  step : ∀ st, match stepBlock S P n st, stepBlock S Q n st with
    | .goto a x, .goto b y => x = y ∧ ∃ j, (∀ k st, run S P (j + k) a st = run S P k b st)
        ∧ (∀ k st, k ≤ j → ∃ z, run S P k a st = .goto z st)
    | .done v m, .done v' m' => v = v' ∧ m = m'
    | _, _ => False

theorem redirect_fwd (S : Sem E) {P Q : Prog} {n : Nat} (h : Redirect S P Q n) : ∀ (k i : Nat),
    i ≤ k → ∀ (a : Nat) (x : State) (v : Option Bytes) (m : Mem),
    run S P i a x = .done v m → ∃ k', run S Q k' a x = .done v m
  | 0, i, hi, a, x, v, m, hr => by
    have : i = 0 := by omega
    subst this; cases hr
  | k + 1, i, hi, a, x, v, m, hr => by
    cases i with
    | zero => cases hr
    | succ i =>
      unfold run at hr
      by_cases ha : a = n
      · subst ha
        have hs := h.step x
        cases h1 : stepBlock S P a x with
        | goto b y =>
          rw [h1] at hs hr
          cases h2 : stepBlock S Q a x with
          | goto c z =>
            rw [h2] at hs
            obtain ⟨rfl, j, j1, j2⟩ := hs
            have hij : j ≤ i := by
              by_contra c'
              obtain ⟨w, hw⟩ := j2 i y (by omega)
              simp only at hr
              rw [hw] at hr; cases hr
            obtain ⟨d, rfl⟩ : ∃ d, i = j + d := ⟨i - j, by omega⟩
            simp only at hr
            rw [j1] at hr
            obtain ⟨k', hk'⟩ := redirect_fwd S h k d (by omega) c y v m hr
            refine ⟨k' + 1, ?_⟩
            unfold run
            rw [h2]
            exact hk'
          | done => rw [h2] at hs; exact hs.elim
        | done v1 m1 =>
          rw [h1] at hs hr
          cases h2 : stepBlock S Q a x with
          | goto => rw [h2] at hs; exact hs.elim
          | done v2 m2 =>
            rw [h2] at hs
            obtain ⟨rfl, rfl⟩ := hs
            refine ⟨1, ?_⟩
            unfold run
            rw [h2]
            exact hr
      · have e : stepBlock S Q a x = stepBlock S P a x := by
          unfold stepBlock; rw [h.other a ha]
        cases h1 : stepBlock S P a x with
        | goto b y =>
          rw [h1] at hr
          obtain ⟨k', hk'⟩ := redirect_fwd S h k i (by omega) b y v m hr
          refine ⟨k' + 1, ?_⟩
          unfold run
          rw [e, h1]
          exact hk'
        | done v1 m1 =>
          rw [h1] at hr
          refine ⟨1, ?_⟩
          unfold run
          rw [e, h1]
          exact hr

theorem redirect_bwd (S : Sem E) {P Q : Prog} {n : Nat} (h : Redirect S P Q n) : ∀ (k : Nat)
    (a : Nat) (x : State) (v : Option Bytes) (m : Mem),
    run S Q k a x = .done v m → ∃ k', run S P k' a x = .done v m
  | 0, a, x, v, m, hr => by cases hr
  | k + 1, a, x, v, m, hr => by
    unfold run at hr
    by_cases ha : a = n
    · subst ha
      have hs := h.step x
      cases h2 : stepBlock S Q a x with
      | goto c z =>
        rw [h2] at hs hr
        cases h1 : stepBlock S P a x with
        | goto b y =>
          rw [h1] at hs
          obtain ⟨rfl, j, j1, -⟩ := hs
          obtain ⟨k', hk'⟩ := redirect_bwd S h k c y v m hr
          refine ⟨j + k' + 1, ?_⟩
          unfold run
          rw [h1]
          simp only
          rw [j1]
          exact hk'
        | done => rw [h1] at hs; exact hs.elim
      | done v2 m2 =>
        rw [h2] at hs hr
        cases h1 : stepBlock S P a x with
        | goto => rw [h1] at hs; exact hs.elim
        | done v1 m1 =>
          rw [h1] at hs
          obtain ⟨rfl, rfl⟩ := hs
          refine ⟨1, ?_⟩
          unfold run
          rw [h1]
          exact hr
    · have e : stepBlock S Q a x = stepBlock S P a x := by
        unfold stepBlock; rw [h.other a ha]
      rw [e] at hr
      cases h1 : stepBlock S P a x with
      | goto b y =>
        rw [h1] at hr
        obtain ⟨k', hk'⟩ := redirect_bwd S h k b y v m hr
        refine ⟨k' + 1, ?_⟩
        unfold run
        rw [h1]
        exact hk'
      | done v1 m1 =>
        rw [h1] at hr
        refine ⟨1, ?_⟩
        unfold run
        rw [h1]
        exact hr

theorem redirect_equiv (S : Sem E) {P Q : Prog} {n : Nat} (h : Redirect S P Q n) :
    Equiv S P Q := by
  intro m v
  constructor
  · rintro m' ⟨k, hk⟩
    exact ⟨m', redirect_fwd S h k k (Nat.le_refl _) 0 _ v m' hk, fun _ _ _ _ => rfl⟩
  · rintro m' ⟨k, hk⟩
    exact ⟨m', redirect_bwd S h k 0 _ v m' hk, fun _ _ _ _ => rfl⟩

theorem redirect_none (S : Sem E) (P : Prog) (n : Nat) : Redirect S P P n where
  other := fun _ _ => rfl
  code := rfl
  expr := rfl
  ret := rfl
  inn := rfl
  step := by
    intro st
    cases stepBlock S P n st with
    | goto a x => exact ⟨rfl, 0, fun k st => by rw [Nat.zero_add], fun k st hk => by
        have : k = 0 := by omega
        subst this; exact ⟨a, rfl⟩⟩
    | done => exact ⟨rfl, rfl⟩

theorem redirect_j0 (S : Sem E) {P : Prog} {n x x' fuel : Nat} (hx : (P n).j0 = some x)
    (h : skipTo P fuel x = some x') :
    Redirect S P (setJ0 P n x') n where
  other := fun k hk => by simp [setJ0, setJ1, hk]
  code := by simp [setJ0, setJ1]
  expr := by simp [setJ0, setJ1]
  ret := by simp [setJ0, setJ1]
  inn := by simp [setJ0, setJ1]
  step := by
    intro st
    obtain ⟨j, j1, j2⟩ := skipTo_steps S P fuel x x' h
    unfold stepBlock leave
    simp only [setJ0, if_true, hx]
    cases (P n).j1 with
    | none => exact ⟨rfl, j, j1, j2⟩
    | some y =>
      simp only
      cases S.truth (evalE S (P n).expr (execs S (P n).code st)).2 with
      | true => exact ⟨trivial, 0, fun k st => by simp, fun k st hk => by
          have : k = 0 := by omega
          subst this; exact ⟨y, by simp [run]⟩⟩
      | false => exact ⟨trivial, j, j1, j2⟩

theorem redirect_j1 (S : Sem E) {P : Prog} {n x y y' fuel : Nat} (hx : (P n).j0 = some x)
    (hy : (P n).j1 = some y) (h : skipTo P fuel y = some y') :
    Redirect S P (setJ1 P n y') n where
  other := fun k hk => by simp [setJ0, setJ1, hk]
  code := by simp [setJ0, setJ1]
  expr := by simp [setJ0, setJ1]
  ret := by simp [setJ0, setJ1]
  inn := by simp [setJ0, setJ1]
  step := by
    intro st
    obtain ⟨j, j1, j2⟩ := skipTo_steps S P fuel y y' h
    unfold stepBlock leave
    simp only [setJ1, if_true, hx, hy]
    cases S.truth (evalE S (P n).expr (execs S (P n).code st)).2 with
    | true => exact ⟨trivial, j, j1, j2⟩
    | false => exact ⟨trivial, 0, fun k st => by simp, fun k st hk => by
          have : k = 0 := by omega
          subst this; exact ⟨x, by simp [run]⟩⟩

/-- Empty blocks do not form a cycle: they can be ranked. -/
def Ranked (P : Prog) (rank : Nat → Nat) : Prop :=
  ∀ n y, (P n).code = [] → (P n).j1 = none → (P n).j0 = some y → rank y < rank n

theorem skipTo_some {P : Prog} {rank : Nat → Nat} (h : Ranked P rank) : ∀ (fuel x : Nat),
    rank x < fuel → ∃ x', skipTo P fuel x = some x' ∧ rank x' ≤ rank x
  | 0, _, h' => absurd h' (Nat.not_lt_zero _)
  | fuel + 1, x, h' => by
    unfold skipTo
    split
    · rename_i hc
      cases hj : (P x).j0 with
      | none => exact ⟨x, rfl, Nat.le_refl _⟩
      | some y =>
        have hr := h x y hc.1 hc.2 hj
        obtain ⟨x', g1, g2⟩ := skipTo_some h fuel y (by omega)
        exact ⟨x', g1, by omega⟩
    · exact ⟨x, rfl, Nat.le_refl _⟩

theorem ranked_j0 {P : Prog} {rank : Nat → Nat} (h : Ranked P rank) {n x x' : Nat}
    (hx : (P n).j0 = some x) (hle : rank x' ≤ rank x) :
    Ranked (setJ0 P n x') rank := by
  intro k y
  unfold setJ0
  by_cases e : k = n
  · subst e
    simp only [if_true, Option.some.injEq]
    rintro a b rfl
    exact Nat.lt_of_le_of_lt hle (h k x a b hx)
  · simp only [e, if_false]
    exact h k y

theorem ranked_j1 {P : Prog} {rank : Nat → Nat} (h : Ranked P rank) {n y : Nat} :
    Ranked (setJ1 P n y) rank := by
  intro k z
  unfold setJ1
  by_cases e : k = n
  · subst e
    simp only [if_true]
    intro _ b; cases b
  · simp only [e, if_false]
    exact h k z

theorem closed_j0 {P : Prog} {bl : List Nat} (h : Closed P bl) {n x' : Nat} (hx : x' ∈ bl) :
    Closed (setJ0 P n x') bl := by
  intro k hk
  unfold setJ0
  by_cases e : k = n
  · subst e
    simp only [if_true, Option.some.injEq]
    exact ⟨fun a q => q ▸ hx, (h k hk).2⟩
  · simp only [e, if_false]; exact h k hk

theorem closed_j1 {P : Prog} {bl : List Nat} (h : Closed P bl) {n x' : Nat} (hx : x' ∈ bl) :
    Closed (setJ1 P n x') bl := by
  intro k hk
  unfold setJ1
  by_cases e : k = n
  · subst e
    simp only [if_true, Option.some.injEq]
    exact ⟨(h k hk).1, fun a q => q ▸ hx⟩
  · simp only [e, if_false]; exact h k hk

theorem progOk_j0 {P : Prog} (h : ProgOk E P) {n x x' : Nat} (hx : (P n).j0 = some x) :
    ProgOk E (setJ0 P n x') := by
  intro k
  unfold setJ0
  by_cases e : k = n
  · subst e
    simp only [if_true]
    exact blockOk_congr (b := P k) (by simp [hx]) rfl rfl rfl rfl (h k)
  · simp only [e, if_false]; exact h k

theorem progOk_j1 {P : Prog} (h : ProgOk E P) {n x x' : Nat} (hx : (P n).j1 = some x) :
    ProgOk E (setJ1 P n x') := by
  intro k
  unfold setJ1
  by_cases e : k = n
  · subst e
    simp only [if_true]
    exact blockOk_congr (b := P k) rfl (by simp [hx]) rfl rfl rfl (h k)
  · simp only [e, if_false]; exact h k

/-- What threading the jumps of one block preserves. -/
structure SkipOk (E : Env) (bl : List Nat) (P Q : Prog) : Prop where
  equiv : ∀ S : Sem E, Equiv S P Q
  ok : ProgOk E P → ProgOk E Q
  closed : Closed Q bl
  code : ∀ n, (Q n).code = (P n).code

theorem skipEmpty_ok {P Q : Prog} {bl : List Nat} {fuel n : Nat} (hc : Closed P bl) (hn : n ∈ bl)
    (h : skipEmpty P fuel n = some Q) : SkipOk E bl P Q := by
  unfold skipEmpty at h
  cases h0 : (P n).j0 with
  | none =>
    rw [h0] at h; cases h
    exact ⟨fun S => Equiv.refl S P, id, hc, fun _ => rfl⟩
  | some x =>
    rw [h0] at h
    cases h1 : skipTo P fuel x with
    | none => simp only [h1] at h; cases h
    | some x' =>
      simp only [h1] at h
      have hx' := skipTo_mem P hc fuel x x' h1 ((hc n hn).1 x h0)
      have c1 := closed_j0 (n := n) hc hx'
      cases h2 : (P n).j1 with
      | none =>
        rw [h2] at h; cases h
        refine ⟨fun S => redirect_equiv S (redirect_j0 S h0 h1), fun q => progOk_j0 q h0, c1, ?_⟩
        intro k
        by_cases e : k = n
        · subst e; simp [setJ0]
        · simp [setJ0, e]
      | some y =>
        rw [h2] at h
        simp only at h
        cases h3 : skipTo (setJ0 P n x') fuel y with
        | none => rw [h3] at h; cases h
        | some y' =>
          rw [h3] at h
          cases h
          have hy' := skipTo_mem _ c1 fuel y y' h3 ((hc n hn).2 y h2)
          refine ⟨fun S => Equiv.trans S (redirect_equiv S (redirect_j0 S h0 h1))
              (redirect_equiv S (redirect_j1 S (x := x') (y := y) (by simp [setJ0]) (by simpa [setJ0] using h2) h3)),
            fun q => progOk_j1 (progOk_j0 q h0) (x := y) (by simpa [setJ0] using h2), closed_j1 c1 hy', ?_⟩
          intro k
          by_cases e : k = n
          · subst e; simp [setJ0, setJ1]
          · simp [setJ0, setJ1, e]

theorem SkipOk.trans {bl : List Nat} {P Q R : Prog} (h : SkipOk E bl P Q) (g : SkipOk E bl Q R) :
    SkipOk E bl P R :=
  ⟨fun S => Equiv.trans S (h.equiv S) (g.equiv S), fun q => g.ok (h.ok q), g.closed,
    fun n => (g.code n).trans (h.code n)⟩

theorem skipAll_ok {bl : List Nat} {fuel : Nat} : ∀ (ns : List Nat) (P Q : Prog),
    (∀ n ∈ ns, n ∈ bl) → Closed P bl → skipAll fuel ns P = some Q → SkipOk E bl P Q
  | [], P, Q, _, hc, h => by
    cases h
    exact ⟨fun S => Equiv.refl S P, id, hc, fun _ => rfl⟩
  | n :: ns, P, Q, hs, hc, h => by
    unfold skipAll at h
    cases h1 : skipEmpty P fuel n with
    | none => rw [h1] at h; cases h
    | some R =>
      rw [h1] at h
      have g := skipEmpty_ok (E := E) hc (hs n List.mem_cons_self) h1
      exact g.trans (skipAll_ok ns R Q (fun k hk => hs k (List.mem_cons_of_mem _ hk)) g.closed h)

theorem skipEmpty_some {P : Prog} {rank : Nat → Nat} {N : Nat} (h : Ranked P rank)
    (hN : ∀ n, rank n < N) (n : Nat) : ∃ Q, skipEmpty P N n = some Q ∧ Ranked Q rank := by
  unfold skipEmpty
  cases h0 : (P n).j0 with
  | none => exact ⟨P, rfl, h⟩
  | some x =>
    simp only
    obtain ⟨x', a1, a2⟩ := skipTo_some h N x (hN x)
    rw [a1]
    have r1 := ranked_j0 h h0 a2
    cases h2 : (P n).j1 with
    | none => exact ⟨_, rfl, r1⟩
    | some y =>
      simp only
      obtain ⟨y', b1, b2⟩ := skipTo_some r1 N y (hN y)
      rw [b1]
      exact ⟨_, rfl, ranked_j1 r1⟩

theorem skipAll_some {rank : Nat → Nat} {N : Nat} (hN : ∀ n, rank n < N) : ∀ (ns : List Nat)
    (P : Prog), Ranked P rank → ∃ Q, skipAll N ns P = some Q
  | [], P, _ => ⟨P, rfl⟩
  | n :: ns, P, h => by
    obtain ⟨Q, a1, a2⟩ := skipEmpty_some h hN n
    unfold skipAll
    rw [a1]
    exact skipAll_some hN ns Q a2

/-! ## The list of blocks -/

structure Listed (P : Prog) (N : Nat) (seen s : List Nat) : Prop where
  sub : ∀ v ∈ seen, v ∈ s
  nodup : s.Nodup
  lt : ∀ v ∈ s, v < N
  len : seen.length ≤ s.length
  succ : ∀ v ∈ s, v ∉ seen → (∀ a, (P v).j0 = some a → a ∈ s)
    ∧ (∀ a, (P v).j0.isSome → (P v).j1 = some a → a ∈ s)

theorem nodup_length_le {N : Nat} {l : List Nat} (h : l.Nodup) (hl : ∀ v ∈ l, v < N) :
    l.length ≤ N := by
  have := (h.subperm (l₂ := List.range N) fun v hv => List.mem_range.2 (hl v hv)).length_le
  simpa using this

theorem serialize_ok {P : Prog} {N : Nat}
    (hlt : ∀ n a, (P n).j0 = some a ∨ (P n).j1 = some a → a < N) :
    ∀ (fuel n : Nat) (seen : List Nat), seen.Nodup → (∀ v ∈ seen, v < N) → n < N →
      N - seen.length < fuel →
      Listed P N seen (serialize P fuel n seen) ∧ n ∈ serialize P fuel n seen
  | 0, _, _, _, _, _, h => absurd h (Nat.not_lt_zero _)
  | fuel + 1, n, seen, hd, hs, hn, hf => by
    unfold serialize
    by_cases hm : n ∈ seen
    · simp only [hm, if_true]
      exact ⟨⟨fun _ h => h, hd, hs, Nat.le_refl _, fun v hv hv' => absurd hv hv'⟩, trivial⟩
    · simp only [hm, if_false]
      have hd1 : (seen ++ [n]).Nodup := by
        rw [List.nodup_append]
        refine ⟨hd, by simp, ?_⟩
        intro a ha b hb e
        simp only [List.mem_singleton] at hb
        subst e; subst hb
        exact hm ha
      have hs1 : ∀ v ∈ seen ++ [n], v < N := by
        intro v hv
        rcases List.mem_append.1 hv with hv | hv
        · exact hs v hv
        · simp only [List.mem_singleton] at hv; subst hv; exact hn
      have hl1 := nodup_length_le hd1 hs1
      rw [List.length_append] at hl1
      simp only [List.length_singleton] at hl1
      have hf1 : N - (seen ++ [n]).length < fuel := by
        rw [List.length_append]; simp only [List.length_singleton]; omega
      cases h0 : (P n).j0 with
      | none =>
        simp only
        refine ⟨⟨fun v hv => List.mem_append_left _ hv, hd1, hs1, by simp, ?_⟩, by simp⟩
        intro v hv hv'
        rcases List.mem_append.1 hv with hv | hv
        · exact absurd hv hv'
        · simp only [List.mem_singleton] at hv
          subst hv
          rw [h0]
          exact ⟨fun a q => by (cases q), fun a q => by (cases q)⟩
      | some x =>
        simp only
        obtain ⟨g, gx⟩ := serialize_ok hlt fuel x (seen ++ [n]) hd1 hs1 (hlt n x (Or.inl h0)) hf1
        have hnin : n ∈ serialize P fuel x (seen ++ [n]) := g.sub n (by simp)
        cases h1 : (P n).j1 with
        | none =>
          simp only
          refine ⟨⟨fun v hv => g.sub v (List.mem_append_left _ hv), g.nodup, g.lt, ?_, ?_⟩, hnin⟩
          · have := g.len; rw [List.length_append] at this; omega
          · intro v hv hv'
            by_cases e : v = n
            · subst e
              rw [h0, h1]
              refine ⟨fun a q => ?_, fun a _ q => by (cases q)⟩
              cases q; exact gx
            · exact g.succ v hv (by simp [hv', e])
        | some y =>
          simp only
          have hlen : N - (serialize P fuel x (seen ++ [n])).length < fuel := by
            have := g.len; omega
          obtain ⟨k, ky⟩ := serialize_ok hlt fuel y _ g.nodup g.lt (hlt n y (Or.inr h1)) hlen
          refine ⟨⟨fun v hv => k.sub v (g.sub v (List.mem_append_left _ hv)), k.nodup, k.lt, ?_, ?_⟩,
            k.sub n hnin⟩
          · have := g.len; have := k.len; rw [List.length_append] at *; omega
          · intro v hv hv'
            by_cases e : v = n
            · subst e
              rw [h0, h1]
              refine ⟨fun a q => ?_, fun a _ q => ?_⟩
              · cases q; exact k.sub _ gx
              · cases q; exact ky
            · by_cases e2 : v ∈ serialize P fuel x (seen ++ [n])
              · obtain ⟨q1, q2⟩ := g.succ v e2 (by simp [hv', e])
                exact ⟨fun a q => k.sub _ (q1 a q), fun a q r => k.sub _ (q2 a q r)⟩
              · exact k.succ v hv e2

end

end Verif.Opt
