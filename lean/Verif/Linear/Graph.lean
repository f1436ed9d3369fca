import Verif.Linear.Lemmas
import Verif.Cfg.Sim

/-!
# Graphs built by the parser: jumps lead to existing blocks, and a second successor comes with a first one
-/

namespace Verif.Cfg

variable {σ : Type} [Prim σ]

set_option linter.unusedSectionVars false

/-- Jumps lead to blocks that exist; only the blocks in `x` may have a second successor and no first one. -/
def Shape (x : Nat → Prop) (b : B σ) : Prop :=
  ∀ i, (∀ t, (b.blk i).j0 = some t ∨ (b.blk i).j1 = some t → t < b.n) ∧ (¬ x i → (b.blk i).j1.isSome = true → (b.blk i).j0.isSome = true)

abbrev Sh (b : B σ) : Prop := Shape (fun _ => False) b

theorem shape_upd {x y : Nat → Prop} {b : B σ} {i : Nat} {f : Block σ → Block σ} (h : Shape x b)
    (h1 : ∀ t, (f (b.blk i)).j0 = some t ∨ (f (b.blk i)).j1 = some t → t < b.n)
    (h2 : ¬ y i → (f (b.blk i)).j1.isSome = true → (f (b.blk i)).j0.isSome = true) (hxy : ∀ j, j ≠ i → x j → y j) : Shape y (b.upd i f) := by
  intro j
  simp only [B.upd]
  by_cases hj : j = i
  · subst hj; rw [if_pos rfl]; exact ⟨h1, h2⟩
  · rw [if_neg hj]; exact ⟨(h j).1, fun hy => (h j).2 fun hx => hy (hxy j hj hx)⟩

theorem shape_grow {x : Nat → Prop} {b b' : B σ} (h : Shape x b) (hb : b'.blk = b.blk) (hn : b.n ≤ b'.n) : Shape x b' := by
  intro i
  rw [hb]
  exact ⟨fun t ht => Nat.lt_of_lt_of_le ((h i).1 t ht) hn, (h i).2⟩

theorem shape_new {x : Nat → Prop} {b : B σ} (h : Shape x b) : Shape x b.new :=
  shape_grow (shape_upd (y := x) (i := b.n) (f := fun _ => {}) h (by simp) (by simp) fun _ _ h => h) rfl (Nat.le_succ _)

theorem shape_act {x : Nat → Prop} {b : B σ} {i : Nat} {a : Act σ} (h : Shape x b) : Shape x (b.act i a) :=
  shape_upd (y := x) h (h i).1 (h i).2 fun _ _ h => h

theorem shape_goto {x : Nat → Prop} {b : B σ} {i t : Nat} (h : Shape (fun j => j = i ∨ x j) b) (ht : t < b.n) : Shape x (b.goto i t) :=
  shape_upd h (fun s hs => by
    rcases hs with hs | hs
    · cases hs; exact ht
    · exact (h i).1 s (.inr hs)) (fun _ _ => rfl) fun j hj hx => hx.resolve_left hj

theorem shape_mono {x y : Nat → Prop} {b : B σ} (h : Shape x b) (hxy : ∀ j, x j → y j) : Shape y b :=
  fun i => ⟨(h i).1, fun hy => (h i).2 fun hx => hy (hxy i hx)⟩

theorem sh_goto {b : B σ} {i t : Nat} (h : Sh b) (ht : t < b.n) : Sh (b.goto i t) :=
  shape_goto (shape_mono h fun _ => False.elim) ht

theorem sh_branch {b : B σ} {i f t : Nat} {v : V σ} (h : Sh b) (hf : f < b.n) (ht : t < b.n) : Sh (b.branch i v f t) :=
  shape_upd (x := fun _ => False) h (fun s hs => by rcases hs with hs | hs <;> cases hs <;> assumption) (fun _ _ => rfl) fun _ _ h => h

theorem sh_test {b : B σ} {i f t : Nat} {v : V σ} (h : Sh b) (ht : t < b.n) (hf : f < b.n) : Sh (b.test i v t f) := by
  unfold B.test
  split
  · exact sh_goto h ht
  · exact sh_goto h hf
  · exact sh_branch h hf ht

theorem sh_eval {b : B σ} {i : Nat} {v : V σ} (h : Sh b) : Sh (b.eval i v).1 := by
  unfold B.eval
  split
  · exact shape_grow (shape_act (i := i) (a := .set b.ntmp v) h) rfl (Nat.le_refl _)
  · exact h

theorem eval_n {b : B σ} {i : Nat} {v : V σ} : (b.eval i v).1.n = b.n := by unfold B.eval; split <;> rfl

theorem decided_shape {b : B σ} {l t r : Nat} {n : Int} (h : Sh b) : Sh (b.decided l t r n).1 ∧ b.n ≤ (b.decided l t r n).1.n := by
  unfold B.decided
  split
  · exact ⟨h, Nat.le_refl _⟩
  · exact ⟨sh_goto (shape_new h) (Nat.lt_succ_self _), Nat.le_succ _⟩

theorem join_shape {b : B σ} {l r : Nat} {vl vr : V σ} {left : Nat → Nat → Nat × Nat} (h : Sh b)
    (hl : ∀ t f n, t < n → f < n → b.n ≤ n → (left t f).1 < n ∧ (left t f).2 < n) :
    Sh (b.join l vl r vr left).1 ∧ b.n ≤ (b.join l vl r vr left).1.n := by
  unfold B.join
  have hn : b.new.new.new.n = b.n + 3 := rfl
  have h3 : Sh b.new.new.new := shape_new (shape_new (shape_new h))
  obtain ⟨l1, l2⟩ := hl b.n (b.n + 1) (b.n + 3) (by omega) (by omega) (by omega)
  have h4 : Sh (b.new.new.new.branch l vl (left b.n (b.n + 1)).1 (left b.n (b.n + 1)).2) := sh_branch h3 l1 l2
  have h5 : Sh ((b.new.new.new.branch l vl (left b.n (b.n + 1)).1 (left b.n (b.n + 1)).2).branch r vr (b.n + 1) b.n) :=
    sh_branch h4 (by rw [branch_n, hn]; omega) (by rw [branch_n, hn]; omega)
  have h6 := sh_goto (i := b.n + 1) (t := b.n + 2) (sh_goto (i := b.n) (t := b.n + 2) h5 (by rw [branch_n, branch_n, hn]; omega))
    (by rw [goto_n, branch_n, branch_n, hn]; omega)
  exact ⟨shape_act (shape_act (shape_grow h6 rfl (Nat.le_refl _))), by show b.n ≤ b.n + 3; omega⟩

theorem expr_shape (e : Expr σ) : ∀ (b : B σ) (p : Nat), Sh b → Sh (b.expr p e).1 ∧ b.n ≤ (b.expr p e).1.n := by
  induction e with
  | imm n => intro b p h; exact ⟨h, Nat.le_refl _⟩
  | prim a c f => intro b p h; exact ⟨shape_act h, Nat.le_refl _⟩
  | app c a e ih => intro b p h; exact ⟨shape_act (ih b p h).1, (ih b p h).2⟩
  | not e ih => intro b p h; exact ih b p h
  | comma x y ih1 ih2 =>
    intro b p h
    obtain ⟨h1, n1⟩ := ih1 b p h
    obtain ⟨h2, n2⟩ := ih2 _ (b.expr p x).2.1 h1
    exact ⟨h2, n1.trans n2⟩
  | and x y ih1 ih2 =>
    intro b p h
    obtain ⟨h1, n1⟩ := ih1 b p h
    obtain ⟨h2, n2⟩ := ih2 _ (b.expr p x).1.n (shape_new h1)
    have hlt : (b.expr p x).1.n < ((b.expr p x).1.new.expr (b.expr p x).1.n y).1.n := Nat.lt_of_lt_of_le (Nat.lt_succ_self _) n2
    simp only [B.expr]
    split
    · exact ⟨sh_goto h2 hlt, by rw [goto_n]; omega⟩
    · obtain ⟨h3, n3⟩ := decided_shape (l := (b.expr p x).2.1) (t := (b.expr p x).1.n) (r := ((b.expr p x).1.new.expr (b.expr p x).1.n y).2.1)
        (n := 0) h2
      exact ⟨h3, by omega⟩
    · obtain ⟨h3, n3⟩ := join_shape (l := (b.expr p x).2.1) (vl := (b.expr p x).2.2) (r := ((b.expr p x).1.new.expr (b.expr p x).1.n y).2.1)
        (vr := ((b.expr p x).1.new.expr (b.expr p x).1.n y).2.2) (left := fun _ f => (f, (b.expr p x).1.n)) h2
        (fun t f n ht hf hn => ⟨hf, by omega⟩)
      exact ⟨h3, by omega⟩
  | or x y ih1 ih2 =>
    intro b p h
    obtain ⟨h1, n1⟩ := ih1 b p h
    obtain ⟨h2, n2⟩ := ih2 _ (b.expr p x).1.n (shape_new h1)
    have hlt : (b.expr p x).1.n < ((b.expr p x).1.new.expr (b.expr p x).1.n y).1.n := Nat.lt_of_lt_of_le (Nat.lt_succ_self _) n2
    simp only [B.expr]
    split
    · obtain ⟨h3, n3⟩ := decided_shape (l := (b.expr p x).2.1) (t := (b.expr p x).1.n) (r := ((b.expr p x).1.new.expr (b.expr p x).1.n y).2.1)
        (n := 1) h2
      exact ⟨h3, by omega⟩
    · exact ⟨sh_goto h2 hlt, by rw [goto_n]; omega⟩
    · obtain ⟨h3, n3⟩ := join_shape (l := (b.expr p x).2.1) (vl := (b.expr p x).2.2) (r := ((b.expr p x).1.new.expr (b.expr p x).1.n y).2.1)
        (vr := ((b.expr p x).1.new.expr (b.expr p x).1.n y).2.2) (left := fun t _ => ((b.expr p x).1.n, t)) h2
        (fun t f n ht hf hn => ⟨by omega, ht⟩)
      exact ⟨h3, by omega⟩
  | cond c x y ih1 ih2 ih3 =>
    intro b p h
    obtain ⟨h1, n1⟩ := ih1 b p h
    simp only [B.expr]
    split
    · obtain ⟨h2, n2⟩ := ih2 _ (b.expr p c).2.1 h1
      exact ⟨sh_eval h2, by rw [eval_n]; omega⟩
    · obtain ⟨h2, n2⟩ := ih3 _ (b.expr p c).2.1 h1
      exact ⟨sh_eval h2, by rw [eval_n]; omega⟩
    · generalize b.expr p c = r at h1 n1 ⊢
      have h2 : Sh (r.1.new.new.branch r.2.1 r.2.2 (r.1.n + 1) r.1.n).new :=
        shape_new (sh_branch (shape_new (shape_new h1)) (by show _ < r.1.n + 2; omega) (by show _ < r.1.n + 2; omega))
      have n2 : (r.1.new.new.branch r.2.1 r.2.2 (r.1.n + 1) r.1.n).new.n = r.1.n + 3 := rfl
      generalize (r.1.new.new.branch r.2.1 r.2.2 (r.1.n + 1) r.1.n).new = b2 at h2 n2 ⊢
      obtain ⟨h3, n3⟩ := ih2 b2 r.1.n h2
      generalize b2.expr r.1.n x = b3 at h3 n3 ⊢
      have h4 : Sh (b3.1.eval b3.2.1 b3.2.2).1 := sh_eval h3
      have n4 : (b3.1.eval b3.2.1 b3.2.2).1.n = b3.1.n := eval_n
      generalize b3.1.eval b3.2.1 b3.2.2 = b4 at h4 n4 ⊢
      obtain ⟨h5, n5⟩ := ih3 b4.1 (r.1.n + 1) h4
      generalize b4.1.expr (r.1.n + 1) y = b5 at h5 n5 ⊢
      have h6 : Sh (b5.1.eval b5.2.1 b5.2.2).1 := sh_eval h5
      have n6 : (b5.1.eval b5.2.1 b5.2.2).1.n = b5.1.n := eval_n
      generalize b5.1.eval b5.2.1 b5.2.2 = b6 at h6 n6 ⊢
      have h7 : Sh (({ b6.1 with ntmp := b6.1.ntmp + 1 } : B σ).act b5.2.1 (.set b6.1.ntmp b6.2)) :=
        shape_act (shape_grow h6 rfl (Nat.le_refl _))
      have n7 : (({ b6.1 with ntmp := b6.1.ntmp + 1 } : B σ).act b5.2.1 (.set b6.1.ntmp b6.2)).n = b6.1.n := rfl
      generalize (({ b6.1 with ntmp := b6.1.ntmp + 1 } : B σ).act b5.2.1 (.set b6.1.ntmp b6.2)) = b7 at h7 n7 ⊢
      refine ⟨sh_goto (sh_goto (shape_act (sh_goto (shape_new h7) (Nat.lt_succ_self _))) ?_) ?_, ?_⟩
      · rw [act_n, goto_n, new_n]; omega
      · rw [goto_n, act_n, goto_n, new_n]; omega
      · rw [goto_n, goto_n, act_n, goto_n, new_n]; omega

/-- With the labels, cases and default. -/
structure Sound (b : B σ) : Prop where
  sh : Sh b
  lab : ∀ e ∈ b.labels, e.2 < b.n
  cas : ∀ e ∈ b.cases, e.2 < b.n
  dfl : ∀ t, b.dflt = some t → t < b.n

theorem Sound.of {b b' : B σ} (h : Sound b) (hs : Sh b') (hn : b.n ≤ b'.n) (hr : b'.rest = b.rest) : Sound b' := by
  obtain ⟨h1, h2, h3, h4, h5⟩ := rest_eq hr
  refine ⟨hs, fun e he => ?_, fun e he => ?_, fun t ht => ?_⟩
  · rw [h1] at he; exact Nat.lt_of_lt_of_le (h.lab e he) hn
  · rw [h4] at he; exact Nat.lt_of_lt_of_le (h.cas e he) hn
  · rw [h5] at ht; exact Nat.lt_of_lt_of_le (h.dfl t ht) hn

theorem Sound.expr {b : B σ} (h : Sound b) (p : Nat) (e : Expr σ) : Sound (b.expr p e).1 :=
  h.of (expr_shape e b p h.sh).1 (expr_shape e b p h.sh).2 (expr_rest e b p)

theorem Sound.new {b : B σ} (h : Sound b) : Sound b.new := h.of (shape_new h.sh) (Nat.le_succ _) rfl

theorem Sound.goto {b : B σ} (h : Sound b) {i t : Nat} (ht : t < b.n) : Sound (b.goto i t) := h.of (sh_goto h.sh ht) (Nat.le_refl _) rfl

theorem Sound.test {b : B σ} (h : Sound b) {i t f : Nat} {v : V σ} (ht : t < b.n) (hf : f < b.n) : Sound (b.test i v t f) :=
  h.of (sh_test h.sh ht hf) (Nat.le_of_eq (test_n _ _ _ _ _).symm) (test_rest b i v t f)

theorem Sound.labelBlock {b : B σ} (h : Sound b) (l : Nat) :
    Sound (b.labelBlock l).1 ∧ b.n ≤ (b.labelBlock l).1.n ∧ (b.labelBlock l).2 < (b.labelBlock l).1.n := by
  unfold B.labelBlock
  split
  · rename_i c hc
    have hm : (l, c) ∈ b.labels := by
      have hf := hc
      rw [List.lookup_eq_some_iff] at hf
      obtain ⟨p, s, he, -⟩ := hf
      rw [he]; simp
    exact ⟨h, Nat.le_refl _, h.lab _ hm⟩
  · refine ⟨⟨shape_grow (shape_new h.sh) rfl (Nat.le_refl _), fun e he => ?_, fun e he => ?_, fun t ht => ?_⟩, Nat.le_succ _, Nat.lt_succ_self _⟩
    · rcases List.mem_append.1 he with he | he
      · exact Nat.lt_succ_of_lt (h.lab e he)
      · rw [List.mem_singleton] at he; rw [he]; exact Nat.lt_succ_self _
    · exact Nat.lt_succ_of_lt (h.cas e he)
    · exact Nat.lt_succ_of_lt (h.dfl t ht)

theorem chain_labels_eq (v : V σ) : ∀ (cs : List (Int × Nat)) (b : B σ) (m : Nat), (b.chain m v cs).1.labels = b.labels
  | [], _, _ => rfl
  | (_, _) :: r, _, _ => chain_labels_eq v r _ _

theorem chain_shape (v : V σ) : ∀ (cs : List (Int × Nat)) (b : B σ) (m : Nat), Shape (fun i => i = m) b → (∀ e ∈ cs, e.2 < b.n) →
    Shape (fun i => i = (b.chain m v cs).2) (b.chain m v cs).1 ∧ b.n ≤ (b.chain m v cs).1.n
  | [], b, m, h, _ => ⟨h, Nat.le_refl _⟩
  | (n, c) :: r, b, m, h, hc => by
    have h1 : Shape (fun i => i = m ∨ i = b.n) (b.new.upd b.n fun x => { x with expr := .eqc n v, j1 := some c }) := by
      refine shape_upd (shape_new h) (fun t ht => ?_) (fun hy => absurd (.inr rfl) hy) fun _ _ h => .inl h
      rcases ht with ht | ht
      · exact (shape_new h b.n).1 t (.inl ht)
      · cases ht; exact Nat.lt_succ_of_lt (hc (n, c) (.head _))
    have h2 : Shape (fun i => i = b.n) ((b.new.upd b.n fun x => { x with expr := .eqc n v, j1 := some c }).goto m b.n) :=
      shape_goto h1 (Nat.lt_succ_self _)
    obtain ⟨h3, n3⟩ := chain_shape v r _ b.n h2 (fun e he => Nat.lt_succ_of_lt (hc e (.tail _ he)))
    exact ⟨h3, (Nat.le_succ _).trans n3⟩

theorem stmt_sound {P : Nat → Prop} (s : Stmt σ) : ∀ {brk cnt : Option Nat} {b : B σ} {p : Nat} {b' : B σ} {q : Nat},
    s.wf P brk.isSome cnt.isSome → Sound b → (∀ t, brk = some t → t < b.n) → (∀ t, cnt = some t → t < b.n) →
    b.stmt brk cnt p s = some (b', q) → Sound b' ∧ b.n ≤ b'.n := by
  induction s with
  | skip => intro brk cnt b p b' q hw h hb hc he; cases he; exact ⟨h, Nat.le_refl _⟩
  | expr e => intro brk cnt b p b' q hw h hb hc he; cases he; exact ⟨h.expr p e, (expr_shape e b p h.sh).2⟩
  | seq s t ih1 ih2 =>
    intro brk cnt b p b' q hw h hb hc he
    simp only [B.stmt] at he
    split at he
    · rename_i r hr
      obtain ⟨h1, n1⟩ := ih1 hw.1 h hb hc (b' := r.1) (q := r.2) hr
      obtain ⟨h2, n2⟩ := ih2 hw.2 h1 (fun t ht => Nat.lt_of_lt_of_le (hb t ht) n1) (fun t ht => Nat.lt_of_lt_of_le (hc t ht) n1) he
      exact ⟨h2, n1.trans n2⟩
    · cases he
  | ite c s ih =>
    intro brk cnt b p b' q hw h hb hc he
    simp only [B.stmt] at he
    split at he
    · rename_i r hr
      have h1 := (h.new.new).expr p c
      have n1 := (expr_shape c b.new.new p h.new.new.sh).2
      have e1 : b.new.new.n = b.n + 2 := rfl
      generalize b.new.new.expr p c = w at h1 n1 hr
      have h2 : Sound (w.1.test w.2.1 w.2.2 b.n (b.n + 1)) := h1.test (by omega) (by omega)
      obtain ⟨h3, n3⟩ := ih hw h2 (fun t ht => by have := hb t ht; rw [test_n]; omega) (fun t ht => by have := hc t ht; rw [test_n]; omega)
        (b' := r.1) (q := r.2) hr
      rw [test_n] at n3
      cases he
      exact ⟨h3.goto (by omega), by rw [goto_n]; omega⟩
    · cases he
  | ifElse c s t ih1 ih2 =>
    intro brk cnt b p b' q hw h hb hc he
    simp only [B.stmt] at he
    split at he
    · cases he
    · rename_i r hr
      have h1 := (h.new.new).expr p c
      have n1 := (expr_shape c b.new.new p h.new.new.sh).2
      have e1 : b.new.new.n = b.n + 2 := rfl
      generalize b.new.new.expr p c = w at h1 n1 hr he
      have h2 : Sound (w.1.test w.2.1 w.2.2 b.n (b.n + 1)) := h1.test (by omega) (by omega)
      obtain ⟨h3, n3⟩ := ih1 hw.1 h2 (fun t ht => by have := hb t ht; rw [test_n]; omega) (fun t ht => by have := hc t ht; rw [test_n]; omega)
        (b' := r.1) (q := r.2) hr
      rw [test_n] at n3
      have h4 : Sound (r.1.goto r.2 (b.n + 1)).new := (h3.goto (by omega)).new
      have n4 : (r.1.goto r.2 (b.n + 1)).new.n = r.1.n + 1 := rfl
      have h5 : Sound (if boolOf w.2.2 = some true then (r.1.goto r.2 (b.n + 1)).new else (r.1.goto r.2 (b.n + 1)).new.goto w.2.1 (r.1.goto r.2 (b.n + 1)).n) ∧
          (if boolOf w.2.2 = some true then (r.1.goto r.2 (b.n + 1)).new else (r.1.goto r.2 (b.n + 1)).new.goto w.2.1 (r.1.goto r.2 (b.n + 1)).n).n = r.1.n + 1 := by
        split
        · exact ⟨h4, n4⟩
        · exact ⟨h4.goto (by rw [n4, goto_n]; omega), n4⟩
      generalize (if boolOf w.2.2 = some true then (r.1.goto r.2 (b.n + 1)).new else (r.1.goto r.2 (b.n + 1)).new.goto w.2.1 (r.1.goto r.2 (b.n + 1)).n) = b5 at h5 he
      split at he
      · rename_i r2 hr2
        obtain ⟨h6, n6⟩ := ih2 hw.2 h5.1 (fun t ht => by have := hb t ht; omega) (fun t ht => by have := hc t ht; omega)
          (b' := r2.1) (q := r2.2) hr2
        cases he
        exact ⟨h6.goto (by omega), by rw [goto_n]; omega⟩
      · cases he
  | «while» c s ih =>
    intro brk cnt b p b' q hw h hb hc he
    simp only [B.stmt] at he
    split at he
    · rename_i r hr
      have h0 : Sound (b.new.new.new.goto p b.n) := h.new.new.new.goto (by show b.n < b.n + 3; omega)
      have e1 : (b.new.new.new.goto p b.n).n = b.n + 3 := rfl
      have h1 := h0.expr b.n c
      have n1 := (expr_shape c _ b.n h0.sh).2
      generalize (b.new.new.new.goto p b.n).expr b.n c = w at h1 n1 hr
      have h2 : Sound (w.1.test w.2.1 w.2.2 (b.n + 1) (b.n + 2)) := h1.test (by omega) (by omega)
      obtain ⟨h3, n3⟩ := ih (brk := some (b.n + 2)) (cnt := some b.n) hw h2 (fun t ht => by cases ht; rw [test_n]; omega)
        (fun t ht => by cases ht; rw [test_n]; omega) (b' := r.1) (q := r.2) hr
      rw [test_n] at n3
      cases he
      exact ⟨h3.goto (by omega), by rw [goto_n]; omega⟩
    · cases he
  | doWhile s c ih =>
    intro brk cnt b p b' q hw h hb hc he
    simp only [B.stmt] at he
    split at he
    · rename_i r hr
      have h0 : Sound (b.new.new.new.goto p b.n) := h.new.new.new.goto (by show b.n < b.n + 3; omega)
      have e1 : (b.new.new.new.goto p b.n).n = b.n + 3 := rfl
      obtain ⟨h3, n3⟩ := ih (brk := some (b.n + 2)) (cnt := some (b.n + 1)) hw h0 (fun t ht => by cases ht; omega)
        (fun t ht => by cases ht; omega) (b' := r.1) (q := r.2) hr
      have h4 : Sound (r.1.goto r.2 (b.n + 1)) := h3.goto (by omega)
      have h5 := h4.expr (b.n + 1) c
      have n5 := (expr_shape c _ (b.n + 1) h4.sh).2
      rw [goto_n] at n5
      cases he
      exact ⟨h5.test (by omega) (by omega), by rw [test_n]; omega⟩
    · cases he
  | «for» i c n s ih =>
    intro brk cnt b p b' q hw h hb hc he
    simp only [B.stmt] at he
    have h0 : Sound b.new.new.new.new := h.new.new.new.new
    have e0 : b.new.new.new.new.n = b.n + 4 := rfl
    have start : ∀ (w : B σ × Nat), Sound w.1 → b.n + 4 ≤ w.1.n → ∀ e : Expr σ,
        Sound (((w.1.goto w.2 b.n).expr b.n e).1.test ((w.1.goto w.2 b.n).expr b.n e).2.1 ((w.1.goto w.2 b.n).expr b.n e).2.2 (b.n + 1) (b.n + 3)) ∧
        b.n + 4 ≤ (((w.1.goto w.2 b.n).expr b.n e).1.test ((w.1.goto w.2 b.n).expr b.n e).2.1 ((w.1.goto w.2 b.n).expr b.n e).2.2 (b.n + 1) (b.n + 3)).n := by
      intro w h1 n1 e
      have h2 : Sound (w.1.goto w.2 b.n) := h1.goto (by omega)
      have h3 := h2.expr b.n e
      have n3 := (expr_shape e _ b.n h2.sh).2
      rw [goto_n] at n3
      exact ⟨h3.test (by omega) (by omega), by rw [test_n]; omega⟩
    have hi : ∀ e : Expr σ, Sound (b.new.new.new.new.expr p e).1 ∧ b.n + 4 ≤ (b.new.new.new.new.expr p e).1.n := fun e =>
      ⟨h0.expr p e, (expr_shape e _ p h0.sh).2⟩
    rcases n with _ | e
    · have tail : ∀ (z : B σ) (y : Nat) (r : B σ × Nat), Sound z → b.n + 4 ≤ z.n → y < b.n + 4 → z.stmt (some (b.n + 3)) (some y) (b.n + 1) s = some r →
          Sound (r.1.goto r.2 y) ∧ b.n ≤ (r.1.goto r.2 y).n := by
        intro z y r h2 n2 hy hr
        obtain ⟨h3, n3⟩ := ih (brk := some (b.n + 3)) (cnt := some y) hw h2 (fun t ht => by cases ht; omega)
          (fun t ht => by cases ht; omega) (b' := r.1) (q := r.2) hr
        exact ⟨h3.goto (by omega), by rw [goto_n]; omega⟩
      rcases i with _ | i <;> rcases c with _ | c <;> dsimp only at he <;> split at he
      · rename_i r hr; cases he; exact tail _ _ r (h0.goto (by omega)) (Nat.le_refl _) (by omega) hr
      · cases he
      · rename_i r hr; cases he
        obtain ⟨h2, n2⟩ := start (_, p) h0 (Nat.le_refl _) c
        exact tail _ _ r h2 n2 (by omega) hr
      · cases he
      · rename_i r hr; cases he; exact tail _ _ r ((hi i).1.goto (by have := (hi i).2; omega)) (hi i).2 (by omega) hr
      · cases he
      · rename_i r hr; cases he
        obtain ⟨h2, n2⟩ := start (_, (b.new.new.new.new.expr p i).2.1) (hi i).1 (hi i).2 c
        exact tail _ _ r h2 n2 (by omega) hr
      · cases he
    · have tail : ∀ (z : B σ) (y : Nat) (r : B σ × Nat), Sound z → b.n + 4 ≤ z.n → y < b.n + 4 →
          ((z.expr (b.n + 2) e).1.goto (z.expr (b.n + 2) e).2.1 y).stmt (some (b.n + 3)) (some (b.n + 2)) (b.n + 1) s = some r →
          Sound (r.1.goto r.2 (b.n + 2)) ∧ b.n ≤ (r.1.goto r.2 (b.n + 2)).n := by
        intro z y r h2 n2 hy hr
        have h4 := h2.expr (b.n + 2) e
        have n4 := (expr_shape e _ (b.n + 2) h2.sh).2
        generalize z.expr (b.n + 2) e = x at h4 n4 hr
        have h5 : Sound (x.1.goto x.2.1 y) := h4.goto (by omega)
        obtain ⟨h3, n3⟩ := ih (brk := some (b.n + 3)) (cnt := some (b.n + 2)) hw h5 (fun t ht => by cases ht; rw [goto_n]; omega)
          (fun t ht => by cases ht; rw [goto_n]; omega) (b' := r.1) (q := r.2) hr
        rw [goto_n] at n3
        exact ⟨h3.goto (by omega), by rw [goto_n]; omega⟩
      rcases i with _ | i <;> rcases c with _ | c <;> dsimp only at he <;> split at he
      · rename_i r hr; cases he; exact tail _ _ r (h0.goto (by omega)) (Nat.le_refl _) (by omega) hr
      · cases he
      · rename_i r hr; cases he
        obtain ⟨h2, n2⟩ := start (_, p) h0 (Nat.le_refl _) c
        exact tail _ _ r h2 n2 (by omega) hr
      · cases he
      · rename_i r hr; cases he; exact tail _ _ r ((hi i).1.goto (by have := (hi i).2; omega)) (hi i).2 (by omega) hr
      · cases he
      · rename_i r hr; cases he
        obtain ⟨h2, n2⟩ := start (_, (b.new.new.new.new.expr p i).2.1) (hi i).1 (hi i).2 c
        exact tail _ _ r h2 n2 (by omega) hr
      · cases he
  | brk =>
    intro brk cnt b p b' q hw h hb hc he
    rcases brk with _ | t
    · cases hw
    · cases he
      exact ⟨(h.goto (i := p) (hb t rfl)).new, Nat.le_succ _⟩
  | cont =>
    intro brk cnt b p b' q hw h hb hc he
    rcases cnt with _ | t
    · cases hw
    · cases he
      exact ⟨(h.goto (i := p) (hc t rfl)).new, Nat.le_succ _⟩
  | ret e =>
    intro brk cnt b p b' q hw h hb hc he
    rcases e with _ | e
    · cases he
      exact ⟨h.new, Nat.le_succ _⟩
    · cases he
      have h1 := h.expr p e
      have n1 := (expr_shape e b p h.sh).2
      exact ⟨(h1.of (shape_upd (x := fun _ => False) h1.sh (h1.sh _).1 (h1.sh _).2 fun _ _ h => h) (Nat.le_refl _) rfl).new, n1.trans (Nat.le_succ _)⟩
  | goto l =>
    intro brk cnt b p b' q hw h hb hc he
    cases he
    obtain ⟨h1, n1, l1⟩ := h.labelBlock l
    exact ⟨(h1.goto l1).new, n1.trans (Nat.le_succ _)⟩
  | label l s ih =>
    intro brk cnt b p b' q hw h hb hc he
    simp only [B.stmt] at he
    split at he
    · cases he
    · obtain ⟨h1, n1, l1⟩ := h.labelBlock l
      have h2 : Sound ({ (b.labelBlock l).1 with defined := l :: (b.labelBlock l).1.defined } : B σ) := ⟨h1.sh, h1.lab, h1.cas, h1.dfl⟩
      obtain ⟨h3, n3⟩ := ih hw (h2.goto (i := p) (t := (b.labelBlock l).2) l1) (fun t ht => Nat.lt_of_lt_of_le (hb t ht) n1)
        (fun t ht => Nat.lt_of_lt_of_le (hc t ht) n1) he
      exact ⟨h3, n1.trans n3⟩
  | switch e s ih =>
    intro brk cnt b p b' q hw h hb hc he
    simp only [B.stmt] at he
    have h1 := (h.new.new).expr p e
    have n1 := (expr_shape e b.new.new p h.new.new.sh).2
    have e1 : b.new.new.n = b.n + 2 := rfl
    generalize b.new.new.expr p e = w at h1 n1 he
    have h2 : Sound (w.1.eval w.2.1 w.2.2).1 := h1.of (sh_eval h1.sh) (Nat.le_of_eq eval_n.symm) (eval_rest _ _ _)
    have n2 : (w.1.eval w.2.1 w.2.2).1.n = w.1.n := eval_n
    generalize w.1.eval w.2.1 w.2.2 = y at h2 n2 he
    split at he
    · cases he
    · rename_i r hr
      have h3 : Sound ({ y.1 with inSwitch := true, cases := [], dflt := none } : B σ) :=
        ⟨h2.sh, h2.lab, fun e he => (List.not_mem_nil he).elim, fun t ht => by cases ht⟩
      obtain ⟨h4, n4⟩ := ih (brk := some (b.n + 1)) (cnt := cnt) hw h3 (fun t ht => by cases ht; show b.n + 1 < y.1.n; omega)
        (fun t ht => by have := hc t ht; show t < y.1.n; omega) (b' := r.1) (q := r.2) hr
      have n4' : y.1.n ≤ r.1.n := n4
      have h5 : Sound (r.1.goto r.2 (b.n + 1)) := h4.goto (by omega)
      obtain ⟨h6, n6⟩ := chain_shape y.2 r.1.cases (r.1.goto r.2 (b.n + 1)) w.2.1 (shape_mono h5.sh fun _ => False.elim) (fun e he => h4.cas e he)
      have r6 : ((r.1.goto r.2 (b.n + 1)).chain w.2.1 y.2 r.1.cases).1.labels = r.1.labels := chain_labels_eq _ _ _ _
      generalize (r.1.goto r.2 (b.n + 1)).chain w.2.1 y.2 r.1.cases = k at h6 n6 he r6
      rw [goto_n] at n6
      have ht : r.1.dflt.getD (b.n + 1) < k.1.n := by
        rcases hd : r.1.dflt with _ | t
        · show b.n + 1 < _; omega
        · have := h4.dfl t hd; show t < _; omega
      have h7 : Sh (k.1.goto k.2 (r.1.dflt.getD (b.n + 1))) := shape_goto (shape_mono h6 fun _ => .inl) ht
      cases he
      refine ⟨⟨shape_grow h7 rfl (Nat.le_refl _), fun e he => ?_, fun e he => ?_, fun t ht => ?_⟩, ?_⟩
      · have he : e ∈ k.1.labels := he
        rw [r6] at he
        exact Nat.lt_of_lt_of_le (h4.lab e he) n6
      · exact Nat.lt_of_lt_of_le (h2.cas e he) (n4'.trans n6)
      · exact Nat.lt_of_lt_of_le (h2.dfl t ht) (n4'.trans n6)
      · show b.n ≤ k.1.n; omega
  | case n s ih =>
    intro brk cnt b p b' q hw h hb hc he
    simp only [B.stmt] at he
    split at he
    · have h1 : Sound ({ b.new with cases := b.cases ++ [(n, b.n)] } : B σ) := by
        refine ⟨h.new.sh, h.new.lab, fun e he => ?_, h.new.dfl⟩
        rcases List.mem_append.1 he with he | he
        · exact h.new.cas e he
        · rw [List.mem_singleton] at he; rw [he]; exact Nat.lt_succ_self _
      obtain ⟨h2, n2⟩ := ih hw (h1.goto (i := p) (t := b.n) (Nat.lt_succ_self _)) (fun t ht => Nat.lt_succ_of_lt (hb t ht))
        (fun t ht => Nat.lt_succ_of_lt (hc t ht)) he
      exact ⟨h2, (Nat.le_succ _).trans n2⟩
    · cases he
  | default s ih =>
    intro brk cnt b p b' q hw h hb hc he
    simp only [B.stmt] at he
    split at he
    · split at he
      · cases he
      · have h0 := h.new.goto (i := p) (t := b.n) (Nat.lt_succ_self _)
        have h1 : Sound ({ b.new.goto p b.n with dflt := some b.n } : B σ) := by
          refine ⟨h0.sh, h0.lab, h0.cas, fun t ht => ?_⟩
          cases ht; exact Nat.lt_succ_self _
        obtain ⟨h2, n2⟩ := ih hw h1 (fun t ht => Nat.lt_succ_of_lt (hb t ht)) (fun t ht => Nat.lt_succ_of_lt (hc t ht)) he
        exact ⟨h2, (Nat.le_succ _).trans n2⟩
    · cases he

theorem build_shape {body : Stmt σ} {b : B σ} (hw : WellFormed body) (h : build body = some b) : Sh b ∧ 0 < b.n := by
  unfold build at h
  split at h
  · rename_i r hr
    split at h
    · cases h
      have h0 : Sound ({} : B σ).new := by
        refine ⟨shape_new fun i => ⟨?_, ?_⟩, ?_, ?_, ?_⟩ <;> simp [B.new, B.upd]
      obtain ⟨h1, n1⟩ := stmt_sound body (brk := none) (cnt := none) hw h0 (fun t ht => by cases ht) (fun t ht => by cases ht) (b' := r.1) (q := r.2) hr
      exact ⟨h1.sh, n1⟩
    · cases h
  · cases h

end Verif.Cfg
