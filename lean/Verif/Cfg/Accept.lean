import Verif.Cfg.Sim

/-! # Which statements are accepted -/

namespace Verif.Cfg

set_option linter.unusedSectionVars false

variable {σ : Type} [Prim σ]

/-! What C asks for. -/

/-- The labels defined in a statement. -/
def Stmt.labels : Stmt σ → List Nat
  | .seq s t => s.labels ++ t.labels
  | .ite _ s => s.labels
  | .ifElse _ s t => s.labels ++ t.labels
  | .while _ s => s.labels
  | .doWhile s _ => s.labels
  | .for _ _ _ s => s.labels
  | .label l s => l :: s.labels
  | .switch _ s => s.labels
  | .case _ s => s.labels
  | .default s => s.labels
  | _ => []

/-- The labels named in `goto`. -/
def Stmt.gotos : Stmt σ → List Nat
  | .seq s t => s.gotos ++ t.gotos
  | .ite _ s => s.gotos
  | .ifElse _ s t => s.gotos ++ t.gotos
  | .while _ s => s.gotos
  | .doWhile s _ => s.gotos
  | .for _ _ _ s => s.gotos
  | .goto l => [l]
  | .label _ s => s.gotos
  | .switch _ s => s.gotos
  | .case _ s => s.gotos
  | .default s => s.gotos
  | _ => []

/-- Number of `default` labels that belong to the switch around the statement. -/
def Stmt.defaults : Stmt σ → Nat
  | .seq s t => s.defaults + t.defaults
  | .ite _ s => s.defaults
  | .ifElse _ s t => s.defaults + t.defaults
  | .while _ s => s.defaults
  | .doWhile s _ => s.defaults
  | .for _ _ _ s => s.defaults
  | .label _ s => s.defaults
  | .case _ s => s.defaults
  | .default s => s.defaults + 1
  | _ => 0

/-- 6.8.1, 6.8.4.2: `case` and `default` only in a switch, at most one `default` in each. -/
def Stmt.placed (inSwitch : Bool) : Stmt σ → Prop
  | .seq s t => s.placed inSwitch ∧ t.placed inSwitch
  | .ite _ s => s.placed inSwitch
  | .ifElse _ s t => s.placed inSwitch ∧ t.placed inSwitch
  | .while _ s => s.placed inSwitch
  | .doWhile s _ => s.placed inSwitch
  | .for _ _ _ s => s.placed inSwitch
  | .label _ s => s.placed inSwitch
  | .switch _ s => s.placed true ∧ s.defaults ≤ 1
  | .case _ s => inSwitch = true ∧ s.placed inSwitch
  | .default s => inSwitch = true ∧ s.placed inSwitch
  | _ => True

/-! The builder as far as acceptance goes. -/

structure Ctx where
  named : List Nat
  defined : List Nat
  inSwitch : Bool
  dflt : Bool
  deriving DecidableEq

def B.ctx (b : B σ) : Ctx := ⟨b.labels.map Prod.fst, b.defined, b.inSwitch, b.dflt.isSome⟩

def Ctx.name (c : Ctx) (l : Nat) : Ctx := if l ∈ c.named then c else { c with named := c.named ++ [l] }

def check : Stmt σ → Ctx → Option Ctx
  | .seq s t, c => (check s c).bind (check t)
  | .ite _ s, c => check s c
  | .ifElse _ s t, c => (check s c).bind (check t)
  | .while _ s, c => check s c
  | .doWhile s _, c => check s c
  | .for _ _ _ s, c => check s c
  | .goto l, c => some (c.name l)
  | .label l s, c => if l ∈ c.defined then none else check s { c.name l with defined := l :: c.defined }
  | .switch _ s, c => (check s { c with inSwitch := true, dflt := false }).map fun r => { r with inSwitch := c.inSwitch, dflt := c.dflt }
  | .case _ s, c => if c.inSwitch then check s c else none
  | .default s, c => if c.inSwitch then (if c.dflt then none else check s { c with dflt := true }) else none
  | _, c => some c

theorem ctx_rest {b b' : B σ} (h : b'.rest = b.rest) : b'.ctx = b.ctx := by
  obtain ⟨h1, h2, h3, h4, h5⟩ := rest_eq h
  simp only [B.ctx, h1, h2, h3, h5]

theorem expr_ctx (e : Expr σ) (b : B σ) (p : Nat) : (b.expr p e).1.ctx = b.ctx := ctx_rest (expr_rest e b p)
theorem test_ctx (b : B σ) (p : Nat) (v : V σ) (t f : Nat) : (b.test p v t f).ctx = b.ctx := ctx_rest (test_rest b p v t f)
theorem eval_ctx (b : B σ) (p : Nat) (v : V σ) : (b.eval p v).1.ctx = b.ctx := ctx_rest (eval_rest b p v)
theorem new_ctx (b : B σ) : b.new.ctx = b.ctx := rfl
theorem goto_ctx (b : B σ) (i t : Nat) : (b.goto i t).ctx = b.ctx := rfl
theorem upd_ctx (b : B σ) (i : Nat) (f : Block σ → Block σ) : (b.upd i f).ctx = b.ctx := rfl

theorem chain_ctx (v : V σ) : ∀ (cs : List (Int × Nat)) (b : B σ) (m : Nat), (b.chain m v cs).1.ctx = b.ctx
  | [], _, _ => rfl
  | (_, _) :: r, b, m => (chain_ctx v r _ _).trans rfl

theorem lookup_isSome : ∀ (l : List (Nat × Nat)) (x : Nat), (l.lookup x).isSome = true ↔ x ∈ l.map Prod.fst
  | [], x => by simp
  | (a, b) :: r, x => by
    rw [List.lookup_cons]
    by_cases h : x = a
    · subst h; simp
    · rw [show (x == a) = false from beq_false_of_ne h]
      simp [lookup_isSome r x, h]

theorem labelBlock_ctx (b : B σ) (l : Nat) : (b.labelBlock l).1.ctx = b.ctx.name l := by
  unfold B.labelBlock Ctx.name
  have hl := lookup_isSome b.labels l
  cases h : b.labels.lookup l with
  | some c =>
    rw [h] at hl
    rw [if_pos (show l ∈ b.ctx.named from hl.1 rfl)]
  | none =>
    rw [h] at hl
    rw [if_neg (show ¬ l ∈ b.ctx.named from fun hm => by simpa using hl.2 hm)]
    simp [B.ctx, B.new, B.upd]

theorem stmt_check (s : Stmt σ) : ∀ (brk cnt : Option Nat) (b : B σ) (p : Nat),
    (b.stmt brk cnt p s).map (fun r => r.1.ctx) = check s b.ctx := by
  induction s with
  | skip => intros; rfl
  | expr e => intro brk cnt b p; exact congrArg some (expr_ctx e b p)
  | brk => intros; rfl
  | cont => intros; rfl
  | ret e =>
    intro brk cnt b p
    cases e with
    | none => rfl
    | some e => exact congrArg some (expr_ctx e b p)
  | goto l => intro brk cnt b p; exact congrArg some (labelBlock_ctx b l)
  | seq s t ih1 ih2 =>
    intro brk cnt b p
    have h1 := ih1 brk cnt b p
    simp only [B.stmt, check]
    rw [← h1]
    cases b.stmt brk cnt p s with
    | none => rfl
    | some r => exact ih2 brk cnt r.1 r.2
  | ite c s ih =>
    intro brk cnt b p
    simp only [B.stmt, check]
    rw [← new_ctx b, ← new_ctx b.new, ← expr_ctx c b.new.new p, ← test_ctx _ (b.new.new.expr p c).2.1 (b.new.new.expr p c).2.2 b.n (b.n + 1),
      ← ih brk cnt _ b.n]
    cases B.stmt brk cnt _ _ s <;> rfl
  | ifElse c s t ih1 ih2 =>
    intro brk cnt b p
    simp only [B.stmt, check]
    rw [← new_ctx b, ← new_ctx b.new, ← expr_ctx c b.new.new p, ← test_ctx _ (b.new.new.expr p c).2.1 (b.new.new.expr p c).2.2 b.n (b.n + 1),
      ← ih1 brk cnt _ b.n]
    cases B.stmt brk cnt _ _ s with
    | none => rfl
    | some r =>
      have h2 := ih2 brk cnt (if boolOf (b.new.new.expr p c).2.2 = some true then (r.1.goto r.2 (b.n + 1)).new
        else (r.1.goto r.2 (b.n + 1)).new.goto (b.new.new.expr p c).2.1 (r.1.goto r.2 (b.n + 1)).n) (r.1.goto r.2 (b.n + 1)).n
      have e : (if boolOf (b.new.new.expr p c).2.2 = some true then (r.1.goto r.2 (b.n + 1)).new
        else (r.1.goto r.2 (b.n + 1)).new.goto (b.new.new.expr p c).2.1 (r.1.goto r.2 (b.n + 1)).n).ctx = r.1.ctx := by split <;> rfl
      rw [e] at h2
      simp only [Option.map_some, Option.bind_some]
      rw [← h2]
      cases B.stmt brk cnt _ _ t <;> rfl
  | «while» c s ih =>
    intro brk cnt b p
    simp only [B.stmt, check]
    have h := ih (some (b.n + 2)) (some b.n) (((b.new.new.new.goto p b.n).expr b.n c).1.test ((b.new.new.new.goto p b.n).expr b.n c).2.1
      ((b.new.new.new.goto p b.n).expr b.n c).2.2 (b.n + 1) (b.n + 2)) (b.n + 1)
    rw [test_ctx, expr_ctx] at h
    rw [show b.ctx = (b.new.new.new.goto p b.n).ctx from rfl, ← h]
    cases B.stmt _ _ _ _ s <;> rfl
  | doWhile s c ih =>
    intro brk cnt b p
    simp only [B.stmt, check]
    have h := ih (some (b.n + 2)) (some (b.n + 1)) (b.new.new.new.goto p b.n) b.n
    rw [show b.ctx = (b.new.new.new.goto p b.n).ctx from rfl, ← h]
    cases B.stmt _ _ _ _ s with
    | none => rfl
    | some r => exact congrArg some ((test_ctx _ _ _ _ _).trans (expr_ctx _ _ _))
  | «for» i c x s ih =>
    intro brk cnt b p
    rw [for_stmt]
    have h1 : ∀ (i : Option (Expr σ)) (b : B σ) (p : Nat), (forInit b p i).1.ctx = b.ctx := by
      intro i b p; cases i
      · rfl
      · exact expr_ctx _ _ _
    have h2 : ∀ (c : Option (Expr σ)) (b : B σ) (q top body tail : Nat), (forTest b q top body tail c).1.ctx = b.ctx := by
      intro c b q top body tail; cases c
      · rfl
      · exact (test_ctx _ _ _ _ _).trans ((expr_ctx _ _ _).trans rfl)
    have h3 : ∀ (x : Option (Expr σ)) (b : B σ) (q t : Nat), (forIncr b q t x).1.ctx = b.ctx := by
      intro x b q t; cases x
      · rfl
      · exact (expr_ctx _ _ _)
    have h := ih (some (b.n + 3)) (some (forIncr (forTest (forInit b.new.new.new.new p i).1 (forInit b.new.new.new.new p i).2 b.n (b.n + 1) (b.n + 3) c).1 (b.n + 2)
        (forTest (forInit b.new.new.new.new p i).1 (forInit b.new.new.new.new p i).2 b.n (b.n + 1) (b.n + 3) c).2 x).2)
      (forIncr (forTest (forInit b.new.new.new.new p i).1 (forInit b.new.new.new.new p i).2 b.n (b.n + 1) (b.n + 3) c).1 (b.n + 2)
        (forTest (forInit b.new.new.new.new p i).1 (forInit b.new.new.new.new p i).2 b.n (b.n + 1) (b.n + 3) c).2 x).1 (b.n + 1)
    rw [h3, h2, h1] at h
    simp only [check]
    rw [show b.ctx = b.new.new.new.new.ctx from rfl, ← h]
    cases B.stmt _ _ _ _ s <;> rfl
  | label l s ih =>
    intro brk cnt b p
    simp only [B.stmt, check]
    by_cases h : l ∈ b.defined
    · rw [if_pos h, if_pos (show l ∈ b.ctx.defined from h)]; rfl
    · rw [if_neg h, if_neg (show ¬ l ∈ b.ctx.defined from h)]
      rw [ih]
      congr 1
      have h1 := labelBlock_ctx b l
      have h2 := labelBlock_defined b l
      rw [← h1]
      show Ctx.mk _ _ _ _ = _
      simp only [B.ctx, h2]; rfl
  | switch e s ih =>
    intro brk cnt b p
    simp only [B.stmt, check]
    have h := ih (some (b.n + 1)) cnt { (((b.new.new.expr p e).1.eval (b.new.new.expr p e).2.1 (b.new.new.expr p e).2.2).1) with
      inSwitch := true, cases := [], dflt := none } b.n
    have e1 : ((b.new.new.expr p e).1.eval (b.new.new.expr p e).2.1 (b.new.new.expr p e).2.2).1.ctx = b.ctx :=
      (eval_ctx _ _ _).trans (expr_ctx _ _ _)
    have e2 : ({ (((b.new.new.expr p e).1.eval (b.new.new.expr p e).2.1 (b.new.new.expr p e).2.2).1) with
      inSwitch := true, cases := [], dflt := none } : B σ).ctx = { b.ctx with inSwitch := true, dflt := false } := by
      rw [← e1]; rfl
    rw [e2] at h
    rw [← h]
    cases B.stmt _ _ _ _ s with
    | none => rfl
    | some r =>
      simp only [Option.map_some]
      congr 1
      have := chain_ctx (((b.new.new.expr p e).1.eval (b.new.new.expr p e).2.1 (b.new.new.expr p e).2.2).2) r.1.cases (r.1.goto r.2 (b.n + 1)) (b.new.new.expr p e).2.1
      rw [← e1]
      simp only [B.ctx, Ctx.mk.injEq] at this ⊢
      exact ⟨this.1, this.2.1, trivial, trivial⟩
  | case n s ih =>
    intro brk cnt b p
    simp only [B.stmt, check]
    by_cases h : b.inSwitch = true
    · rw [if_pos h, if_pos (show b.ctx.inSwitch = true from h), ih]; rfl
    · rw [if_neg h, if_neg (show ¬ b.ctx.inSwitch = true from h)]; rfl
  | default s ih =>
    intro brk cnt b p
    simp only [B.stmt, check]
    by_cases h : b.inSwitch = true
    · rw [if_pos h, if_pos (show b.ctx.inSwitch = true from h)]
      by_cases h' : b.dflt.isSome = true
      · rw [if_pos h', if_pos (show b.ctx.dflt = true from h')]; rfl
      · rw [if_neg h', if_neg (show ¬ b.ctx.dflt = true from h'), ih]; rfl
    · rw [if_neg h, if_neg (show ¬ b.ctx.inSwitch = true from h)]; rfl

structure Good (s : Stmt σ) (c : Ctx) : Prop where
  placed : s.placed c.inSwitch
  nodup : s.labels.Nodup
  fresh : ∀ l ∈ s.labels, l ∉ c.defined
  dflt : s.defaults + (if c.dflt then 1 else 0) ≤ 1

structure After (s : Stmt σ) (c c' : Ctx) : Prop where
  inSwitch : c'.inSwitch = c.inSwitch
  dflt : c'.dflt = (c.dflt || decide (0 < s.defaults))
  defined : ∀ l, l ∈ c'.defined ↔ l ∈ c.defined ∨ l ∈ s.labels
  named : ∀ l, l ∈ c'.named ↔ l ∈ c.named ∨ l ∈ s.labels ∨ l ∈ s.gotos

def CheckOk (s : Stmt σ) (c : Ctx) : Prop :=
  match check s c with
  | some c' => Good s c ∧ After s c c'
  | none => ¬ Good s c

theorem no_defaults (s : Stmt σ) : s.placed false → s.defaults = 0 := by
  induction s with
  | seq s t ih1 ih2 => intro h; simp only [Stmt.defaults, ih1 h.1, ih2 h.2]
  | ifElse c s t ih1 ih2 => intro h; simp only [Stmt.defaults, ih1 h.1, ih2 h.2]
  | ite c s ih => exact ih
  | «while» c s ih => exact ih
  | doWhile s c ih => exact ih
  | «for» i c n s ih => exact ih
  | label l s ih => exact ih
  | case n s ih => intro h; exact absurd h.1 (by decide)
  | default s ih => intro h; exact absurd h.1 (by decide)
  | _ => intro _; rfl

theorem check_leaf {s : Stmt σ} {c : Ctx} (h : check s c = some c) (hp : s.placed c.inSwitch) (hl : s.labels = []) (hg : s.gotos = [])
    (hd : s.defaults = 0) : CheckOk s c := by
  unfold CheckOk; rw [h]
  refine ⟨⟨hp, by simp [hl], by simp [hl], by rw [hd]; split <;> omega⟩, rfl, by simp [hd], by simp [hl], by simp [hl, hg]⟩

theorem check_same {s t : Stmt σ} {c : Ctx} (h : check s c = check t c) (hp : s.placed c.inSwitch = t.placed c.inSwitch)
    (hl : s.labels = t.labels) (hg : s.gotos = t.gotos) (hd : s.defaults = t.defaults) (ih : CheckOk t c) : CheckOk s c := by
  have e : Good s c ↔ Good t c := by
    constructor
    · rintro ⟨a, b, d, e⟩; exact ⟨hp ▸ a, hl ▸ b, hl ▸ d, hd ▸ e⟩
    · rintro ⟨a, b, d, e⟩; exact ⟨hp ▸ a, hl ▸ b, hl ▸ d, hd ▸ e⟩
  unfold CheckOk at ih ⊢
  rw [h]
  cases hc : check t c with
  | none => rw [hc] at ih; exact fun g => ih (e.1 g)
  | some c' =>
    rw [hc] at ih
    refine ⟨e.2 ih.1, ih.2.inSwitch, by rw [hd]; exact ih.2.dflt, by rw [hl]; exact ih.2.defined, by rw [hl, hg]; exact ih.2.named⟩

theorem check_two {s t u : Stmt σ} {c : Ctx} (h : check u c = (check s c).bind (check t))
    (hp : u.placed c.inSwitch ↔ s.placed c.inSwitch ∧ t.placed c.inSwitch) (hl : u.labels = s.labels ++ t.labels)
    (hg : u.gotos = s.gotos ++ t.gotos) (hd : u.defaults = s.defaults + t.defaults) (ih1 : CheckOk s c) (ih2 : ∀ c, CheckOk t c) : CheckOk u c := by
  have e1 : Good u c → Good s c := by
    rintro ⟨a, b, d, e⟩
    rw [hl] at b d
    refine ⟨(hp.1 a).1, (List.nodup_append.1 b).1, fun l hm => d l (by simp [hm]), by rw [hd] at e; omega⟩
  unfold CheckOk
  rw [h]
  unfold CheckOk at ih1
  cases hc : check s c with
  | none => rw [hc] at ih1; exact fun g => ih1 (e1 g)
  | some c1 =>
    rw [hc] at ih1
    obtain ⟨g1, a1⟩ := ih1
    have ih2 := ih2 c1
    unfold CheckOk at ih2
    simp only [Option.bind_some]
    have dd : (if c1.dflt = true then 1 else 0 : Nat) ≤ s.defaults + (if c.dflt = true then 1 else 0) ∧
        (t.defaults + (if c1.dflt = true then 1 else 0) ≤ 1 → s.defaults + t.defaults + (if c.dflt = true then 1 else 0) ≤ 1) := by
      have g := g1.dflt
      rw [a1.dflt]
      revert g
      cases c.dflt <;> intro g
      · by_cases z : 0 < s.defaults
        · simp [z] at g ⊢; omega
        · simp [z] at g ⊢; omega
      · simp at g ⊢; omega
    have e2 : Good u c ↔ Good t c1 := by
      constructor
      · rintro ⟨a, b, d, e⟩
        rw [hl] at b d
        refine ⟨by rw [a1.inSwitch]; exact (hp.1 a).2, (List.nodup_append.1 b).2.1, ?_, by rw [hd] at e; omega⟩
        intro l hm hx
        rcases (a1.defined l).1 hx with h1 | h1
        · exact d l (by simp [hm]) h1
        · exact (List.nodup_append.1 b).2.2 l h1 l hm rfl
      · rintro ⟨a, b, d, e⟩
        refine ⟨hp.2 ⟨g1.placed, by rw [← a1.inSwitch]; exact a⟩, ?_, ?_, by rw [hd]; exact dd.2 e⟩
        · rw [hl]
          refine List.nodup_append.2 ⟨g1.nodup, b, ?_⟩
          rintro x hx y hy rfl
          exact d x hy ((a1.defined x).2 (Or.inr hx))
        · intro l hm hx
          rw [hl, List.mem_append] at hm
          rcases hm with hm | hm
          · exact g1.fresh l hm hx
          · exact d l hm ((a1.defined l).2 (Or.inl hx))
    cases hc2 : check t c1 with
    | none => rw [hc2] at ih2; exact fun g => ih2 (e2.1 g)
    | some c2 =>
      rw [hc2] at ih2
      obtain ⟨g2, a2⟩ := ih2
      refine ⟨e2.2 g2, a2.inSwitch.trans a1.inSwitch, ?_, ?_, ?_⟩
      · rw [a2.dflt, a1.dflt, hd, Bool.or_assoc]
        congr 1
        rw [Bool.eq_iff_iff]; simp
      · intro l; rw [a2.defined, a1.defined, hl, List.mem_append]; tauto
      · intro l; rw [a2.named, a1.named, hl, hg, List.mem_append, List.mem_append]; tauto

theorem name_named (c : Ctx) (l x : Nat) : x ∈ (c.name l).named ↔ x ∈ c.named ∨ x = l := by
  unfold Ctx.name
  split
  · constructor
    · exact Or.inl
    · rintro (h | rfl)
      · exact h
      · assumption
  · simp

theorem name_rest (c : Ctx) (l : Nat) : (c.name l).defined = c.defined ∧ (c.name l).inSwitch = c.inSwitch ∧ (c.name l).dflt = c.dflt := by
  unfold Ctx.name; split <;> exact ⟨rfl, rfl, rfl⟩

theorem check_ok (s : Stmt σ) : ∀ c, CheckOk s c := by
  induction s with
  | skip => intro c; exact check_leaf rfl trivial rfl rfl rfl
  | expr => intro c; exact check_leaf rfl trivial rfl rfl rfl
  | brk => intro c; exact check_leaf rfl trivial rfl rfl rfl
  | cont => intro c; exact check_leaf rfl trivial rfl rfl rfl
  | ret e => intro c; exact check_leaf rfl trivial rfl rfl rfl
  | seq s t ih1 ih2 => intro c; exact check_two rfl Iff.rfl rfl rfl rfl (ih1 c) ih2
  | ifElse e s t ih1 ih2 => intro c; exact check_two rfl Iff.rfl rfl rfl rfl (ih1 c) ih2
  | ite e s ih => intro c; exact check_same (t := s) rfl rfl rfl rfl rfl (ih c)
  | «while» e s ih => intro c; exact check_same (t := s) rfl rfl rfl rfl rfl (ih c)
  | doWhile s e ih => intro c; exact check_same (t := s) rfl rfl rfl rfl rfl (ih c)
  | «for» i e x s ih => intro c; exact check_same (t := s) rfl rfl rfl rfl rfl (ih c)
  | goto l =>
    intro c
    obtain ⟨h1, h2, h3⟩ := name_rest c l
    refine ⟨⟨trivial, List.nodup_nil, by simp [Stmt.labels], by simp [Stmt.defaults]; split <;> omega⟩, h2, by simp [h3, Stmt.defaults], ?_, ?_⟩
    · intro x; rw [h1]; simp [Stmt.labels]
    · intro x; rw [name_named]; simp [Stmt.labels, Stmt.gotos]
  | label l s ih =>
    intro c
    obtain ⟨h1, h2, h3⟩ := name_rest c l
    have ih := ih { c.name l with defined := l :: c.defined }
    unfold CheckOk at ih ⊢
    have e1 : Good (.label l s) c ↔ l ∉ c.defined ∧ Good s { c.name l with defined := l :: c.defined } := by
      constructor
      · rintro ⟨a, b, d, e⟩
        refine ⟨d l (by simp [Stmt.labels]), by rw [h2]; exact a, (List.nodup_cons.1 b).2, ?_, by rw [h3]; exact e⟩
        intro x hx hm
        rcases List.mem_cons.1 hm with rfl | hm
        · exact (List.nodup_cons.1 b).1 hx
        · exact d x (by simp [Stmt.labels, hx]) hm
      · rintro ⟨n, a, b, d, e⟩
        refine ⟨by rw [← h2]; exact a, List.nodup_cons.2 ⟨fun hx => d l hx (by simp), b⟩, ?_, by rw [← h3]; exact e⟩
        intro x hx hm
        rcases List.mem_cons.1 hx with rfl | hx
        · exact n hm
        · exact d x hx (by simp [hm])
    simp only [check]
    by_cases hd : l ∈ c.defined
    · rw [if_pos hd]; exact fun g => (e1.1 g).1 hd
    · rw [if_neg hd]
      cases hc : check s { c.name l with defined := l :: c.defined } with
      | none => rw [hc] at ih; exact fun g => ih (e1.1 g).2
      | some c' =>
        rw [hc] at ih
        obtain ⟨g, a⟩ := ih
        refine ⟨e1.2 ⟨hd, g⟩, a.inSwitch.trans h2, a.dflt.trans (by rw [h3]; rfl), ?_, ?_⟩
        · intro x; rw [a.defined]; simp only [Stmt.labels, List.mem_cons]; tauto
        · intro x; rw [a.named, name_named]; simp only [Stmt.labels, Stmt.gotos, List.mem_cons]; tauto
  | switch e s ih =>
    intro c
    have ih := ih { c with inSwitch := true, dflt := false }
    unfold CheckOk at ih ⊢
    have e1 : Good (.switch e s) c ↔ Good s { c with inSwitch := true, dflt := false } := by
      constructor
      · rintro ⟨a, b, d, e⟩; exact ⟨a.1, b, d, by simpa using a.2⟩
      · rintro ⟨a, b, d, e⟩; exact ⟨⟨a, by simpa using e⟩, b, d, by simp [Stmt.defaults]; split <;> omega⟩
    simp only [check]
    cases hc : check s { c with inSwitch := true, dflt := false } with
    | none => rw [hc] at ih; exact fun g => ih (e1.1 g)
    | some c' =>
      rw [hc] at ih
      obtain ⟨g, a⟩ := ih
      exact ⟨e1.2 g, rfl, by simp [Stmt.defaults], a.defined, a.named⟩
  | case n s ih =>
    intro c
    by_cases h : c.inSwitch = true
    · refine check_same (t := s) ?_ ?_ rfl rfl rfl (ih c)
      · simp only [check, if_pos h]
      · simp only [Stmt.placed, h, true_and]
    · unfold CheckOk
      simp only [check, if_neg h]
      exact fun g => h g.placed.1
  | default s ih =>
    intro c
    by_cases h : c.inSwitch = true
    · have ih := ih { c with dflt := true }
      unfold CheckOk at ih ⊢
      simp only [check, if_pos h]
      by_cases hd : c.dflt = true
      · rw [if_pos hd]
        intro g
        have := g.dflt
        rw [hd] at this
        simp [Stmt.defaults] at this
      · rw [if_neg hd]
        have hd' : c.dflt = false := by simpa using hd
        have e1 : Good (.default s) c ↔ Good s { c with dflt := true } := by
          constructor
          · rintro ⟨a, b, d, e⟩; exact ⟨a.2, b, d, by simp [Stmt.defaults, hd'] at e ⊢; omega⟩
          · rintro ⟨a, b, d, e⟩; exact ⟨⟨h, a⟩, b, d, by simp [Stmt.defaults, hd'] at e ⊢; omega⟩
        cases hc : check s { c with dflt := true } with
        | none => rw [hc] at ih; exact fun g => ih (e1.1 g)
        | some c' =>
          rw [hc] at ih
          obtain ⟨g, a⟩ := ih
          exact ⟨e1.2 g, a.inSwitch, by rw [a.dflt]; simp [Stmt.defaults], a.defined, a.named⟩
    · unfold CheckOk
      simp only [check, if_neg h]
      exact fun g => h g.placed.1

/-- Acceptance. -/
theorem build_iff (body : Stmt σ) : (build body).isSome = true ↔
    body.placed false ∧ body.labels.Nodup ∧ ∀ l ∈ body.gotos, l ∈ body.labels := by
  have h := stmt_check body none none ({} : B σ).new 0
  have hk := check_ok body ({} : B σ).new.ctx
  unfold CheckOk at hk
  unfold build
  cases hs : ({} : B σ).new.stmt none none 0 body with
  | none =>
    rw [hs] at h
    rw [← h] at hk
    refine ⟨fun h => by simp at h, fun ⟨a, b, d⟩ => absurd ?_ hk⟩
    exact ⟨a, b, fun l _ h => (nomatch h), by rw [no_defaults body a]; exact Nat.zero_le 1⟩
  | some r =>
    rw [hs] at h
    rw [← h] at hk
    obtain ⟨g, a⟩ := hk
    have e : (r.1.labels.all fun l => r.1.defined.contains l.1) = true ↔ ∀ l ∈ body.gotos, l ∈ body.labels := by
      rw [List.all_eq_true]
      have hn : ∀ l, l ∈ r.1.labels.map Prod.fst ↔ l ∈ body.labels ∨ l ∈ body.gotos := fun l => by
        have := a.named l
        rw [show ({} : B σ).new.ctx.named = [] from rfl] at this
        rw [show r.1.labels.map Prod.fst = r.1.ctx.named from rfl, this]; simp
      have hd : ∀ l, l ∈ r.1.defined ↔ l ∈ body.labels := fun l => by
        have := a.defined l
        rw [show ({} : B σ).new.ctx.defined = [] from rfl] at this
        rw [show r.1.defined = r.1.ctx.defined from rfl, this]; simp
      constructor
      · intro h l hl
        obtain ⟨x, hx, rfl⟩ := List.mem_map.1 ((hn l).2 (Or.inr hl))
        exact (hd _).1 (by simpa using h x hx)
      · intro h x hx
        have := (hn x.1).1 (List.mem_map.2 ⟨x, hx, rfl⟩)
        have := (hd x.1).2 (this.elim id (h _))
        simpa using this
    simp only []
    split
    · rename_i hall
      exact ⟨fun _ => ⟨g.placed, g.nodup, e.1 hall⟩, fun _ => rfl⟩
    · rename_i hall
      exact ⟨fun h => by simp at h, fun h => absurd (e.2 h.2.2) hall⟩

end Verif.Cfg
