import Verif.Call.Lemmas

/-!
# Statements do only one thing
-/

namespace Verif.Call

open Verif.Types.Spec (Basic)
open Verif.Fold (tyOf isInt)
open Verif.Fold.Spec (conv fits)
open Verif.Expr (IVar IExp Env VHolds EHolds AHolds)

variable {S : Type} {W : Decls} {F : Functions S} {N : Nat}

theorem fits_inj {b : Basic} {x y : Int} (hx : fits b x) (hy : fits b y) (h : BitVec.ofInt 64 x = BitVec.ofInt 64 y) : x = y := by
  have h' : x % 2 ^ 64 = y % 2 ^ 64 := by
    have := congrArg BitVec.toNat h
    simp only [BitVec.toNat_ofInt] at this
    omega
  obtain ⟨lo, hi, e, h1, h2⟩ := hx
  obtain ⟨lo', hi', e', h3, h4⟩ := hy
  rw [e] at e'
  cases e'
  clear h
  cases b <;> simp [Basic.range] at e <;> omega

theorem VHolds.unique {n : Nat} {σ : Env} {v : IVar} {a b : Basic} {x y : Int} (h : VHolds W.vars N n σ v a x) (g : VHolds W.vars N n σ v b y) :
    a = b ∧ x = y := by
  have hb : a = b := Expr.tyOf_inj (h.ty.symm.trans g.ty)
  subst hb
  refine ⟨rfl, ?_⟩
  have h1 := h.at_
  have g1 := g.at_
  cases v with
  | imm i => exact fits_inj h.fits g.fits (h1.symm.trans g1)
  | obj i t => exact h1.2.2.symm.trans g1.2.2
  | tmp k t =>
    have := h1.2.symm.trans g1.2
    simp only [Option.some.injEq, Prod.mk.injEq] at this
    exact this.2

theorem ops {op : Fold.Op} {o : Arith.Op} {o' : Compare.Op} (h : Expr.arithOp op = some o) (g : Expr.compareOp op = some o') : False := by
  revert h g
  cases op <;> simp [Expr.arithOp, Expr.compareOp]

theorem EHolds.unique {n : Nat} {σ : Env} {e : IExp} {a b : Basic} {x y : Int} (h : EHolds W.vars N n σ e a x) (g : EHolds W.vars N n σ e b y) :
    a = b ∧ x = y := by
  have hb : a = b := Expr.tyOf_inj (h.ty.symm.trans g.ty)
  subst hb
  refine ⟨rfl, ?_⟩
  cases h with
  | same h =>
    generalize he : IExp.cast _ _ = e at g
    cases g with
    | same g => cases he; exact (VHolds.unique h g).2
    | conv g hi hb hb' ha =>
      cases he
      exact (ha (VHolds.unique g h).1).elim
    | not => cases he
    | arith => cases he
    | rel => cases he
  | conv h hi hb hb' ha =>
    generalize he : IExp.cast _ _ = e at g
    cases g with
    | same g => cases he; exact (ha (VHolds.unique h g).1).elim
    | conv g hi hb hb' ha =>
      cases he
      rw [(VHolds.unique h g).2]
    | not => cases he
    | arith => cases he
    | rel => cases he
  | not h hb =>
    generalize he : IExp.not _ _ = e at g
    cases g with
    | not g => cases he; rw [(VHolds.unique h g).2]
    | same => cases he
    | conv => cases he
    | arith => cases he
    | rel => cases he
  | arith ho hb hl hr ha hm =>
    generalize he : IExp.bin _ _ _ _ = e at g
    cases g with
    | arith ho' hb' hl' hr' ha' hm' =>
      cases he
      cases ho.symm.trans ho'
      rw [(VHolds.unique hl hl').2, (VHolds.unique hr hr').2] at hm
      exact Option.some.inj (hm.symm.trans hm')
    | rel ho' =>
      simp only [IExp.bin.injEq] at he
      obtain ⟨rfl, _⟩ := he
      exact (ops ho ho').elim
    | same => cases he
    | conv => cases he
    | not => cases he
  | rel ho ha hl hr =>
    generalize he : IExp.bin _ _ _ _ = e at g
    cases g with
    | rel ho' ha' hl' hr' =>
      cases he
      cases ho.symm.trans ho'
      rw [(VHolds.unique hl hl').2, (VHolds.unique hr hr').2]
    | arith ho' =>
      simp only [IExp.bin.injEq] at he
      obtain ⟨rfl, _⟩ := he
      exact (ops ho' ho).elim
    | same => cases he
    | conv => cases he
    | not => cases he

theorem AHolds.unique {n : Nat} {σ : Env} {e : IExp} {b : Basic} {x y : Int} (h : AHolds W.vars N n σ e b x) (g : AHolds W.vars N n σ e b y) :
    x = y := by
  have no : ∀ {op : Fold.Op} {o : Compare.Op} {l r : IVar} {z : Int}, Expr.compareOp op = some o →
      ¬ EHolds W.vars N n σ (.bin op (tyOf .bool {}) l r) .bool z := by
    intro op o l r z ho h
    generalize he : IExp.bin op (tyOf .bool {}) l r = e at h
    generalize hb : Basic.bool = b at h
    cases h with
    | same => cases he
    | conv => cases he
    | not => cases he
    | arith ho' =>
      simp only [IExp.bin.injEq] at he
      obtain ⟨rfl, _⟩ := he
      exact ops ho' ho
    | rel => cases hb
  rcases h with h | ⟨rfl, op, o, l, r, rfl, ho, h⟩
  · rcases g with g | ⟨rfl, op, o, l, r, rfl, ho, g⟩
    · exact (EHolds.unique h g).2
    · exact (no ho h).elim
  · rcases g with g | ⟨_, op', o', l', r', e, ho', g⟩
    · exact (no ho g).elim
    · cases e
      exact (EHolds.unique h g).2

theorem Does.unique {M : Nat} {σ σ1 σ2 : Env} {x : Expr.Stmt} (h : Expr.Does W.vars N M σ [x] σ1) (g : Expr.Does W.vars N M σ [x] σ2) :
    σ1 = σ2 := by
  cases h with
  | var hi h hr =>
    cases hr
    generalize he : [_] = st at g
    cases g with
    | nil => cases he
    | var hi' g gr =>
      cases he
      cases gr
      rw [AHolds.unique h g]
    | tmp => cases he
  | tmp hk h hr =>
    cases hr
    generalize he : [_] = st at g
    cases g with
    | nil => cases he
    | var => cases he
    | tmp hk' g gr =>
      simp only [List.cons.injEq, Expr.Stmt.mk.injEq, IVar.tmp.injEq] at he
      obtain ⟨⟨⟨rfl, hb⟩, rfl⟩, rfl⟩ := he
      have := Expr.tyOf_inj hb
      subst this
      cases gr
      rw [AHolds.unique h g]

theorem Holding.unique {n : Nat} {σ : Env} {vs : List IVar} : ∀ {xs ys : List (Basic × Int)}, Holding W N n σ vs xs → Holding W N n σ vs ys →
    xs = ys := by
  induction vs with
  | nil => intro xs ys h g; cases h; cases g; rfl
  | cons v r ih =>
    intro xs ys h g
    cases h with
    | cons h1 h2 =>
      cases g with
      | cons g1 g2 =>
        have := VHolds.unique h1 g1
        rw [ih h2 g2, Prod.ext_iff.mpr this]

theorem Callee.At.unique {n : Nat} {s : State S} {c : Callee} {f g : Nat} (h : c.At W n s f) (h' : c.At W n s g) : f = g := by
  cases c with
  | name k => exact h.symm.trans h'
  | tmp k t => exact Option.some.inj (h.2.1.symm.trans h'.2.1)

theorem Lands.unique {M : Nat} {s s1 s2 : State S} {t : Target} {v : Val} (h : Lands W N M s t v s1) (g : Lands W N M s t v s2) : s1 = s2 := by
  cases h with
  | none => cases g; rfl
  | obj => cases g; rfl
  | tmp hk =>
    rename_i k b x
    generalize he : Target.var (.tmp k (tyOf b {})) = t at g
    cases g with
    | none => cases he
    | obj => cases he
    | tmp =>
      simp only [Target.var.injEq, IVar.tmp.injEq] at he
      rw [he.1]
  | fn => cases g; rfl

theorem Runs.unique {M : Nat} {s s1 : State S} {st : List CStmt} (h : Runs W F N M s st s1) : ∀ {s2 : State S}, Runs W F N M s st s2 → s1 = s2 := by
  induction h with
  | nil => intro s2 g; cases g; rfl
  | plain h hr ih =>
    intro s2 g
    cases g with
    | plain g gr =>
      have := Does.unique h g
      subst this
      exact ih gr
  | param hr ih =>
    intro s2 g
    cases g with
    | param gr => exact ih gr
  | call hc ha hf hv ht hr ih =>
    intro s2 g
    cases g with
    | call gc ga gf gv gt gr =>
      have := hc.unique gc
      subst this
      have := ha.unique ga
      subst this
      have := hf.symm.trans gf
      simp only [Option.some.injEq, Prod.mk.injEq] at this
      obtain ⟨rfl, rfl⟩ := this
      have := Option.some.inj (hv.symm.trans gv)
      subst this
      have := ht.unique gt
      subst this
      exact ih gr

end Verif.Call
