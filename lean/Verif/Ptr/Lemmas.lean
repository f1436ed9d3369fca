import Verif.Ptr.Ir
import Verif.Expr.SoundLemmas
import Verif.Conv.IntLemmas

/-!
# Operands
-/

namespace Verif.Ptr

open Verif.Abi (rd wr le val sval)
open Verif.Types (Ty)
open Verif.Types.Spec (Basic)
open Verif.Fold (tyOf isInt isOpTy)
open Verif.Fold.Spec (conv fits)
open Verif.Expr (IVar IExp)

variable {W : World}

set_option linter.unusedSectionVars false

/-! ### Types -/

/-- A value of the type. -/
def Fit : CTy → Int → Prop
  | .int b, x => fits b x
  | .ptr _, x => 0 ≤ x ∧ x < 2 ^ 64
  | _, _ => False

theorem size_int {b : Basic} (h : isInt b) : (CTy.int b).size W.toDecls = Expr.size b := Expr.size_tyOf h

theorem tyOf_ne_void (b : Basic) : tyOf b {} ≠ { kind := .void } := by cases b <;> decide

theorem ofTy_tyOf {b : Basic} (h : isInt b) : ofTy (tyOf b {}) = .int b := by
  rcases Fold.isInt_cases h with h | h | h | h | h | h | h | h | h <;> subst h <;> decide

theorem Fit.isScalar {t : CTy} {x : Int} (h : Fit t x) : isScalar t = true := by
  cases t <;> first | rfl | exact h.elim

theorem view_fit {t : CTy} {x y : Int} (ht : t.Ok) (h : view t x = some y) : Fit t y := by
  cases t with
  | int b => simp only [view, Option.some.injEq] at h; subst h; exact Fold.conv_fits ht x
  | ptr t => simp only [view, Option.some.injEq] at h; subst h; exact ⟨by omega, by omega⟩
  | _ => cases h

theorem view_self {t : CTy} {x : Int} (h : Fit t x) : view t x = some x := by
  cases t with
  | int b => simp only [view, Fold.conv_self h]
  | ptr t => simp only [view]; rw [Int.emod_eq_of_lt h.1 h.2]
  | _ => exact h.elim

theorem fit_ty {t s : CTy} {x : Int} (h : Fit (.ptr t) x) : Fit (.ptr s) x := h

theorem val_rd (mem : Mem) (a : Int) (n : Nat) : 0 ≤ val (rd mem a n) ∧ val (rd mem a n) < 256 ^ n := by
  have h1 := Abi.val_lt (rd mem a n)
  have h2 := Abi.val_nonneg (rd mem a n)
  rw [Abi.rd_length] at h1
  exact ⟨h2, h1⟩

theorem scalar_inv {mem : Mem} {t : CTy} {a x : Int} (h : scalar W mem t a = some x) :
    W.Valid a (t.size W.toDecls) ∧ number mem t a = some x := by
  unfold scalar at h
  split_ifs at h with hv
  exact ⟨hv, h⟩

theorem number_fit {mem : Mem} {t : CTy} {a x : Int} (ht : t.Ok) (h : number mem t a = some x) : Fit t x := by
  cases t with
  | int b =>
    by_cases hb : b = .bool
    · subst hb
      simp only [number] at h
      split_ifs at h with h1
      cases h
      exact ⟨0, 1, rfl, (val_rd _ _ _).1, h1⟩
    · have e : x = if b.isSigned then sval (rd mem a (Expr.size b)) else val (rd mem a (Expr.size b)) := by
        cases b <;> first | exact (hb rfl).elim | (simp only [number, Option.some.injEq] at h; exact h.symm)
      subst e
      refine Expr.fits_has ht hb ?_
      have hs : 0 < Expr.size b := by
        rcases Fold.isInt_cases ht with h | h | h | h | h | h | h | h | h <;> subst h <;> decide
      unfold Arith.Has
      split_ifs with hsg
      · have := Conv.sval_range (rd mem a (Expr.size b)) (by rw [Abi.rd_length]; exact hs)
        rw [Abi.rd_length] at this
        exact this
      · have := val_rd mem a (Expr.size b)
        rw [show (256 : Int) ^ Expr.size b = 2 ^ (8 * Expr.size b) by rw [pow_mul]; norm_num] at this
        exact this
  | ptr t =>
    simp only [number, Option.some.injEq] at h
    subst h
    have := val_rd mem a 8
    exact ⟨this.1, by have := this.2; norm_num at this ⊢; exact this⟩
  | _ => cases h

theorem scalar_fit {mem : Mem} {t : CTy} {a x : Int} (ht : t.Ok) (h : scalar W mem t a = some x) : Fit t x := number_fit ht (scalar_inv h).2

/-! ### Operands -/

/-- There are `n` temporaries. -/
def Sym.Below (n : Nat) : Sym → Prop
  | .var _ => True
  | .tmp k _ => k < n

/-- What is so for all operands: constants are of their type; of a temporary no part is used, and it has a type; addresses are of variables and have
the size of pointers; what is dereferenced is a pointer. -/
def PVar.Shape (W : World) (n : Nat) : PVar → Prop
  | .imm t v => ∀ b, t = .int b → v = BitVec.ofInt 64 (conv b v.toInt)
  | .dir s o _ => s.Below n ∧ ∀ k t, s = .tmp k t → o = 0 ∧ t.Ok
  | .adr s _ t => (∃ i, s = .var i) ∧ t.size W.toDecls = 8
  | .der s _ _ => s.Below n ∧ ∃ w, s.ty W.toDecls = .ptr w ∧ w.Ok
  | .derImm _ _ _ => True

/-- The types of two operands.  Integers have been converted, but shifts do not need that; with a pointer, everything is 8 bytes. -/
def Binary (D : Decls) (op : Fold.Op) (t l r : CTy) : Prop :=
  (∀ o, Expr.arithOp op = some o →
    (∃ b, t = .int b ∧ isOpTy b ∧ l = t ∧ (o = .shl ∨ o = .shr ∨ r = t)) ∨ (∃ u, t = .ptr u ∧ l.size D = 8 ∧ r.size D = 8)) ∧
  ∀ o, Expr.compareOp op = some o → ∃ b, isOpTy b ∧ l = .int b ∧ r = .int b

/-- Expressions: no constant is left to be converted. -/
def PExp.Shape (W : World) (n : Nat) : PExp → Prop
  | .cast t v => v.Shape W n ∧ v.ty.Ok ∧ (isImm v = true → v.ty = t)
  | .not t v => v.Shape W n ∧ v.ty = t ∧ ∃ b, t = .int b ∧ isOpTy b
  | .bin op t l r => (l.Shape W n ∧ l.ty.Ok) ∧ (r.Shape W n ∧ r.ty.Ok) ∧ Binary W.toDecls op t l.ty r.ty

/-- Statements: the target has the type of the expression, but `_Bool` may be assigned a comparison.  A temporary is assigned
an expression of earlier ones. -/
structure PStmt.Shape (W : World) (n : Nat) (s : PStmt) : Prop where
  target : s.t.Shape W n ∧ s.t.ty.Ok
  exp : s.e.Shape W n
  ty : s.t.ty = s.e.ty ∨ s.t.ty = .int .bool ∧ ∃ op t l r, s.e = .bin op t l r ∧ (Expr.compareOp op).isSome
  cmp : ∀ op t l r, s.e = .bin op t l r → (Expr.compareOp op).isSome → t = .int .int ∨ t = .int .bool
  tmp : ∀ k u o t, s.t = .dir (.tmp k u) o t → u = t ∧ s.e.Shape W k

/-- The operand has this value. -/
structure PVal (W : World) (n : Nat) (σ : Env) (v : PVar) (t : CTy) (x : Int) : Prop where
  ty : v.ty = t
  ok : t.Ok
  shape : v.Shape W n
  read : v.read W σ = some x

/-- The operand designates the object there. -/
structure LVal (W : World) (n : Nat) (σ : Env) (v : PVar) (t : CTy) (a : Int) : Prop where
  ty : v.ty = t
  ok : t.Ok
  shape : v.Shape W n
  place : v.place W σ = some a

/-- The expression has this value. -/
structure EVal (W : World) (n : Nat) (σ : Env) (e : PExp) (t : CTy) (x : Int) : Prop where
  ty : e.ty = t
  ok : t.Ok
  shape : e.Shape W n
  value : e.value W σ = some x
  fit : Fit t x
  cmp : ∀ op t l r o, e = .bin op t l r → Expr.compareOp op = some o → t = .int .int

/-- Only new temporaries are different. -/
structure Keep (n : Nat) (σ σ' : Env) : Prop where
  mem : σ'.mem = σ.mem
  tmps : ∀ k < n, σ'.tmps k = σ.tmps k

theorem Keep.refl (n : Nat) (σ : Env) : Keep n σ σ := ⟨rfl, fun _ _ => rfl⟩

theorem Keep.trans {n n' : Nat} {σ σ' σ'' : Env} (h : Keep n σ σ') (g : Keep n' σ' σ'') (hn : n ≤ n') : Keep n σ σ'' :=
  ⟨g.mem.trans h.mem, fun k hk => (g.tmps k (by omega)).trans (h.tmps k hk)⟩

theorem Sym.Below.mono {n n' : Nat} {s : Sym} (h : s.Below n) (hn : n ≤ n') : s.Below n' := by
  cases s with
  | var i => trivial
  | tmp k t => have : k < n := h; show k < n'; omega

theorem PVar.Shape.mono {n n' : Nat} {v : PVar} (h : v.Shape W n) (hn : n ≤ n') : v.Shape W n' := by
  cases v with
  | imm t v => exact h
  | dir s o t => exact ⟨h.1.mono hn, h.2⟩
  | adr s o t => exact h
  | der s o t => exact ⟨h.1.mono hn, h.2⟩
  | derImm v o t => trivial

theorem PExp.Shape.mono {n n' : Nat} {e : PExp} (h : e.Shape W n) (hn : n ≤ n') : e.Shape W n' := by
  cases e with
  | cast t v => exact ⟨h.1.mono hn, h.2⟩
  | not t v => exact ⟨h.1.mono hn, h.2⟩
  | bin op t l r => exact ⟨⟨h.1.1.mono hn, h.1.2⟩, ⟨h.2.1.1.mono hn, h.2.1.2⟩, h.2.2⟩

theorem PStmt.Shape.mono {n n' : Nat} {s : PStmt} (h : s.Shape W n) (hn : n ≤ n') : s.Shape W n' :=
  ⟨⟨h.target.1.mono hn, h.target.2⟩, h.exp.mono hn, h.ty, h.cmp, h.tmp⟩

theorem tmpValue_keep {n k : Nat} {σ σ' : Env} (hk : Keep n σ σ') (h : k < n) (t : CTy) : tmpValue W σ' k t = tmpValue W σ k t := by
  unfold tmpValue
  rw [hk.tmps k h]

theorem tmpValue_ptr (σ : Env) (k : Nat) (t u : CTy) : tmpValue W σ k (.ptr t) = tmpValue W σ k (.ptr u) := by
  unfold tmpValue
  split
  · simp only [reduceCtorEq, false_implies, and_true]; rfl
  · rfl

theorem pointer_keep {n : Nat} {σ σ' : Env} {s : Sym} (hk : Keep n σ σ') (h : s.Below n) : pointer W σ' s = pointer W σ s := by
  cases s with
  | var i => simp only [pointer, hk.mem]
  | tmp k t => exact tmpValue_keep hk h _

theorem place_keep {n : Nat} {σ σ' : Env} {v : PVar} (hk : Keep n σ σ') (h : v.Shape W n) : v.place W σ' = v.place W σ := by
  cases v with
  | imm t v => rfl
  | dir s o t => cases s <;> rfl
  | adr s o t => rfl
  | der s o t => simp only [PVar.place, pointer_keep hk h.1]
  | derImm v o t => rfl

theorem read_keep {n : Nat} {σ σ' : Env} {v : PVar} (hk : Keep n σ σ') (h : v.Shape W n) : v.read W σ' = v.read W σ := by
  have hp := place_keep hk h
  cases v with
  | imm t v => rfl
  | dir s o t =>
    cases s with
    | var i => simp only [PVar.read, hk.mem, hp]
    | tmp k t' => simp only [PVar.read, tmpValue_keep hk (show k < n from h.1)]
  | adr s o t => obtain ⟨⟨i, rfl⟩, _⟩ := h; rfl
  | der s o t => simp only [PVar.read, hk.mem, hp]
  | derImm v o t => simp only [PVar.read, hk.mem, hp]

theorem value_keep {n : Nat} {σ σ' : Env} {e : PExp} (hk : Keep n σ σ') (h : e.Shape W n) : e.value W σ' = e.value W σ := by
  cases e with
  | cast t v => simp only [PExp.value, read_keep hk (show v.Shape W n from h.1)]
  | not t v => simp only [PExp.value, read_keep hk (show v.Shape W n from h.1)]
  | bin op t l r => simp only [PExp.value, read_keep hk h.1.1, read_keep hk h.2.1.1]

section
variable {n n' : Nat} {σ σ' : Env} {v : PVar} {e : PExp} {t : CTy} {x a : Int}

theorem PVal.keep (h : PVal W n σ v t x) (hk : Keep n σ σ') (hn : n ≤ n') : PVal W n' σ' v t x :=
  ⟨h.ty, h.ok, h.shape.mono hn, (read_keep hk h.shape).trans h.read⟩

theorem LVal.keep (h : LVal W n σ v t a) (hk : Keep n σ σ') (hn : n ≤ n') : LVal W n' σ' v t a :=
  ⟨h.ty, h.ok, h.shape.mono hn, (place_keep hk h.shape).trans h.place⟩

theorem EVal.keep (h : EVal W n σ e t x) (hk : Keep n σ σ') (hn : n ≤ n') : EVal W n' σ' e t x :=
  ⟨h.ty, h.ok, h.shape.mono hn, (value_keep hk h.shape).trans h.value, h.fit, h.cmp⟩

theorem tmpValue_fit {k : Nat} (ht : t.Ok) (h : tmpValue W σ k t = some x) : Fit t x := by
  unfold tmpValue at h
  split at h
  · split_ifs at h
    exact view_fit ht h
  · cases h

theorem read_fit (ht : v.ty.Ok) (h : v.read W σ = some x) : Fit v.ty x := by
  have sc : (v.place W σ).bind (scalar W σ.mem v.ty) = some x → Fit v.ty x := by
    intro h
    obtain ⟨a, _, h⟩ := Option.bind_eq_some_iff.mp h
    exact scalar_fit ht h
  cases v with
  | imm t v => exact view_fit ht h
  | dir s o t =>
    cases s with
    | var i => exact sc h
    | tmp k t' =>
      simp only [PVar.read] at h
      split_ifs at h
      exact tmpValue_fit ht h
  | adr s o t =>
    cases s with
    | var i => exact view_fit ht h
    | tmp k t' => exact sc h
  | der s o t => exact sc h
  | derImm v o t => exact sc h

theorem PVal.fit (h : PVal W n σ v t x) : Fit t x := h.ty ▸ read_fit (h.ty ▸ h.ok) h.read

/-- An lvalue of scalar type is an operand. -/
theorem LVal.val (h : LVal W n σ v t a) (hx : scalar W σ.mem t a = some x) : PVal W n σ v t x := by
  refine ⟨h.ty, h.ok, h.shape, ?_⟩
  have hp := h.place
  have ht := h.ty
  cases v with
  | imm t v => cases hp
  | dir s o t =>
    cases s with
    | var i => simp only [PVar.read]; rw [hp, Option.bind_some, ht, hx]
    | tmp k t' => cases hp
  | adr s o t => cases hp
  | der s o t => simp only [PVar.read]; rw [hp, Option.bind_some, ht, hx]
  | derImm v o t => simp only [PVar.read]; rw [hp, Option.bind_some, ht, hx]

theorem asExpr_val (h : PVal W n σ v t x) : EVal W n σ (asExpr v) t x := by
  refine ⟨h.ty, h.ok, ⟨h.shape, by rw [h.ty]; exact h.ok, fun _ => rfl⟩, ?_, h.fit, fun _ _ _ _ _ e => by cases e⟩
  simp only [asExpr, PExp.value, h.read, Option.bind_eq_bind, Option.bind_some, ne_eq, not_true_eq_false, and_false, if_false, h.ty]
  exact view_self h.fit

theorem identity_val (h : EVal W n σ e t x) (hi : identity e = some v) : PVal W n σ v t x := by
  cases e with
  | cast s w =>
    simp only [identity] at hi
    split_ifs at hi with hs
    cases hi
    have ht : s = t := h.ty
    subst ht
    refine ⟨hs, h.ok, h.shape.1, ?_⟩
    have hv := h.value
    simp only [PExp.value, Option.bind_eq_bind, Option.bind_eq_some_iff] at hv
    obtain ⟨y, hy, hv⟩ := hv
    rw [if_neg (by simp [hs])] at hv
    have hf : Fit s y := hs ▸ read_fit (hs ▸ h.ok) hy
    rw [view_self hf] at hv
    rw [hy, hv]
  | not s w => cases hi
  | bin op s l r => cases hi

end

/-! ### Statements -/

theorem execs_append {σ : Env} {st st' : List PStmt} : execs W σ (st ++ st') = (execs W σ st).bind (execs W · st') := by
  induction st generalizing σ with
  | nil => rfl
  | cons s r ih =>
    simp only [List.cons_append, execs]
    cases s.exec W σ with
    | none => rfl
    | some σ1 => simp only [Option.bind_some, ih]

/-- From here, and `n` temporaries, this succeeds with statements that can be executed, and then. -/
def Sound (W : World) (σ : Env) (n : Nat) {α : Type} (f : R α) (Q : Env → Nat → α → Prop) : Prop :=
  ∃ a n' st σ', f n = some (a, n', st) ∧ n ≤ n' ∧ (execs W σ st = some σ' ∧ ∀ s ∈ st, s.Shape W n') ∧ Q σ' n' a

section
variable {σ : Env} {n : Nat} {α β : Type}

theorem Sound.pure {a : α} {Q : Env → Nat → α → Prop} (h : Q σ n a) : Sound W σ n (Pure.pure a : R α) Q :=
  ⟨a, n, [], σ, rfl, Nat.le_refl _, ⟨rfl, fun _ hs => nomatch hs⟩, h⟩

theorem Sound.bind {f : R α} {g : α → R β} {P : Env → Nat → α → Prop} {Q : Env → Nat → β → Prop}
    (h : Sound W σ n f P) (hg : ∀ σ' n' a, n ≤ n' → P σ' n' a → Sound W σ' n' (g a) Q) : Sound W σ n (f >>= g) Q := by
  obtain ⟨a, n1, st1, σ1, e1, l1, d1, p1⟩ := h
  obtain ⟨b, n2, st2, σ2, e2, l2, d2, p2⟩ := hg σ1 n1 a l1 p1
  refine ⟨b, n2, st1 ++ st2, σ2, ?_, by omega, ⟨by rw [execs_append, d1.1, Option.bind_some, d2.1], ?_⟩, p2⟩
  swap
  · intro s hs
    rcases List.mem_append.mp hs with hs | hs
    · exact (d1.2 s hs).mono l2
    · exact d2.2 s hs
  show R.bind f g n = _
  simp only [R.bind, e1, e2]

theorem Sound.weaken {f : R α} {P Q : Env → Nat → α → Prop} (h : Sound W σ n f P)
    (g : ∀ σ' n' a, n ≤ n' → P σ' n' a → Q σ' n' a) : Sound W σ n f Q := by
  obtain ⟨a, n1, st1, σ1, e1, l1, d1, p1⟩ := h
  exact ⟨a, n1, st1, σ1, e1, l1, d1, g _ _ _ l1 p1⟩

theorem pure_bind (a : α) (g : α → R β) : (Pure.pure a >>= g : R β) = g a := by
  funext n
  show R.bind (R.pure a) g n = g a n
  simp only [R.bind, R.pure]
  cases g a n with
  | none => rfl
  | some p => rfl

theorem lift_pure (a : α) : R.lift (some a) = (Pure.pure a : R α) := rfl

end

/-- A new temporary. -/
theorem newTmp {σ : Env} {n : Nat} {e : PExp} {t : CTy} {x : Int} (h : EVal W n σ e t x) :
    (execs W σ [⟨.dir (.tmp n t) 0 t, e⟩] = some (σ.setTmp n t x) ∧ ∀ s ∈ [(⟨.dir (.tmp n t) 0 t, e⟩ : PStmt)], s.Shape W (n + 1)) ∧ Keep n σ (σ.setTmp n t x) ∧
      PVal W (n + 1) (σ.setTmp n t x) (.dir (.tmp n t) 0 t) t x := by
  refine ⟨⟨?_, ?_⟩, ⟨rfl, ?_⟩, rfl, h.ok, ⟨Nat.lt_succ_self n, fun _ _ e => (by cases e; exact ⟨rfl, h.ok⟩)⟩, ?_⟩
  · simp only [execs, PStmt.exec, and_self, if_true, h.value, Option.map_some, Option.bind_some]
  · intro s hs
    rw [List.mem_singleton] at hs
    subst hs
    refine ⟨⟨⟨Nat.lt_succ_self n, fun _ _ e => (by cases e; exact ⟨rfl, h.ok⟩)⟩, h.ok⟩, h.shape.mono (Nat.le_succ n), .inl h.ty.symm, ?_, ?_⟩
    · intro op t l r e hc
      obtain ⟨o, ho⟩ := Option.isSome_iff_exists.mp hc
      exact .inl (h.cmp op t l r o e ho)
    · intro k u o t' e'
      cases e'
      exact ⟨rfl, h.shape⟩
  · intro k hk
    simp only [Env.setTmp, if_neg (show k ≠ n by omega)]
  · simp only [PVar.read, if_true, tmpValue, Env.setTmp, view_self h.fit, implies_true, and_self]

theorem eval_sound {σ : Env} {n : Nat} {e : PExp} {t : CTy} {x : Int} (h : EVal W n σ e t x) :
    Sound W σ n (eval e) fun σ' n' v => Keep n σ σ' ∧ PVal W n' σ' v t x := by
  unfold eval
  cases hi : identity e with
  | some v => exact .pure ⟨Keep.refl _ _, identity_val h hi⟩
  | none =>
    obtain ⟨d, k, p⟩ := newTmp h
    refine ⟨.dir (.tmp n t) 0 t, n + 1, [⟨.dir (.tmp n t) 0 t, e⟩], σ.setTmp n t x, ?_, by omega, d, k, p⟩
    have hv : t ≠ .void := by rintro rfl; exact h.fit.elim
    show R.bind _ _ n = _
    simp only [R.bind, createVar, h.ty, if_neg hv]
    rfl

end Verif.Ptr
