import Verif.Ptr.RunLemmas
import Verif.Ptr.StmLemmas

/-!
# Statements of the front end are such that the back end can be followed
-/

namespace Verif.Ptr

open Verif.Conv (CM Val)
open Verif.Expr (Layout)
open Verif.Fold.Spec (conv fits)
open Verif.Fold (isOpTy)

set_option linter.unusedSectionVars false

variable {W : World} {L : Layout} {n : Nat}

theorem Fit.scalar {t : CTy} {x : Int} (ht : t.Ok) (h : Fit t x) : t.Scalar := by
  cases t with
  | int b => exact ⟨ht, .inl ⟨b, rfl⟩⟩
  | ptr u => exact ⟨ht, .inr ⟨u, rfl⟩⟩
  | _ => exact h.elim

theorem view_scalar {t : CTy} {x y : Int} (ht : t.Ok) (h : view t x = some y) : t.Scalar := (view_fit ht h).scalar ht

theorem before_of {v : PVar} (h : v.Shape W n) : v.Before n := by
  cases v with
  | dir s o t =>
    cases s with
    | var i => trivial
    | tmp k u => exact h.1
  | der s o t =>
    cases s with
    | var i => trivial
    | tmp k u => exact h.1
  | _ => trivial

theorem before_exp {e : PExp} (h : e.Shape W n) : e.Before n := by
  cases e with
  | cast t v => exact before_of h.1
  | not t v => exact before_of h.1
  | bin op t l r => exact ⟨before_of h.1.1, before_of h.2.1.1⟩

theorem plain_shape {v : PVar} (h : v.Shape W n) (hs : v.Short) (ht : v.ty.Scalar) : v.Plain W.toDecls := by
  cases v with
  | imm t v =>
    refine ⟨ht, ?_⟩
    rintro rfl
    have := h .bool rfl
    unfold conv at this
    simp only [if_true] at this
    split_ifs at this
    · exact .inl (by rw [this]; rfl)
    · exact .inr (by rw [this]; rfl)
  | dir s o t => exact ⟨ht, hs, fun k u e => (h.2 k u e).1⟩
  | adr s o t => exact ⟨ht, hs, h.1, h.2⟩
  | der s o t => obtain ⟨_, w, e, _⟩ := h; exact ⟨ht, hs, w, e⟩
  | derImm v o t => exact hs.elim

theorem plain_read {v : PVar} {σ : Env} {x : Int} (h : v.Shape W n) (hok : v.ty.Ok) (hs : v.Short) (hr : v.read W σ = some x) : v.Plain W.toDecls :=
  plain_shape h hs ((read_fit hok hr).scalar hok)

theorem plain_exp {e : PExp} {σ : Env} {y : Int} (h : e.Shape W n) (hc : ∀ t v, e = .cast t v → t.Ok) (hs : e.Short W.toDecls) (hv : e.value W σ = some y) :
    e.Plain W.toDecls := by
  cases e with
  | cast t v =>
    simp only [PExp.value, Option.bind_eq_bind, Option.bind_eq_some_iff] at hv
    obtain ⟨x, hx, hv⟩ := hv
    split_ifs at hv
    refine ⟨plain_read h.1 h.2.1 hs.1 hx, view_scalar (hc t v rfl) hv, ?_⟩
    by_cases he : v.ty = t
    · exact .inl he
    · refine .inr ⟨?_, hs.2.2.resolve_left he⟩
      by_contra hi
      exact he (h.2.2 (by simpa using hi))
  | not t v =>
    simp only [PExp.value, Option.bind_eq_bind, Option.bind_eq_some_iff] at hv
    obtain ⟨x, hx, hv⟩ := hv
    obtain ⟨h1, h2, b, rfl, hb⟩ := h
    exact ⟨plain_read h1 (by rw [h2]; exact hb.isInt.1) hs hx, h2, b, rfl, hb⟩
  | bin op t l r =>
    simp only [PExp.value, Option.bind_eq_bind, Option.bind_eq_some_iff] at hv
    obtain ⟨x, hx, z, hz, hv⟩ := hv
    exact ⟨plain_read h.1.1 h.1.2 hs.1 hx, plain_read h.2.1.1 h.2.1.2 hs.2 hz, h.2.2.1, h.2.2.2⟩

/-- The type of what has a value. -/
theorem value_scalar {e : PExp} {σ : Env} {y : Int} (h : e.Shape W n) (ht : e.ty.Ok)
    (hcmp : ∀ op t l r, e = .bin op t l r → (Expr.compareOp op).isSome → t = .int .int ∨ t = .int .bool) (hv : e.value W σ = some y) : e.ty.Scalar := by
  cases e with
  | cast t v =>
    simp only [PExp.value, Option.bind_eq_bind, Option.bind_eq_some_iff] at hv
    obtain ⟨x, hx, hv⟩ := hv
    split_ifs at hv
    exact view_scalar ht hv
  | not t v => obtain ⟨-, -, b, rfl, -⟩ := h; exact ⟨ht, .inl ⟨b, rfl⟩⟩
  | bin op t l r =>
    simp only [PExp.value, Option.bind_eq_bind, Option.bind_eq_some_iff] at hv
    obtain ⟨x, hx, z, hz, hv⟩ := hv
    cases ho : Expr.compareOp op with
    | some o =>
      rcases hcmp op t l r rfl (by rw [ho]; rfl) with rfl | rfl
      · exact ⟨ht, .inl ⟨_, rfl⟩⟩
      · exact ⟨ht, .inl ⟨_, rfl⟩⟩
    | none =>
      cases ha : Expr.arithOp op with
      | none => simp only [ho, ha] at hv; cases hv
      | some o =>
        rcases h.2.2.1 o ha with ⟨b, rfl, _⟩ | ⟨u, rfl, _⟩
        · exact ⟨ht, .inl ⟨_, rfl⟩⟩
        · exact ⟨ht, .inr ⟨_, rfl⟩⟩

theorem plain_of {s : PStmt} {σ σ' : Env} (h : s.Shape W n) (ha : s.Accepted W.toDecls) (he : s.exec W σ = some σ') : s.Plain W.toDecls n := by
  obtain ⟨tv, e⟩ := s
  obtain ⟨⟨t1, t2⟩, e1, hty, hcmp, htmp⟩ := h
  obtain ⟨a1, a2⟩ := ha
  dsimp only at *
  have value : (∃ y, e.value W σ = some y) ∧ ((∃ k u o t, tv = .dir (.tmp k u) o t) ∨ ∃ a, tv.place W σ = some a) := by
    unfold PStmt.exec at he
    dsimp only at he
    split at he
    · split_ifs at he
      rw [Option.map_eq_some_iff] at he
      obtain ⟨y, hy, -⟩ := he
      exact ⟨⟨y, hy⟩, .inl ⟨_, _, _, _, rfl⟩⟩
    · cases a2.2.1
    · simp only [Option.bind_eq_bind, Option.bind_eq_some_iff] at he
      obtain ⟨a, ha, y, hy, -⟩ := he
      exact ⟨⟨y, hy⟩, .inr ⟨a, ha⟩⟩
  obtain ⟨⟨y, hy⟩, hp⟩ := value
  have hok : ∀ t v, e = .cast t v → t.Ok := by
    rintro t v rfl
    rcases hty with hty | ⟨_, _, _, _, _, e, _⟩
    · rw [hty] at t2; exact t2
    · cases e
  have hsc : tv.ty.Scalar := by
    rcases hty with hty | ⟨hty, -⟩
    · rw [hty] at t2 ⊢
      exact value_scalar e1 t2 hcmp hy
    · rw [hty] at t2 ⊢; exact ⟨t2, .inl ⟨_, rfl⟩⟩
  refine ⟨plain_shape t1 a1 hsc, ?_, ?_, plain_exp e1 hok a2 hy, hty, hcmp, before_of t1, before_exp e1, fun k u o t e' => ?_⟩
  · rcases hp with ⟨k, u, o, t, rfl⟩ | ⟨a, hp⟩
    · rfl
    · cases tv <;> first | rfl | cases hp
  · rintro q o t rfl
    rcases hp with ⟨k, u, o, t, e⟩ | ⟨a, hp⟩
    · cases e
    · cases hp
  · obtain ⟨g1, g2⟩ := htmp k u o t e'
    exact ⟨g1, before_exp g2⟩

theorem short_of {v : PVar} {x : Val} (h : v.val W.toDecls L = some x) : v.Short := by
  have d : ∀ {o : BitVec 64} {d}, disp o = some d → o.toNat < 2 ^ 31 := by
    intro o d h
    unfold disp at h
    split_ifs at h
    assumption
  cases v with
  | imm t v => trivial
  | derImm v o t => cases h
  | _ =>
    simp only [PVar.val, Option.map_eq_some_iff] at h
    obtain ⟨_, h, -⟩ := h
    exact d h

/-- There is code only for what is accepted. -/
theorem accepted_of {s : PStmt} {c} (h : stmtCode W.toDecls L s = some c) : s.Accepted W.toDecls := by
  obtain ⟨tv, e⟩ := s
  simp only [stmtCode, Option.bind_eq_bind, Option.bind_eq_some_iff] at h
  obtain ⟨x, hx, h⟩ := h
  refine ⟨short_of hx, ?_⟩
  cases e with
  | cast t v =>
    simp only [Option.bind_eq_some_iff] at h
    obtain ⟨l, hl, c, hc, -⟩ := h
    unfold castCode at hc
    by_cases hr : t.isRecord = true
    · rw [if_pos hr] at hc; cases hc
    · rw [if_neg hr] at hc
      refine ⟨short_of hl, by simpa using hr, ?_⟩
      by_cases he : v.ty = t
      · exact .inl he
      · rw [if_neg he] at hc
        right
        rintro s o u rfl
        simp only [PVar.val, Option.map_eq_some_iff] at hl
        obtain ⟨d, -, rfl⟩ := hl
        simp only [Arith.loadInt, Conv.loadInt, Abi.loadInt, Option.bind_eq_bind, Option.bind_eq_some_iff] at hc
        obtain ⟨a, ⟨b, hb, -⟩, -⟩ := hc
        split_ifs at hb <;> first | omega | (obtain ⟨_, e, _⟩ := hb; cases e)
  | not t v =>
    simp only [Option.bind_eq_some_iff] at h
    obtain ⟨l, hl, -⟩ := h
    exact short_of hl
  | bin op t l r =>
    cases ha : Expr.arithOp op with
    | some o =>
      simp only [ha, Option.bind_eq_some_iff] at h
      obtain ⟨a, ha, b, hb, -⟩ := h
      exact ⟨short_of ha, short_of hb⟩
    | none =>
      cases hc : Expr.compareOp op with
      | some o =>
        simp only [ha, hc, Option.bind_eq_some_iff] at h
        obtain ⟨a, ha, b, hb, -⟩ := h
        exact ⟨short_of ha, short_of hb⟩
      | none => simp only [ha, hc] at h; cases h

end Verif.Ptr
