import Verif.Flow.SoundLemmas
import Verif.Linear.Source

/-!
# Blocks
-/

namespace Verif.Flow

open Verif.Abi (AX DX Place isTempInt)
open Verif.Conv (CM Val)
open Verif.Types (scalarSize)
open Verif.Types.Spec (Basic)
open Verif.Compare (Flags)
open Verif.Fold (tyOf isInt isOpTy)
open Verif.Fold.Spec (conv fits)
open Verif.Cfg (V Act Prim Mem truth)
open Verif.Expr

/-- The graph and the machine. -/
structure Rel (C : Ctx) (bp : Int) (m : Mem (LeafOf C.Γ)) (s : CM) (σ : Env) : Prop where
  user : ∃ w : U, m.user = some w ∧ σ.vars = w.vars ∧
    ∀ p x, w.last = some (p, x) → ∀ e, p.exp C.Γ = some e → ∃ b, EHolds C.Γ C.N C.nl σ e b x
  inv : Inv C.L C.Γ C.N C.M bp s σ
  ctl : ∀ k < C.K, isOpTy (C.tt k) → σ.tmps (C.nl + k) = some (C.tt k, m.tmp k) ∧ fits (C.tt k) (m.tmp k)

theorem Rel.fit {C : Ctx} {bp : Int} {m : Mem (LeafOf C.Γ)} {s : CM} {σ : Env} (h : Rel C bp m s σ) : Fit C.Γ C.N σ.vars :=
  fun i hi => (h.inv.vars i hi).2

variable {C : Ctx} {bp : Int}

/-- Values. -/
theorem vExp_sound {m : Mem (LeafOf C.Γ)} {s : CM} {σ : Env} (h : Rel C bp m s σ) : ∀ {v : V (LeafOf C.Γ)} {e : IExp}, vExp C v = some e → v.ok m →
    ∃ b, EHolds C.Γ C.N (C.nl + C.K) σ e b (v.get m) := by
  intro v
  induction v with
  | imm n =>
    intro e he _
    simp only [vExp] at he
    split_ifs at he with hn
    cases he
    exact ⟨.int, asExpr_holds (varInt_holds ⟨_, _, rfl, hn⟩)⟩
  | rd c neg p =>
    intro e he hok
    simp only [vExp] at he
    split at he
    · rename_i e' hp
      obtain ⟨w, hu, hv, hl⟩ := h.user
      obtain ⟨x, hx⟩ := hok w hu
      obtain ⟨b, hb⟩ := hl p x hx e' hp
      have hb := hb.keep (n' := C.nl + C.K) (Keep.refl _ _) (by omega)
      have hval : Prim.val p m.user = x := by rw [hu]; simp only [Prim.val, Option.bind_some, hx]; rfl
      cases c with
      | false =>
        simp only [Bool.false_eq_true, if_false, Option.some.injEq] at he
        subst he
        simp only [V.get, Bool.false_eq_true, if_false, hval]
        exact ⟨b, hb⟩
      | true =>
        simp only [if_true] at he
        split_ifs at he with hc hn
        · subst hn
          obtain ⟨_, hx01⟩ := comparison_value hb hc
          refine ⟨.int, ?_⟩
          have := opposite_holds hb hc he
          simp only [V.get, if_true, hval, truth, decide_eq_true_eq]
          exact this
        · cases he
          obtain ⟨_, hx01⟩ := comparison_value hb hc
          have hn : neg = false := by cases neg <;> simp_all
          subst hn
          refine ⟨b, ?_⟩
          have : (V.rd true false p : V (LeafOf C.Γ)).get m = x := by
            simp only [V.get, if_true, hval, truth, Bool.false_eq_true, if_false]
            rcases hx01 with rfl | rfl <;> rfl
          rw [this]; exact hb
    · cases he
  | tmp k =>
    intro e he _
    simp only [vExp] at he
    split_ifs at he with hk
    cases he
    obtain ⟨h1, h2⟩ := h.ctl k hk.1 (opTy_isOp hk.2)
    exact ⟨C.tt k, asExpr_holds ⟨rfl, h2, by omega, h1⟩⟩
  | isZero v ih =>
    intro e he hok
    simp only [vExp] at he
    split at he
    · rename_i x c hc
      obtain ⟨e', h1, h2, h3, h4⟩ := comparand_holds (Γ := C.Γ) (N := C.N) (n := C.nl + C.K) (σ := σ) hc
      obtain ⟨b, hb⟩ := ih h1 hok
      have hv := h4 b _ hb
      refine ⟨.int, plain_holds ?_ he⟩
      refine evalBinary_sound (op := .eq) (varInt_holds ⟨_, _, rfl, by decide⟩) hv ?_
      simp only [Fold.Spec.binary, (common_int h3).1, Fold.conv_self hv.fits, conv_small h3 (n := 0) (by omega), V.get, truth, decide_eq_true_eq,
        @eq_comm _ (0 : Int)]
    · cases he
  | nonZero v ih =>
    intro e he hok
    simp only [vExp] at he
    split at he
    · rename_i x c hc
      obtain ⟨e', h1, h2, h3, h4⟩ := comparand_holds (Γ := C.Γ) (N := C.N) (n := C.nl + C.K) (σ := σ) hc
      obtain ⟨b, hb⟩ := ih h1 hok
      have hv := h4 b _ hb
      refine ⟨.int, plain_holds ?_ he⟩
      refine evalBinary_sound (op := .ne) hv (varInt_holds ⟨_, _, rfl, by decide⟩) ?_
      simp only [Fold.Spec.binary, (common_int h3).2, Fold.conv_self hv.fits, conv_small h3 (n := 0) (by omega), V.get, truth, decide_eq_true_eq]
      split_ifs <;> simp_all
    · cases he
  | eqc n v ih =>
    intro e he hok
    simp only [vExp] at he
    split at he
    · rename_i x c hc
      split_ifs at he with hn
      obtain ⟨e', h1, h2, h3, h4⟩ := comparand_holds (Γ := C.Γ) (N := C.N) (n := C.nl + C.K) (σ := σ) hc
      obtain ⟨b, hb⟩ := ih h1 hok
      have hv := h4 b _ hb
      refine ⟨.int, plain_holds ?_ he⟩
      refine evalBinary_sound (op := .eq) (varInt_holds ⟨_, _, rfl, hn.1, hn.2.1⟩) hv ?_
      simp only [Fold.Spec.binary, (common_int h3).1, Fold.conv_self hv.fits, conv_small h3 hn, V.get, truth, decide_eq_true_eq, @eq_comm _ n]
    · cases he

/-- What a statement reads may be read. -/
def ActSafe (m : Mem (LeafOf C.Γ)) : Act (LeafOf C.Γ) → Prop
  | .user _ _ => True
  | .app _ v | .set _ v => v.ok m

theorem exp_holds {p : Leaf} {st : List Expr.Stmt} {n : Nat} {eo : Option IExp} (h : lowered C.Γ p = some (st, n, eo)) : p.exp C.Γ = eo := by
  simp only [Leaf.exp, h, Option.bind_some]

theorem act_ok {m : Mem (LeafOf C.Γ)} {s : CM} {σ : Env} {a : Act (LeafOf C.Γ)} {c : List XIns} (enc) (f : Option Flags)
    (hL : C.L.Good C.Γ C.N C.M bp) (hM : C.nl + C.K ≤ C.M) (h : Rel C bp m s σ) (hc : actCode C a = some c) (hs : ActSafe m a)
    (hu : (a.run m).user ≠ none) :
    ∃ t g σ', run enc (s, f) c = some (t, g) ∧ Rel C bp (a.run m) t σ' ∧ Untouched C.L C.Γ C.N C.M bp s t := by
  obtain ⟨w, hw, hv, hl⟩ := h.user
  cases a with
  | user eff p =>
    simp only [actCode] at hc
    have key : ∀ st n eo, lowered C.Γ p = some (st, n, eo) → (if p.ok C.N ∧ n ≤ C.nl then code C.L st else none) = some c →
        ∃ t g σ', run enc (s, f) c = some (t, g) ∧ Rel C bp ((Act.user eff p : Act (LeafOf C.Γ)).run m) t σ' ∧ Untouched C.L C.Γ C.N C.M bp s t := by
      intro st n eo hlow hc
      split_ifs at hc with hok
      have hrun : ((Act.user eff p : Act (LeafOf C.Γ)).run m).user = U.after p (Src.run C.Γ w.vars (Leaf.src p)) := by
        simp only [Act.run, hw]; rfl
      rw [hrun] at hu
      cases hr : Src.run C.Γ w.vars (Leaf.src p) with
      | none => rw [hr] at hu; exact (hu rfl).elim
      | some r =>
        obtain ⟨ρ', x⟩ := r
        obtain ⟨_, σ', d, rfl, hf, he⟩ := leaf_sound h.fit hok.1 hlow (by rw [hv]; exact hr)
        obtain ⟨c', g1, t, g, e1, I, un⟩ := does_ok enc hL (d.mono (show n ≤ C.M by omega)) f h.inv
        rw [hc] at g1
        cases g1
        refine ⟨t, g, σ', e1, ⟨⟨⟨σ'.vars, some (p, x)⟩, ?_, rfl, ?_⟩, I, ?_⟩, un⟩
        · rw [hrun, hr]; rfl
        · intro q y hq e hqe
          simp only [Option.some.injEq, Prod.mk.injEq] at hq
          obtain ⟨rfl, rfl⟩ := hq
          rw [exp_holds hlow] at hqe
          obtain ⟨b, hb⟩ := he e hqe
          exact ⟨b, hb.keep (Keep.refl _ _) hok.2⟩
        · intro k hk ho
          rw [does_above d _ (by omega)]
          exact h.ctl k hk ho
    split at hc
    · cases hc
    · rename_i st n eo hlow _
      exact key st n eo hlow hc
    · cases hc
  | app p v =>
    simp only [actCode] at hc
    split at hc
    · rename_i i e hp hve
      split at hc
      · rename_i x n st hea
        split_ifs at hc with hg
        obtain ⟨hok, hb, hn, has⟩ := hg
        simp only [Leaf.ok, hp, decide_eq_true_eq] at hok
        obtain ⟨b, he⟩ := vExp_sound h hve hs
        have ht := Fold.fits_isInt (h.fit i hok)
        obtain ⟨_, n1, st1, σ1, e1, l1, d1, hv1, ht1⟩ := assign_sound (n := p.base) (he.keep (Keep.refl _ _) hb) hok ht
        rw [hea] at e1
        simp only [Option.some.injEq, Prod.mk.injEq, true_and] at e1
        obtain ⟨rfl, rfl⟩ := e1
        obtain ⟨c', g1, t, g, e1, I, un⟩ := does_ok enc hL (d1.mono hn) f h.inv
        rw [hc] at g1
        cases g1
        have hrun : ((Act.app p v : Act (LeafOf C.Γ)).run m).user = some ⟨put w.vars i (conv (C.Γ i) (v.get m)), some (p, conv (C.Γ i) (v.get m))⟩ := by
          show Prim.put p (v.get m) m.user = _
          rw [hw]
          show U.after p (Src.put C.Γ (v.get m) w.vars (Leaf.src p)) = _
          rw [hp]
          rfl
        refine ⟨t, g, σ1, e1, ⟨⟨_, hrun, by rw [hv1, hv], ?_⟩, I, ?_⟩, un⟩
        · intro q y hq e' hqe
          simp only [Option.some.injEq, Prod.mk.injEq] at hq
          obtain ⟨rfl, rfl⟩ := hq
          have : e' = asExpr (.obj i (tyOf (C.Γ i) {})) := by
            simp only [Leaf.exp, lowered, hp, Option.bind_some, Option.some.injEq] at hqe
            exact hqe.symm
          subst this
          have hf1 : Fit C.Γ C.N σ1.vars := by rw [hv1]; exact put_fit h.fit ht
          have := obj_holds (n := C.nl) hf1 hok
          rw [hv1] at this
          simp only [put, if_true] at this
          exact ⟨_, asExpr_holds this⟩
        · intro k hk ho
          rw [ht1 _ (by omega)]
          exact h.ctl k hk ho
      · cases hc
    · cases hc
  | set k v =>
    simp only [actCode] at hc
    split at hc
    · rename_i e hve
      split_ifs at hc with hg
      obtain ⟨hk, hop, hty, hform⟩ := hg
      have hop := opTy_isOp hop
      obtain ⟨b, he⟩ := vExp_sound h hve hs
      have hb : b = C.tt k := tyOf_inj (he.ty.symm.trans hty)
      subst hb
      obtain ⟨c', g1, t, g, e1, a1⟩ := stmt_ok (tv := .tmp (C.nl + k) (tyOf (C.tt k) {})) (p := C.L.tmp (C.nl + k)) enc f hL h.inv hM (.inl he)
        (by rw [← size_tyOf hop.isInt.1, ← Fold.isSigned_tyOf hop.isInt.1 {}]; rfl) (fun q e => tmp_temp hL (by omega) e)
        (by
          rintro op o t l r rfl hoo
          rcases hform with h | h
          · cases op <;> first | (cases hoo; done) | (cases h; done)
          · cases h)
      simp only [code, g1, Option.bind_eq_bind, Option.bind_some, List.append_nil, Option.some.injEq] at hc
      subst hc
      obtain ⟨I, un⟩ := setTmp_inv hL h.inv (by omega) he.fits a1
      refine ⟨t, g, σ.setTmp (C.nl + k) (C.tt k) (v.get m), e1, ⟨⟨w, hw, hv, ?_⟩, I, ?_⟩, un⟩
      · intro p x hp e' he'
        obtain ⟨b, hb⟩ := hl p x hp e' he'
        refine ⟨b, hb.keep ⟨rfl, ?_⟩ (Nat.le_refl _)⟩
        intro j hj
        simp only [Env.setTmp]
        rw [if_neg (by omega)]
      · intro j hj ho
        simp only [Env.setTmp, Act.run]
        by_cases e : j = k
        · subst e
          rw [if_pos rfl, if_pos rfl]
          exact ⟨rfl, he.fits⟩
        · rw [if_neg (by omega), if_neg e]
          exact h.ctl j hj ho
    · cases hc

/-- None stays. -/
theorem act_none {m : Mem (LeafOf C.Γ)} (a : Act (LeafOf C.Γ)) (h : m.user = none) : (a.run m).user = none := by
  cases a with
  | user eff p => simp only [Act.run, h]; rfl
  | app p v => simp only [Act.run, h]; rfl
  | set k v => exact h

/-- The code of a statement, where the flags do not matter. -/
def exec (enc : Nat → Option ℚ → List UInt8) (c : List XIns) (m : Option CM) : Option CM := m.bind fun s => (run enc (s, none) c).map (·.1)

def acts (as : List (Act (LeafOf C.Γ))) (m : Mem (LeafOf C.Γ)) : Mem (LeafOf C.Γ) := as.foldl (fun m a => a.run m) m

def Safes : List (Act (LeafOf C.Γ)) → Mem (LeafOf C.Γ) → Prop
  | [], _ => True
  | a :: r, m => ActSafe m a ∧ Safes r (a.run m)

theorem acts_none : ∀ (as : List (Act (LeafOf C.Γ))) {m : Mem (LeafOf C.Γ)}, m.user = none → (acts as m).user = none
  | [], _, h => h
  | a :: r, _, h => acts_none r (act_none a h)

theorem acts_ok (enc) (hL : C.L.Good C.Γ C.N C.M bp) (hM : C.nl + C.K ≤ C.M) : ∀ {as : List (Act (LeafOf C.Γ))} {cs : List (List XIns)}
    {m : Mem (LeafOf C.Γ)} {s : CM} {σ : Env}, Rel C bp m s σ → codes C as = some cs → Safes as m → (acts as m).user ≠ none →
    ∃ t σ', cs.foldl (fun m c => exec enc c m) (some s) = some t ∧ Rel C bp (acts as m) t σ' ∧ Untouched C.L C.Γ C.N C.M bp s t := by
  intro as
  induction as with
  | nil =>
    intro cs m s σ h hc _ _
    simp only [codes, Option.some.injEq] at hc
    subst hc
    exact ⟨s, σ, rfl, h, Untouched.refl s⟩
  | cons a r ih =>
    intro cs m s σ h hc hs hu
    simp only [codes] at hc
    split at hc
    · rename_i c cs' h1 h2
      cases hc
      obtain ⟨t, g, σ1, e1, R1, u1⟩ := act_ok enc none hL hM h h1 hs.1 (fun e => hu (acts_none r e))
      obtain ⟨t2, σ2, e2, R2, u2⟩ := ih R1 h2 hs.2 hu
      refine ⟨t2, σ2, ?_, R2, u1.trans u2⟩
      simp only [List.foldl_cons, exec, Option.bind_some, e1, Option.map_some]
      exact e2
    · cases hc

end Verif.Flow
