import Verif.Ptr.Lemmas

/-!
# Operators of integers

What has been proved of them for variables (C88) is so for all operands.
-/

namespace Verif.Ptr

open Verif.Types (Ty)
open Verif.Types.Spec (Basic)
open Verif.Fold (tyOf isInt isOpTy)
open Verif.Fold.Spec (conv fits)
open Verif.Expr (IVar IExp)

variable {W : World}

set_option linter.unusedSectionVars false

theorem conv_ofInt {c : Basic} {z : Int} (h : fits c z) : conv c (BitVec.ofInt 64 z).toInt = z := by
  have hi := Fold.fits_isInt h
  obtain ⟨lo, hi', e, h1, h2⟩ := h
  rw [BitVec.toInt_ofInt]
  rcases Fold.isInt_cases hi with h | h | h | h | h | h | h | h | h <;> subst h <;>
    simp only [Basic.range, Option.some.injEq, Prod.mk.injEq] at e <;> obtain ⟨rfl, rfl⟩ := e <;>
    simp only [conv, Basic.isSigned, Basic.range, Fold.Spec.width, Int.bmod] <;> simp <;> omega

/-! ### Only temporaries are assigned -/

/-- The targets of all statements are temporaries. -/
def Quiet {α : Type} (f : Expr.R α) : Prop := ∀ n a n' st, f n = some (a, n', st) → ∀ s ∈ st, ∃ k t, s.t = .tmp k t

theorem Quiet.pure {α : Type} (a : α) : Quiet (Pure.pure a : Expr.R α) := by
  intro n a n' st h s hs
  cases h
  cases hs

theorem Quiet.fail {α : Type} : Quiet (Expr.R.fail : Expr.R α) := by
  intro n a n' st h
  cases h

theorem Quiet.bind {α β : Type} {f : Expr.R α} {g : α → Expr.R β} (hf : Quiet f) (hg : ∀ a, Quiet (g a)) : Quiet (f >>= g) := by
  intro n b n' st h s hs
  change Expr.R.bind f g n = _ at h
  unfold Expr.R.bind at h
  split at h
  · cases h
  · rename_i a n1 st1 h1
    split at h
    · cases h
    · rename_i b' n2 st2 h2
      cases h
      rcases List.mem_append.mp hs with hs | hs
      · exact hf _ _ _ _ h1 s hs
      · exact hg a _ _ _ _ h2 s hs

theorem Quiet.lift {α : Type} (o : Option α) : Quiet (Expr.R.lift o) := by
  cases o
  · exact Quiet.fail
  · exact Quiet.pure _

theorem Quiet.ok {α : Type} (o : Types.R α) : Quiet (Expr.ok o) := by
  cases o
  · exact Quiet.fail
  · exact Quiet.pure _

theorem eval_quiet (e : IExp) : Quiet (Expr.eval e) := by
  unfold Expr.eval
  split
  · exact Quiet.pure _
  · intro n a n' st h s hs
    change Expr.R.bind _ _ n = _ at h
    simp only [Expr.R.bind, Expr.createVar, Expr.irAssign] at h
    cases h
    simp only [List.nil_append, List.append_eq, List.mem_append, List.mem_cons, List.not_mem_nil, or_false] at hs
    rcases hs with rfl | hs
    exact ⟨_, _, rfl⟩

theorem castOperand_quiet (v : IVar) (t : Ty) : Quiet (Expr.castOperand v t) := by
  unfold Expr.castOperand
  split
  · exact Quiet.lift _
  · split_ifs
    · exact Quiet.pure _
    · exact eval_quiet _

theorem create_quiet (op : Fold.Op) (t : Ty) (l r : IVar) : Quiet (Expr.create op t l r) := by
  unfold Expr.create
  split
  · split
    · exact Quiet.pure _
    · exact Quiet.pure _
    · exact Quiet.fail
  · exact Quiet.pure _

theorem balanced_quiet (op : Fold.Op) (t : Option Ty) (l r : IVar) : Quiet (Expr.balanced op t l r) :=
  .bind (.ok _) fun _ => .bind (castOperand_quiet _ _) fun _ => .bind (castOperand_quiet _ _) fun _ => create_quiet _ _ _ _

theorem evalBinary_quiet (op : Fold.Op) (l r : IVar) : Quiet (Expr.evalBinary op l r) := by
  unfold Expr.evalBinary
  split_ifs
  · split
    · exact .bind (.ok _) fun _ => .bind (castOperand_quiet _ _) fun _ => create_quiet _ _ _ _
    · exact .bind (.ok _) fun _ => .bind (castOperand_quiet _ _) fun _ => create_quiet _ _ _ _
    all_goals exact balanced_quiet _ _ _ _
  · exact Quiet.fail

/-! ### Two operands -/

section
variable {l r : PVar} {a b : Basic} {x y : Int} {n : Nat} {σ : Env}

/-- The types of the operands.  A constant is no variable, so it has a type here that no operand has. -/
def two (l r : PVar) (a b : Basic) : Nat → Basic := fun i => if i = 0 then (if isImm l then .float else a) else (if isImm r then .float else b)
def start (x y : Int) : Expr.Env := ⟨fun i => if i = 0 then x else y, fun _ => none⟩

theorem abs_holds {v : PVar} {c : Basic} {z : Int} (h : PVal W n σ v (.int c) z) {Γ : Nat → Basic} {N i : Nat} {σa : Expr.Env} (hi : i < N)
    (hΓ : isImm v = false → Γ i = c) (hz : σa.vars i = z) : Expr.VHolds Γ N n σa (abs i v) c z := by
  have hf : fits c z := h.fit
  have ht := h.ty
  have hs := h.shape
  have hr := h.read
  cases v with
  | imm t v =>
    have : t = .int c := ht
    subst this
    simp only [PVar.read, view, Option.some.injEq] at hr
    refine ⟨rfl, hf, ?_⟩
    show v = _
    rw [← hr]
    exact hs c rfl
  | dir s o t => have : t = .int c := ht; subst this; exact ⟨rfl, hf, hi, hΓ rfl, hz⟩
  | adr s o t => have : t = .int c := ht; subst this; exact ⟨rfl, hf, hi, hΓ rfl, hz⟩
  | der s o t => have : t = .int c := ht; subst this; exact ⟨rfl, hf, hi, hΓ rfl, hz⟩
  | derImm s o t => have : t = .int c := ht; subst this; exact ⟨rfl, hf, hi, hΓ rfl, hz⟩

/-- What the temporaries are meanwhile. -/
structure Tie (n : Nat) (x y : Int) (σ : Env) (σa : Expr.Env) (σ' : Env) : Prop where
  keep : Keep n σ σ'
  vars : σa.vars = (start x y).vars
  tmps : ∀ k c z, σa.tmps k = some (c, z) → n ≤ k ∧ σ'.tmps k = some (.int c, z)

theorem conc_val (hl : PVal W n σ l (.int a) x) (hr : PVal W n σ r (.int b) y) {σa : Expr.Env} {σ' : Env} (ht : Tie n x y σ σa σ') {m : Nat}
    (hm : n ≤ m) {v : IVar} {c : Basic} {z : Int} (h : Expr.VHolds (two l r a b) 2 m σa v c z) : PVal W m σ' (concVar l r v) (.int c) z := by
  have hc := Fold.fits_isInt h.fits
  obtain ⟨h1, h2, h3⟩ := h
  cases v with
  | imm i =>
    have h1 : i.ty = tyOf c {} := h1
    have h3 : i.v = _ := h3
    simp only [concVar, h1, ofTy_tyOf hc]
    refine ⟨rfl, hc, ?_, ?_⟩
    · rintro _ ⟨⟩
      rw [h3, conv_ofInt h2]
    · simp only [PVar.read, view, h3, conv_ofInt h2]
  | obj i t =>
    obtain ⟨g1, g2, g3⟩ := h3
    rw [ht.vars] at g3
    obtain rfl | rfl : i = 0 ∨ i = 1 := by omega
    · simp only [two, if_true] at g2
      simp only [start, if_true] at g3
      split_ifs at g2
      · subst g2; cases hc
      · subst g2 g3
        exact hl.keep ht.keep hm
    · simp only [two, one_ne_zero, if_false] at g2
      simp only [start, one_ne_zero, if_false] at g3
      split_ifs at g2
      · subst g2; cases hc
      · subst g2 g3
        exact hr.keep ht.keep hm
  | tmp k t =>
    have h1 : t = tyOf c {} := h1
    obtain ⟨g1, g2⟩ := h3
    obtain ⟨g3, g4⟩ := ht.tmps k c z g2
    simp only [concVar, h1, ofTy_tyOf hc]
    refine ⟨rfl, hc, ⟨g1, fun _ _ e => (by cases e; exact ⟨rfl, hc⟩)⟩, ?_⟩
    simp only [PVar.read, if_true, tmpValue, g4, implies_true, and_self]
    exact view_self (t := .int c) h2

theorem conc_imm {σa : Expr.Env} {m : Nat} {v : IVar} {c : Basic} {z : Int} (h : Expr.VHolds (two l r a b) 2 m σa v c z) (hi : ∀ i, v ≠ .imm i) :
    isImm (concVar l r v) = false := by
  have hc := Fold.fits_isInt h.fits
  obtain ⟨h1, h2, h3⟩ := h
  cases v with
  | imm i => exact (hi i rfl).elim
  | obj i t =>
    obtain ⟨g1, g2, -⟩ := h3
    obtain rfl | rfl : i = 0 ∨ i = 1 := by omega
    · simp only [two, if_true] at g2
      split_ifs at g2 with hi
      · subst g2; cases hc
      · show isImm l = false
        simpa using hi
    · simp only [two, one_ne_zero, if_false] at g2
      split_ifs at g2 with hi
      · subst g2; cases hc
      · show isImm r = false
        simpa using hi
  | tmp k t => rfl

theorem conc_exp (hl : PVal W n σ l (.int a) x) (hr : PVal W n σ r (.int b) y) {σa : Expr.Env} {σ' : Env} (ht : Tie n x y σ σa σ') {m : Nat}
    (hm : n ≤ m) {e : IExp} {c : Basic} {z : Int} (h : Expr.EHolds (two l r a b) 2 m σa e c z) : EVal W m σ' (concExp l r e) (.int c) z := by
  have hf := h.fits
  have hc := Fold.fits_isInt hf
  cases h with
  | same h =>
    have hv := conc_val hl hr ht hm h
    have := asExpr_val hv
    simp only [concExp, ofTy_tyOf hc]
    rw [asExpr, hv.ty] at this
    exact this
  | conv h hi hb hb' ha =>
    have hv := conc_val hl hr ht hm h
    simp only [concExp, ofTy_tyOf hc]
    refine ⟨rfl, hc, ⟨hv.shape, by rw [hv.ty]; exact hv.ok, fun e => by rw [conc_imm h hi] at e; cases e⟩, ?_, hf, fun _ _ _ _ _ e => by cases e⟩
    simp only [PExp.value, hv.read, Option.bind_eq_bind, Option.bind_some, CTy.int.injEq, hb', false_and, if_false, view]
  | not h hb =>
    have hv := conc_val hl hr ht hm h
    simp only [concExp, ofTy_tyOf hc]
    refine ⟨rfl, hc, ⟨hv.shape, hv.ty, _, rfl, hb⟩, ?_, hf, fun _ _ _ _ _ e => by cases e⟩
    simp only [PExp.value, hv.read, Option.bind_eq_bind, Option.bind_some, view]
  | @arith op o _ _ _ _ _ _ _ ho hb h1 h2 ha hmn =>
    have hv := conc_val hl hr ht hm h1
    have hw := conc_val hl hr ht hm h2
    simp only [concExp, ofTy_tyOf hc]
    refine ⟨rfl, hc, ⟨⟨hv.shape, by rw [hv.ty]; exact hv.ok⟩, ⟨hw.shape, by rw [hw.ty]; exact hw.ok⟩, ?_, ?_⟩, ?_, hf, ?_⟩
    · intro o' ho'
      rw [ho] at ho'
      cases ho'
      refine .inl ⟨_, rfl, hb, hv.ty, ?_⟩
      rcases ha with ha | ha | ha
      · exact .inl ha
      · exact .inr (.inl ha)
      · exact .inr (.inr (by rw [hw.ty, ha]))
    · intro o' ho'
      cases op <;> first | (cases ho'; done) | (cases ho; done)
    · simp only [PExp.value, hv.read, hw.read, Option.bind_eq_bind, Option.bind_some, ho, hmn]
    · intro op' _ _ _ o' e ho'
      cases e
      cases op <;> first | (cases ho'; done) | (cases ho; done)
  | @rel op o _ _ _ _ _ ho ha h1 h2 =>
    have hv := conc_val hl hr ht hm h1
    have hw := conc_val hl hr ht hm h2
    have hT : ofTy Expr.intTy = .int .int := by decide
    simp only [concExp, hT]
    refine ⟨rfl, hc, ⟨⟨hv.shape, by rw [hv.ty]; exact hv.ok⟩, ⟨hw.shape, by rw [hw.ty]; exact hw.ok⟩, ?_, fun _ _ => ⟨_, ha, hv.ty, hw.ty⟩⟩, ?_, hf, ?_⟩
    · intro o' ho'
      cases op <;> first | (cases ho'; done) | (cases ho; done)
    · have : Expr.arithOp op = none := by cases op <;> first | rfl | cases ho
      simp only [PExp.value, hv.read, hw.read, Option.bind_eq_bind, Option.bind_some, ho, this]
    · intro op' _ _ _ o' e ho'
      cases e
      rfl

theorem does_some {Γ : Nat → Basic} {N M : Nat} {σ σ' : Expr.Env} {st : List Expr.Stmt} (h : Expr.Does Γ N M σ st σ') {k : Nat}
    (hk : σ'.tmps k = none) : σ.tmps k = none := by
  induction h with
  | nil => exact hk
  | var hi h _ ih => exact ih hk
  | @tmp σ σ' j b e x r hj h _ ih =>
    have := ih hk
    simp only [Expr.Env.setTmp] at this
    split_ifs at this
    exact this

theorem does_execs (hl : PVal W n σ l (.int a) x) (hr : PVal W n σ r (.int b) y) {M : Nat} {σa σa' : Expr.Env} {st : List Expr.Stmt}
    (h : Expr.Does (two l r a b) 2 M σa st σa') : ∀ {σ' : Env}, Tie n x y σ σa σ' → (∀ s ∈ st, ∃ k t, s.t = .tmp k t) →
      (∀ k < n, σa'.tmps k = none) → ∃ σ'', (execs W σ' (st.map (concStmt l r)) = some σ'' ∧ ∀ s ∈ st.map (concStmt l r), s.Shape W M) ∧
        Tie n x y σ σa' σ'' := by
  induction h with
  | nil => intro σ' ht _ _; exact ⟨σ', ⟨rfl, fun _ hs => nomatch hs⟩, ht⟩
  | var hi h _ ih =>
    intro σ' ht hq _
    obtain ⟨k, t, e⟩ := hq _ (List.mem_cons_self ..)
    cases e
  | @tmp σa σa' k c e z r' hk h hd ih =>
    intro σ' ht hq hn
    have hkn : n ≤ k := by
      by_contra hlt
      have := does_some hd (hn k (by omega))
      simp [Expr.Env.setTmp] at this
    have key : isInt c ∧ (concExp l r e).value W σ' = some z ∧ (concExp l r e).Shape W k ∧ (concExp l r e).ty = .int c ∧
        ∀ op t l' r', concExp l r e = .bin op t l' r' → (Expr.compareOp op).isSome → t = .int .int ∨ t = .int .bool := by
      rcases h with h | ⟨rfl, op, o, l', r', rfl, ho, h⟩
      · have he := conc_exp hl hr ht hkn h
        refine ⟨Fold.fits_isInt h.fits, he.value, he.shape, he.ty, ?_⟩
        intro op t l' r' e' hc
        obtain ⟨o, ho⟩ := Option.isSome_iff_exists.mp hc
        exact .inl (he.cmp op t l' r' o e' ho)
      · have hs := (conc_exp hl hr ht hkn h).shape
        refine ⟨rfl, ?_, ⟨hs.1, hs.2.1, ?_, hs.2.2.2⟩, rfl, ?_⟩
        rotate_left
        · intro o' ho'
          cases op <;> first | (cases ho'; done) | (cases ho; done)
        · intro op' t l'' r'' e' _
          simp only [concExp, PExp.bin.injEq] at e'
          exact .inr e'.2.1.symm
        have hv := (conc_exp hl hr ht hkn h).value
        have : Expr.arithOp op = none := by cases op <;> first | rfl | cases ho
        simp only [concExp, PExp.value, this, ho] at hv ⊢
        exact hv
    obtain ⟨hc, hv, hsh, hty, hcm⟩ := key
    obtain ⟨σ'', h1, h2⟩ := ih (σ' := σ'.setTmp k (.int c) z) ⟨⟨ht.keep.mem, fun j hj => by
        simp only [Env.setTmp, if_neg (show j ≠ k by omega)]; exact ht.keep.tmps j hj⟩, ht.vars, fun j d w hj => by
        simp only [Expr.Env.setTmp, Env.setTmp] at hj ⊢
        split_ifs at hj ⊢ with hjk
        · cases hj; exact ⟨by omega, rfl⟩
        · exact ht.tmps j d w hj⟩ (fun s hs => hq s (List.mem_cons_of_mem _ hs)) hn
    refine ⟨σ'', ⟨?_, ?_⟩, h2⟩
    · simp only [List.map_cons, execs, concStmt, concVar, ofTy_tyOf hc, PStmt.exec, and_self, if_true, hv, Option.map_some, Option.bind_some]
      exact h1.1
    · intro s hs
      rw [List.map_cons, List.mem_cons] at hs
      rcases hs with rfl | hs
      · simp only [concStmt, concVar, ofTy_tyOf hc]
        refine ⟨⟨⟨hk, fun _ _ e => (by cases e; exact ⟨rfl, hc⟩)⟩, hc⟩, hsh.mono (Nat.le_of_lt hk), .inl hty.symm, hcm, ?_⟩
        intro k' u o t' e'
        cases e'
        exact ⟨rfl, hsh⟩
      · exact h1.2 s hs

/-- Operators of integers. -/
theorem evalInt_sound {op : Fold.Spec.Op} {t : Basic} {z : Int} (hl : PVal W n σ l (.int a) x) (hr : PVal W n σ r (.int b) y)
    (h : Fold.Spec.binary op a b x y = some (t, z)) :
    Sound W σ n (evalInt (Fold.opOf op) l r) fun σ' n' e => Keep n σ σ' ∧ EVal W n' σ' e (.int t) z := by
  have ha := abs_holds hl (Γ := two l r a b) (N := 2) (i := 0) (σa := start x y) (by omega) (fun h => by simp only [two, if_true, h]; rfl) rfl
  have hb := abs_holds hr (Γ := two l r a b) (N := 2) (i := 1) (σa := start x y) (by omega) (fun h => by simp only [two, one_ne_zero, if_false, h]; rfl) rfl
  obtain ⟨e, n', st, σa', h1, h2, h3, h4, h5⟩ := Expr.evalBinary_sound ha hb h
  obtain ⟨σ', g1, g2⟩ := does_execs hl hr h3 ⟨Keep.refl _ _, rfl, fun _ _ _ e => by cases e⟩ (evalBinary_quiet _ _ _ _ _ _ _ h1)
    (fun k hk => h4.tmps k hk)
  refine ⟨concExp l r e, n', st.map (concStmt l r), σ', ?_, h2, g1, g2.keep, conc_exp hl hr g2 h2 h5⟩
  simp only [evalInt, under, h1]

end

end Verif.Ptr
