import Verif.Ptr.ExprLemmas

/-!
# What the parser makes of expressions
-/

namespace Verif.Ptr

open Verif.Abi (rd wr le val sval)
open Verif.Types (Ty)
open Verif.Types.Spec (Basic)
open Verif.Fold (tyOf isInt isOpTy)
open Verif.Fold.Spec (conv fits)

variable {W : World}

set_option linter.unusedSectionVars false

section
variable {n n' : Nat} {σ σ' : Env} {v l r : PVar} {e : PExp} {t s u : CTy} {x y z p q a : Int} {res rl rr : Res}

/-- Both operands of an operator. -/
theorem both_sound (hW : W.Good) {X Y : CTy × Int} {α : Type} {f : PVar → PVar → R α} {Q : Env → Nat → α → Prop}
    (hl : VRes W n σ l rl) (hr : VRes W n σ r rr) (hx : rl.value W σ.mem = some X) (hy : rr.value W σ.mem = some Y)
    (h : ∀ σ' n' l' r', n ≤ n' → Keep n σ σ' → PVal W n' σ' l' X.1 X.2 → PVal W n' σ' r' Y.1 Y.2 → Sound W σ' n' (f l' r') Q) :
    Sound W σ n (do
      let l ← rvalue W.toDecls l
      let r ← rvalue W.toDecls r
      f l r) Q := by
  refine .bind (rvalue_sound hW hl hx) ?_
  rintro σ1 n1 l' l1 ⟨k1, hl'⟩
  refine .bind (rvalue_sound hW (hr.keep k1 l1) (by rw [k1.mem]; exact hy)) ?_
  rintro σ2 n2 r' l2 ⟨k2, hr'⟩
  exact h σ2 n2 l' r' (by omega) (k1.trans k2 l1) (hl'.keep k2 l2) hr'

theorem step_inv {res : Res} (h : W.step t p y = some res) :
    res = .rv (.ptr t) (p + y * t.size W.toDecls) ∧ t.size W.toDecls ≠ 0 ∧ t.size W.toDecls < 2 ^ 63 ∧ 0 ≤ p ∧ p < 2 ^ 63 ∧
      0 ≤ p + y * t.size W.toDecls ∧ p + y * t.size W.toDecls < 2 ^ 63 ∧ -2 ^ 63 < y ∧ y < 2 ^ 63 := by
  simp only [World.step, Option.ite_none_right_eq_some] at h
  simp only [top] at h
  obtain ⟨⟨h0, h1, h2, h3, h4, h5⟩, h⟩ := h
  cases h
  refine ⟨rfl, h0, by omega, h2, h3, h4, h5, ?_, ?_⟩
  · have : (1 : Int) ≤ t.size W.toDecls := by omega
    by_contra hy
    nlinarith
  · have : (1 : Int) ≤ t.size W.toDecls := by omega
    by_contra hy
    nlinarith

theorem stepAdd_sound (hl : PVal W n σ l (.ptr t) p) {b : Basic} (hr : PVal W n σ r (.int b) y) (h : W.step t p y = some res) :
    Sound W σ n (do
      let r ← castOperand W.toDecls r long
      addPtr W.toDecls l r t) fun σ' n' e => Keep n σ σ' ∧ ERes W n' σ' e res := by
  obtain ⟨rfl, h0, h1, h2, h3, h4, h5, h6, h7⟩ := step_inv h
  refine .bind (castOperand_int hr (b := .long) (by rfl) (by simp)) ?_
  rintro σ1 n1 r' l1 ⟨k1, hr'⟩
  rw [Fold.conv_self (long_fits.mpr ⟨by omega, h7⟩)] at hr'
  refine (addPtr_sound (hl.keep k1 l1) hr' h0 h1 (by omega) (by omega)).weaken ?_
  rintro σ2 n2 e l2 ⟨k2, he⟩
  rw [wrap_self ⟨h4, by omega⟩] at he
  exact ⟨k1.trans k2 l1, he⟩

theorem addScalar_sound {X Y : CTy × Int} (hl : PVal W n σ l X.1 X.2) (hr : PVal W n σ r Y.1 Y.2) (h : W.binary .add X Y = some res) :
    Sound W σ n (addScalar W.toDecls l r) fun σ' n' e => Keep n σ σ' ∧ ERes W n' σ' e res := by
  obtain ⟨tx, x⟩ := X
  obtain ⟨ty, y⟩ := Y
  unfold addScalar
  rw [hl.ty, hr.ty]
  cases tx with
  | int a =>
    cases ty with
    | int b =>
      simp only [World.binary, Option.map_eq_some_iff] at h
      obtain ⟨⟨c, z⟩, h, rfl⟩ := h
      exact addInt_sound hl hr h
    | ptr t =>
      simp only [World.binary, if_true] at h
      exact stepAdd_sound hr hl h
    | _ => cases h
  | ptr t =>
    cases ty with
    | int b => exact stepAdd_sound hl hr h
    | ptr s => simp [World.binary] at h
    | _ => cases h
  | _ => cases h

theorem evalAdd_sound (hW : W.Good) {X Y : CTy × Int} (hl : VRes W n σ l rl) (hr : VRes W n σ r rr) (hx : rl.value W σ.mem = some X)
    (hy : rr.value W σ.mem = some Y) (h : W.binary .add X Y = some res) :
    Sound W σ n (evalAdd W.toDecls l r) fun σ' n' e => Keep n σ σ' ∧ ERes W n' σ' e res := by
  refine both_sound hW hl hr hx hy fun σ1 n1 l' r' l1 k1 hl' hr' => ?_
  exact (addScalar_sound hl' hr' h).weaken fun _ _ _ _ ⟨k2, h⟩ => ⟨k1.trans k2 l1, h⟩

theorem subPtrs_sound (hl : PVal W n σ l (.ptr t) p) (hr : PVal W n σ r (.ptr t) q) (h0 : t.size W.toDecls ≠ 0) (h1 : t.size W.toDecls < 2 ^ 63)
    (h2 : 0 ≤ p ∧ p < 2 ^ 63) (h3 : 0 ≤ q ∧ q < 2 ^ 63) (hd : (p - q) % t.size W.toDecls = 0) :
    Sound W σ n (subPtrs W.toDecls l r t t) fun σ' n' e => Keep n σ σ' ∧ EVal W n' σ' e (.int .long) ((p - q) / t.size W.toDecls) := by
  have b1 : p.bmod (2 ^ 64) = p := Fold.conv_self (t := .long) (long_fits.mpr (by omega))
  have b2 : q.bmod (2 ^ 64) = q := Fold.conv_self (t := .long) (long_fits.mpr (by omega))
  have e3 : Basic.long.common .long = .long := rfl
  have e4 : ∀ z, -2 ^ 63 ≤ z → z < 2 ^ 63 → Fold.Spec.result .long z = some z := by
    intro z h1 h2
    unfold Fold.Spec.result
    simp only [Basic.range]
    rw [if_pos (by decide), if_pos (by omega)]
  have hm : Fold.Spec.binary .sub .long .long p q = some (.long, p - q) := by
    simp only [Fold.Spec.binary, e3, conv_long, b1, b2, e4 (p - q) (by omega) (by omega), Option.map_some]
  unfold subPtrs
  refine .bind (castOperand_long hl) ?_
  rintro σ1 n1 l' l1 ⟨k1, hl'⟩
  refine .bind (castOperand_long (hr.keep k1 l1)) ?_
  rintro σ2 n2 r' l2 ⟨k2, hr'⟩
  rw [b1] at hl'
  rw [b2] at hr'
  refine .bind (subInt_sound (hl'.keep k2 l2) hr' hm) ?_
  rintro σ3 n3 e l3 ⟨k3, he⟩
  have k13 : Keep n σ σ3 := (k1.trans k2 l1).trans k3 (by omega)
  split_ifs with hs hs2
  · refine .bind (eval_sound he) ?_
    rintro σ4 n4 v l4 ⟨k4, hv⟩
    have hc : PVal W n4 σ4 (.imm long (BitVec.ofNat 64 (t.size W.toDecls))) long (t.size W.toDecls) := by
      rw [← BitVec.ofInt_natCast]
      exact int_imm (long_fits.mpr (by omega))
    have hq : (p - q).tdiv (t.size W.toDecls) = (p - q) / t.size W.toDecls := Int.tdiv_eq_ediv_of_dvd (Int.dvd_of_emod_eq_zero hd)
    have hb : -2 ^ 63 ≤ (p - q) / t.size W.toDecls ∧ (p - q) / t.size W.toDecls < 2 ^ 63 := by
      have e := Int.emod_add_mul_ediv (p - q) (t.size W.toDecls)
      have hs' : (1 : Int) ≤ t.size W.toDecls := by omega
      generalize (p - q) / (t.size W.toDecls : Int) = z at e ⊢
      rw [hd] at e
      constructor
      · by_contra hz
        nlinarith
      · by_contra hz
        nlinarith
    have hm2 : Fold.Spec.binary .div .long .long (p - q) (t.size W.toDecls) = some (.long, (p - q) / t.size W.toDecls) := by
      have c1 : conv .long (p - q) = p - q := Fold.conv_self (long_fits.mpr (by omega))
      have c2 : conv .long (t.size W.toDecls) = t.size W.toDecls := Fold.conv_self (long_fits.mpr (by omega))
      simp only [Fold.Spec.binary, e3, c1, c2, hq, e4 _ hb.1 hb.2, Option.map_some]
      rw [if_neg (Int.natCast_ne_zero.mpr h0)]
    refine (evalInt_sound (op := .div) hv hc hm2).weaken ?_
    rintro σ5 n5 e l5 ⟨k5, he⟩
    exact ⟨(k13.trans k4 (by omega)).trans k5 (by omega), he⟩
  · omega
  · have : t.size W.toDecls = 1 := by omega
    refine .pure ⟨k13, ?_⟩
    rw [this, Int.natCast_one, Int.ediv_one]
    exact he

theorem evalSub_sound (hW : W.Good) {X Y : CTy × Int} (hl : VRes W n σ l rl) (hr : VRes W n σ r rr) (hx : rl.value W σ.mem = some X)
    (hy : rr.value W σ.mem = some Y) (h : W.binary .sub X Y = some res) :
    Sound W σ n (evalSub W.toDecls l r) fun σ' n' e => Keep n σ σ' ∧ ERes W n' σ' e res := by
  unfold evalSub
  refine both_sound hW hl hr hx hy fun σ1 n1 l' r' l1 k1 hl' hr' => ?_
  have fin : Sound W σ1 n1 (match l'.ty, r'.ty with
      | .int _, .int _ => subInt l' r'
      | .ptr t, .int _ => do
        let r ← castOperand W.toDecls r' long
        subPtr W.toDecls l' r t
      | .ptr t, .ptr s => subPtrs W.toDecls l' r' t s
      | _, _ => R.fail) fun σ' n' e => Keep n1 σ1 σ' ∧ ERes W n' σ' e res := by
    obtain ⟨tx, x⟩ := X
    obtain ⟨ty, y⟩ := Y
    rw [hl'.ty, hr'.ty]
    cases tx with
    | int a =>
      cases ty with
      | int b =>
        simp only [World.binary, Option.map_eq_some_iff] at h
        obtain ⟨⟨c, z⟩, h, rfl⟩ := h
        exact subInt_sound hl' hr' h
      | ptr t => simp [World.binary] at h
      | _ => cases h
    | ptr t =>
      cases ty with
      | int b =>
        obtain ⟨rfl, h0, h1, h2, h3, h4, h5, h6, h7⟩ := step_inv (show W.step t x (-y) = some res from h)
        simp only
        refine .bind (castOperand_int hr' (b := .long) (by rfl) (by simp)) ?_
        rintro σ2 n2 r'' l2 ⟨k2, hr''⟩
        rw [Fold.conv_self (long_fits.mpr ⟨by omega, by omega⟩)] at hr''
        refine (subPtr_sound (hl'.keep k2 l2) hr'' h0 h1).weaken ?_
        rintro σ3 n3 e l3 ⟨k3, he⟩
        have e1 : x + -y * (t.size W.toDecls : Int) = x - y * t.size W.toDecls := by rw [Int.neg_mul]; rfl
        rw [e1] at h4 h5 ⊢
        rw [wrap_self ⟨h4, by omega⟩] at he
        exact ⟨k2.trans k3 l2, he⟩
      | ptr s =>
        simp only [World.binary, top, Option.ite_none_right_eq_some] at h
        obtain ⟨⟨_, rfl, h0, h1, h2, h3, h4, h5, h6⟩, h⟩ := h
        cases h
        exact subPtrs_sound hl' hr' h0 (by omega) ⟨h2, h3⟩ ⟨h4, h5⟩ h6
      | _ => cases h
    | _ => cases h
  exact fin.weaken fun _ _ _ _ ⟨k2, h⟩ => ⟨k1.trans k2 l1, h⟩

theorem evalBin_sound (hW : W.Good) {op : Arith.Op} {X Y : CTy × Int} (hl : VRes W n σ l rl) (hr : VRes W n σ r rr)
    (hx : rl.value W σ.mem = some X) (hy : rr.value W σ.mem = some Y) (h : W.binary op X Y = some res) :
    Sound W σ n (evalBin W.toDecls op l r) fun σ' n' e => Keep n σ σ' ∧ ERes W n' σ' e res := by
  have other : op ≠ .add → op ≠ .sub → Sound W σ n (evalInt (Expr.foldOp op) l r) fun σ' n' e => Keep n σ σ' ∧ ERes W n' σ' e res := by
    intro h1 h2
    obtain ⟨tx, x⟩ := X
    obtain ⟨ty, y⟩ := Y
    cases tx with
    | int a =>
      cases ty with
      | int b =>
        simp only [World.binary, Option.map_eq_some_iff] at h
        obtain ⟨⟨c, z⟩, h, rfl⟩ := h
        rw [Expr.foldOp_spec]
        exact evalInt_sound (hl.int hx) (hr.int hy) h
      | ptr t => simp [World.binary, h1] at h
      | _ => cases h
    | ptr t =>
      cases ty with
      | int b => cases op <;> first | exact (h1 rfl).elim | exact (h2 rfl).elim | cases h
      | ptr s => simp [World.binary, h2] at h
      | _ => cases h
    | _ => cases h
  unfold evalBin
  split
  · exact evalAdd_sound hW hl hr hx hy h
  · exact evalSub_sound hW hl hr hx hy h
  · rename_i h1 h2
    exact other (fun e => h1 e) (fun e => h2 e)

/-! ### Comparisons -/

theorem cmpInt {o : Fold.Spec.Op} {a b : Basic} (hl : PVal W n σ l (.int a) x) (hr : PVal W n σ r (.int b) y)
    (h : Fold.Spec.binary o a b x y = some (.int, z)) {w : Int} (e : z = w) :
    Sound W σ n (evalInt (Fold.opOf o) l r) fun σ' n' e => Keep n σ σ' ∧ ERes W n' σ' e (.rv (.int .int) w) := by
  subst e
  exact evalInt_sound hl hr h

theorem ulong_self (h : 0 ≤ x ∧ x < 2 ^ 64) : conv .ulong x = x := Fold.conv_self (ulong_fits.mpr h)

theorem cmpPtr {o : Fold.Spec.Op} (hl : PVal W n σ l ulong p) (hr : PVal W n σ r ulong q)
    (h : Fold.Spec.binary o .ulong .ulong p q = some (.int, z)) {w : Int} (e : z = w) :
    Sound W σ n (evalInt (Fold.opOf o) l r) fun σ' n' e => Keep n σ σ' ∧ ERes W n' σ' e (.rv (.int .int) w) := cmpInt hl hr h e

theorem compare_eq (x y : Int) : compare x y = if x < y then .lt else if x = y then .eq else .gt := by
  simp only [compare, compareOfLessAndEq]

/-- `==` and `!=`. -/
theorem evalEq_sound (hW : W.Good) {op : Compare.Rel} {o : Fold.Spec.Op} (ho : op = .eq ∧ o = .eq ∨ op = .ne ∧ o = .ne) {X Y : CTy × Int}
    (hl : VRes W n σ l rl) (hr : VRes W n σ r rr)
    (hx : rl.value W σ.mem = some X) (hy : rr.value W σ.mem = some Y) (h : World.compare op X Y = some res) :
    Sound W σ n (evalEq W.toDecls (Fold.opOf o) l r) fun σ' n' e => Keep n σ σ' ∧ ERes W n' σ' e res := by
  have spec : ∀ a b x y, Fold.Spec.binary o a b x y =
      some (.int, if op.holds (some (compare (conv (a.common b) x) (conv (a.common b) y))) then 1 else 0) := by
    intro a b x y
    rw [compare_eq]
    rcases ho with ⟨rfl, rfl⟩ | ⟨rfl, rfl⟩ <;> simp only [Fold.Spec.binary, Compare.Rel.holds, Option.some.injEq, Prod.mk.injEq, true_and] <;> grind
  have cu : Basic.ulong.common .ulong = .ulong := rfl
  unfold evalEq
  refine both_sound hW hl hr hx hy fun σ1 n1 l' r' l1 k1 hl' hr' => ?_
  have two : ∀ {t p q}, PVal W n1 σ1 l' (.ptr t) p → ∀ {s}, PVal W n1 σ1 r' s q → 0 ≤ q → q < 2 ^ 64 → (∀ σ2 n2, n1 ≤ n2 → Keep n1 σ1 σ2 →
      Sound W σ2 n2 (castOperand W.toDecls r' ulong) fun σ' n' v' => Keep n2 σ2 σ' ∧ PVal W n' σ' v' ulong q) →
      Sound W σ1 n1 (do
        let l ← castOperand W.toDecls l' ulong
        let r ← castOperand W.toDecls r' ulong
        evalInt (Fold.opOf o) l r) fun σ' n' e => Keep n1 σ1 σ' ∧ ERes W n' σ' e (.rv (.int .int) (if op.holds (some (compare p q)) then 1 else 0)) := by
    intro t p q hp s hq q1 q2 hcast
    refine .bind (castOperand_ulong hp) ?_
    rintro σ2 n2 l'' l2 ⟨k2, hl''⟩
    refine .bind (hcast σ2 n2 l2 k2) ?_
    rintro σ3 n3 r'' l3 ⟨k3, hr''⟩
    have := spec .ulong .ulong p q
    rw [cu, ulong_self hp.fit, ulong_self ⟨q1, q2⟩] at this
    exact (cmpPtr (hl''.keep k3 l3) hr'' this rfl).weaken fun _ _ _ _ ⟨k4, h⟩ => ⟨(k2.trans k3 l2).trans k4 (by omega), h⟩
  have hne : op = .eq ∨ op = .ne := by rcases ho with ⟨h, _⟩ | ⟨h, _⟩ <;> simp [h]
  have fin : Sound W σ1 n1 (match l'.ty, r'.ty with
      | .int _, .int _ => evalInt (Fold.opOf o) l' r'
      | .ptr _, .ptr _ | .ptr _, .int _ => do
        let l ← castOperand W.toDecls l' ulong
        let r ← castOperand W.toDecls r' ulong
        evalInt (Fold.opOf o) l r
      | .int _, .ptr _ => do
        let r ← castOperand W.toDecls r' ulong
        let l ← castOperand W.toDecls l' ulong
        evalInt (Fold.opOf o) l r
      | _, _ => R.fail) fun σ' n' e => Keep n1 σ1 σ' ∧ ERes W n' σ' e res := by
    obtain ⟨tx, x⟩ := X
    obtain ⟨ty, y⟩ := Y
    rw [hl'.ty, hr'.ty]
    cases tx with
    | int a =>
      cases ty with
      | int b =>
        cases h
        exact cmpInt hl' hr' (spec a b x y) rfl
      | ptr t =>
        simp only [World.compare, hne, and_true, Option.ite_none_right_eq_some] at h
        obtain ⟨rfl, h⟩ := h
        cases h
        simp only
        refine .bind (castOperand_ulong hr') ?_
        rintro σ2 n2 r'' l2 ⟨k2, hr''⟩
        refine .bind (castOperand_int (hl'.keep k2 l2) (b := .ulong) (by rfl) (by simp)) ?_
        rintro σ3 n3 l'' l3 ⟨k3, hl''⟩
        rw [ulong_self (by omega)] at hl''
        have := spec .ulong .ulong 0 y
        rw [cu, ulong_self (by omega), ulong_self hr'.fit] at this
        exact (cmpPtr hl'' (hr''.keep k3 l3) this rfl).weaken fun _ _ _ _ ⟨k4, h⟩ => ⟨(k2.trans k3 l2).trans k4 (by omega), h⟩
      | _ => cases h
    | ptr t =>
      cases ty with
      | int b =>
        simp only [World.compare, hne, and_true, Option.ite_none_right_eq_some] at h
        obtain ⟨rfl, h⟩ := h
        cases h
        simp only
        refine two hl' hr' (by omega) (by omega) fun σ2 n2 l2 k2 => ?_
        have := castOperand_int (hr'.keep k2 l2) (b := .ulong) (by rfl) (by simp)
        rw [ulong_self (by omega)] at this
        exact this
      | ptr s =>
        simp only [World.compare, hne, or_true, if_true] at h
        cases h
        simp only
        exact two hl' hr' hr'.fit.1 hr'.fit.2 fun σ2 n2 l2 k2 => castOperand_ulong (hr'.keep k2 l2)
      | _ => cases h
    | _ => cases h
  exact fin.weaken fun _ _ _ _ ⟨k2, h⟩ => ⟨k1.trans k2 l1, h⟩

/-- `<`, `>`, `<=` and `>=`, by `>` and `>=`. -/
theorem evalGt_sound (hW : W.Good) {op : Compare.Rel} {o : Fold.Spec.Op} (ho : op = .gt ∧ o = .gt ∨ op = .ge ∧ o = .ge) {X Y : CTy × Int}
    (hl : VRes W n σ l rl) (hr : VRes W n σ r rr)
    (hx : rl.value W σ.mem = some X) (hy : rr.value W σ.mem = some Y) (h : World.compare op X Y = some res) :
    Sound W σ n (evalGt W.toDecls (Fold.opOf o) l r) fun σ' n' e => Keep n σ σ' ∧ ERes W n' σ' e res := by
  have spec : ∀ a b x y, Fold.Spec.binary o a b x y =
      some (.int, if op.holds (some (compare (conv (a.common b) x) (conv (a.common b) y))) then 1 else 0) := by
    intro a b x y
    rw [compare_eq]
    rcases ho with ⟨rfl, rfl⟩ | ⟨rfl, rfl⟩ <;> simp only [Fold.Spec.binary, Compare.Rel.holds, Option.some.injEq, Prod.mk.injEq, true_and] <;> grind
  have cu : Basic.ulong.common .ulong = .ulong := rfl
  have hne : ¬ (op = .eq ∨ op = .ne) := by rcases ho with ⟨h, _⟩ | ⟨h, _⟩ <;> simp [h]
  unfold evalGt
  refine both_sound hW hl hr hx hy fun σ1 n1 l' r' l1 k1 hl' hr' => ?_
  have fin : Sound W σ1 n1 (match l'.ty, r'.ty with
      | .int _, .int _ => evalInt (Fold.opOf o) l' r'
      | .ptr t, .ptr s =>
        if t = s then do
          let l ← castOperand W.toDecls l' ulong
          let r ← castOperand W.toDecls r' ulong
          evalInt (Fold.opOf o) l r
        else R.fail
      | _, _ => R.fail) fun σ' n' e => Keep n1 σ1 σ' ∧ ERes W n' σ' e res := by
    obtain ⟨tx, x⟩ := X
    obtain ⟨ty, y⟩ := Y
    rw [hl'.ty, hr'.ty]
    cases tx with
    | int a =>
      cases ty with
      | int b =>
        cases h
        exact cmpInt hl' hr' (spec a b x y) rfl
      | ptr t => simp [World.compare, hne] at h
      | _ => cases h
    | ptr t =>
      cases ty with
      | int b => simp [World.compare, hne] at h
      | ptr s =>
        simp only [World.compare, hne, or_false, Option.ite_none_right_eq_some] at h
        obtain ⟨rfl, h⟩ := h
        cases h
        simp only [if_true]
        refine .bind (castOperand_ulong hl') ?_
        rintro σ2 n2 l'' l2 ⟨k2, hl''⟩
        refine .bind (castOperand_ulong (hr'.keep k2 l2)) ?_
        rintro σ3 n3 r'' l3 ⟨k3, hr''⟩
        have := spec .ulong .ulong x y
        rw [cu, ulong_self hl'.fit, ulong_self hr'.fit] at this
        exact (cmpPtr (hl''.keep k3 l3) hr'' this rfl).weaken fun _ _ _ _ ⟨k4, h⟩ => ⟨(k2.trans k3 l2).trans k4 (by omega), h⟩
      | _ => cases h
    | _ => cases h
  exact fin.weaken fun _ _ _ _ ⟨k2, h⟩ => ⟨k1.trans k2 l1, h⟩

/-- The other way round. -/
theorem compare_swap {op op' : Compare.Rel} (ho : op = .lt ∧ op' = .gt ∨ op = .le ∧ op' = .ge) (X Y : CTy × Int) :
    World.compare op X Y = World.compare op' Y X := by
  obtain ⟨tx, x⟩ := X
  obtain ⟨ty, y⟩ := Y
  have key : ∀ x y : Int, op.holds (some (compare x y)) = op'.holds (some (compare y x)) := by
    intro x y
    rw [compare_eq, compare_eq]
    rcases ho with ⟨rfl, rfl⟩ | ⟨rfl, rfl⟩ <;> simp only [Compare.Rel.holds] <;> grind
  have h1 : ¬ (op = .eq ∨ op = .ne) := by rcases ho with ⟨h, _⟩ | ⟨h, _⟩ <;> simp [h]
  have h2 : ¬ (op' = .eq ∨ op' = .ne) := by rcases ho with ⟨_, h⟩ | ⟨_, h⟩ <;> simp [h]
  cases tx <;> cases ty <;> simp only [World.compare, h1, h2, and_false, if_false, or_false]
  · rename_i a b
    rw [key, Expr.common_comm b a]
  · rename_i t s
    by_cases e : t = s
    · subst e; simp only [if_true, key]
    · rw [if_neg e, if_neg (fun h => e h.symm)]

theorem evalRel_sound (hW : W.Good) {op : Compare.Rel} {X Y : CTy × Int} (hl : VRes W n σ l rl) (hr : VRes W n σ r rr)
    (hx : rl.value W σ.mem = some X) (hy : rr.value W σ.mem = some Y) (h : World.compare op X Y = some res) :
    Sound W σ n (evalRel W.toDecls op l r) fun σ' n' e => Keep n σ σ' ∧ ERes W n' σ' e res := by
  cases op with
  | lt => rw [compare_swap (.inl ⟨rfl, rfl⟩)] at h; exact evalGt_sound hW (o := .gt) (.inl ⟨rfl, rfl⟩) hr hl hy hx h
  | gt => exact evalGt_sound hW (o := .gt) (.inl ⟨rfl, rfl⟩) hl hr hx hy h
  | le => rw [compare_swap (.inr ⟨rfl, rfl⟩)] at h; exact evalGt_sound hW (o := .ge) (.inr ⟨rfl, rfl⟩) hr hl hy hx h
  | ge => exact evalGt_sound hW (o := .ge) (.inr ⟨rfl, rfl⟩) hl hr hx hy h
  | eq => exact evalEq_sound hW (o := .eq) (.inl ⟨rfl, rfl⟩) hl hr hx hy h
  | ne => exact evalEq_sound hW (o := .ne) (.inr ⟨rfl, rfl⟩) hl hr hx hy h

/-! ### Casts -/

theorem castTo_inv (h : castTo t (s, x) = some res) (hf : Fit s x) :
    ∃ y, res = .rv t y ∧ view t x = some y ∧ isScalar s = true ∧ isScalar t = true := by
  cases t with
  | int b => cases s <;> cases h <;> exact ⟨_, rfl, rfl, rfl, rfl⟩
  | ptr t =>
    cases s <;> cases h
    · exact ⟨_, rfl, rfl, rfl, rfl⟩
    · exact ⟨_, rfl, view_self (t := .ptr t) hf, rfl, rfl⟩
  | _ => cases h

theorem convert_val {w : BitVec 64} (h : PVal W n σ (.imm s w) s x) (ht : t.Ok) (hx : view t x = some y) :
    ∃ w', convert w s t = some w' ∧ PVal W n σ (.imm t w') t y := by
  have hf := h.fit
  cases s with
  | int a =>
    obtain ⟨_, rfl⟩ := imm_int h
    cases t with
    | int b =>
      have hc := Fold.castOperand_eq {} (i := ⟨tyOf a {}, BitVec.ofInt 64 x⟩) ⟨h.fit, ⟨{}, rfl⟩, rfl⟩ (t := b) ht
      cases hx
      exact ⟨_, by simp only [convert, hc, Option.map_some], int_imm (Fold.conv_fits ht x)⟩
    | ptr u =>
      refine ⟨_, rfl, ?_⟩
      have := ptr_imm (W := W) (n := n) (σ := σ) ht (BitVec.ofInt 64 x)
      rw [toNat_ofInt] at this
      cases hx
      exact this
    | _ => cases hx
  | ptr u =>
    obtain ⟨_, h1, h2⟩ := imm_ptr h
    cases t with
    | int b =>
      have hc := Fold.castOperand_eq {} (i := ⟨tyOf .ulong {}, w⟩) (t := b) ⟨(⟨0, _, rfl, h.fit.1, by have := h.fit.2; omega⟩ : fits .ulong x), ⟨{}, rfl⟩, h1⟩ ht
      cases hx
      exact ⟨_, by simp only [convert, hc, Option.map_some], int_imm (Fold.conv_fits ht x)⟩
    | ptr u' =>
      rw [view_self (t := .ptr u') h.fit] at hx
      cases hx
      exact ⟨_, rfl, h2 ▸ ptr_imm ht w⟩
    | _ => cases hx
  | _ => exact hf.elim

theorem scalarCast_sound (h : PVal W n σ v s x) (ht : t.Ok) (hb : t ≠ .int .bool ∨ isImm v = true) (hx : view t x = some y) :
    Sound W σ n (if ¬ (isScalar v.ty ∧ isScalar t) then R.fail
      else if v.ty = t then pure (asExpr v)
      else match (generalizing := false) v with
        | .imm s x => R.lift ((convert x s t).map fun x => asExpr (.imm t x))
        | v => if samePtr W.toDecls v.ty t then pure (asExpr (v.retype t)) else pure (.cast t v))
      fun σ' n' e => Keep n σ σ' ∧ EVal W n' σ' e t y := by
  have hs := h.fit.isScalar
  have hft := view_fit ht hx
  have hts := hft.isScalar
  rw [h.ty, if_neg (by simp [hs, hts])]
  split_ifs with he
  · subst he
    rw [view_self h.fit] at hx
    cases hx
    exact .pure ⟨Keep.refl _ _, asExpr_val h⟩
  · split
    · rename_i s' w
      cases h.ty
      obtain ⟨w', e1, e2⟩ := convert_val h ht hx
      rw [e1, Option.map_some, lift_pure]
      exact .pure ⟨Keep.refl _ _, asExpr_val e2⟩
    · rename_i hv
      have hi : isImm v = false := by cases v <;> first | rfl | exact (hv _ _ rfl).elim
      split_ifs with hp
      · have e8 : Eight s ∧ Eight t := by
          simp only [samePtr, Bool.and_eq_true, beq_iff_eq, Bool.or_eq_true, h.ty] at hp
          obtain ⟨h1, h2⟩ := hp
          rcases h2 with h2 | h2
          · cases s <;> cases h2
            exact ⟨ptr_eight, eight_of ht hts (h1.symm.trans rfl)⟩
          · cases t <;> cases h2
            exact ⟨eight_of h.ok hs (h1.trans rfl), ptr_eight⟩
        exact .pure ⟨Keep.refl _ _, asExpr_val (retype_val h e8.1 e8.2 ht hi hx)⟩
      · have hb := hb.resolve_right (by rw [hi]; simp)
        refine .pure ⟨Keep.refl _ _, rfl, ht, ⟨h.shape, by rw [h.ty]; exact h.ok, fun e => by rw [hi] at e; cases e⟩, ?_, hft, fun _ _ _ _ _ e => by cases e⟩
        simp only [PExp.value, h.read, Option.bind_eq_bind, Option.bind_some, hb, false_and, if_false, hx]

theorem evalCast_sound (hW : W.Good) (h : VRes W n σ v rl) {X : CTy × Int} (hv : rl.value W σ.mem = some X) (ht : t.Ok) (hb : t ≠ .int .bool)
    (hc : castTo t X = some res) : Sound W σ n (evalCast W.toDecls v t) fun σ' n' e => Keep n σ σ' ∧ ERes W n' σ' e res := by
  obtain ⟨s, x⟩ := X
  refine .bind (rvalue_sound hW h hv) ?_
  rintro σ1 n1 v' l1 ⟨k1, hv'⟩
  obtain ⟨y, rfl, hx, _⟩ := castTo_inv hc hv'.fit
  refine (scalarCast_sound hv' ht (.inl hb) hx).weaken ?_
  rintro σ2 n2 e l2 ⟨k2, he⟩
  exact ⟨k1.trans k2 l1, he⟩

/-! ### Objects -/

theorem zero_off (x : Int) : x + ((0 : BitVec 64).toNat : Int) = x := by
  rw [show ((0 : BitVec 64).toNat : Int) = 0 from rfl, Int.add_zero]

theorem copyPtr_sound (h : PVal W n σ v t x) (hv : t ≠ .void) :
    Sound W σ n (copyPtr v) fun σ' n' v' => Keep n σ σ' ∧ ∃ k, v' = .dir (.tmp k t) 0 t ∧ PVal W n' σ' v' t x := by
  obtain ⟨h1, h2, h3⟩ := newTmp (asExpr_val h)
  refine ⟨.dir (.tmp n t) 0 t, n + 1, [⟨.dir (.tmp n t) 0 t, asExpr v⟩], σ.setTmp n t x, ?_, by omega, h1, h2, n, rfl, h3⟩
  unfold copyPtr
  rw [h.ty]
  show R.bind (createVar t) _ n = _
  simp only [R.bind, createVar, hv, if_false]
  rfl

theorem pointer_var {i : Nat} {p : Int} (h : number σ.mem (.ptr t) (W.addr i) = some p) : pointer W σ (.var i) = some p := h

theorem evalDeref_sound (hW : W.Good) (h : VRes W n σ v res) (hv : res.value W σ.mem = some (.ptr t, p)) :
    Sound W σ n (evalDeref W.toDecls v) fun σ' n' v' => Keep n σ σ' ∧ VRes W n' σ' v' (.lv t p) := by
  refine .bind (rvalue_sound hW h hv) ?_
  rintro σ1 n1 v l1 ⟨k1, h⟩
  have ht : t.Ok := h.ok
  have hf := h.fit
  have h64 : p < 2 ^ 64 := by have := hf.2; omega
  have off0 : ∀ {s u}, Off W (.der s 0 u) t := by
    intro s u s' o' u' e
    cases e
    exact .inl rfl
  have copy : Sound W σ1 n1 (do
      let v ← copyPtr v
      match v with
      | .dir s _ _ => pure (.der s 0 t)
      | _ => R.fail) fun σ' n' v' => Keep n σ σ' ∧ VRes W n' σ' v' (.lv t p) := by
    refine .bind (copyPtr_sound h (by simp)) ?_
    rintro σ2 n2 v' l2 ⟨k2, k, rfl, hk⟩
    refine .pure ⟨k1.trans k2 l1, ⟨rfl, ht, ⟨hk.shape.1, t, rfl, ht⟩, ?_⟩, off0⟩
    have hr := hk.read
    simp only [PVar.read, if_true] at hr
    have : pointer W σ2 (.tmp k (.ptr t)) = some p := (tmpValue_ptr _ _ _ _).trans hr
    simp only [PVar.place, this, Option.bind_some, zero_off, if_pos h64]
  rw [h.ty]
  simp only
  cases v with
  | der s o t' => exact copy
  | derImm w o t' => exact copy
  | dir s o t' =>
    simp only
    split_ifs with hc
    · exact copy
    · push Not at hc
      obtain ⟨rfl, hp⟩ := hc
      cases h.ty
      have hr := h.read
      obtain ⟨hb, hs⟩ := h.shape
      cases s with
      | var i =>
        have ha := hW.addr i
        have hvo := hW.var i
        unfold top at ha
        simp only [PVar.read, PVar.place, PVar.ty, Option.bind_some, zero_off] at hr
        rw [wrap_self (by omega)] at hr
        have hr := (scalar_inv hr).2
        simp only [Sym.ty] at hp
        obtain ⟨w, hw⟩ : ∃ w, W.var i = .ptr w := by
          cases hw : W.var i with
          | ptr w => exact ⟨w, rfl⟩
          | _ => rw [hw] at hp; exact (hp rfl).elim
        refine .pure ⟨k1, ⟨rfl, ht, ⟨trivial, w, hw, by rw [hw] at hvo; exact hvo⟩, ?_⟩, off0⟩
        have : pointer W σ1 (.var i) = some p := pointer_var hr
        simp only [PVar.place, this, Option.bind_some, zero_off, if_pos h64]
      | tmp k w =>
        simp only [Sym.ty] at hp
        cases w with
        | ptr w =>
          refine .pure ⟨k1, ⟨rfl, ht, ⟨hb, w, rfl, (hs k _ rfl).2⟩, ?_⟩, off0⟩
          simp only [PVar.read, if_true] at hr
          have : pointer W σ1 (.tmp k (.ptr w)) = some p := (tmpValue_ptr _ _ _ _).trans hr
          simp only [PVar.place, this, Option.bind_some, zero_off, if_pos h64]
        | _ => exact (hp rfl).elim
  | adr s o t' =>
    cases h.ty
    obtain ⟨⟨i, rfl⟩, _⟩ := h.shape
    have hr := h.read
    simp only [PVar.read, view, Option.some.injEq] at hr
    refine .pure ⟨k1, ⟨rfl, ht, ⟨trivial, fun _ _ e => (by cases e)⟩, ?_⟩, fun _ _ _ e => (by cases e)⟩
    simp only [PVar.place]
    rw [← hr]
    exact congrArg some (wrap_wrap _).symm
  | imm t' w =>
    obtain ⟨_, _, h2⟩ := imm_ptr h
    refine .pure ⟨k1, ⟨rfl, ht, trivial, ?_⟩, fun _ _ _ e => (by cases e)⟩
    simp only [PVar.place, zero_off]
    rw [← h2, wrap_self hf]

theorem member_arith (b : Int) (o : BitVec 64) (m : Nat) : wrap (b + ((o + BitVec.ofNat 64 m).toNat : Int)) = wrap (wrap (b + o.toNat) + m) := by
  rw [← BitVec.ofInt_natCast, wrap_bv, wrap_add]

theorem pointer_nonneg {s : Sym} {p : Int} (h : pointer W σ s = some p) : 0 ≤ p := by
  cases s with
  | var i => simp only [pointer, Option.some.injEq] at h; subst h; exact (val_rd _ _ _).1
  | tmp k t =>
    exact (tmpValue_fit (t := .ptr .void) trivial ((tmpValue_ptr _ _ _ _).trans h)).1

theorem member_sound (hW : W.Good) {k m off : Nat} (h : VRes W n σ v (.lv (.record k) a)) (hm : W.member k m = some (t, off))
    (ha : 0 ≤ a ∧ a + off < 2 ^ 63) : VRes W n σ (v.member t off) (.lv t (a + off)) := by
  obtain ⟨h, ho⟩ := h
  have hp := h.place
  have hsh := h.shape
  have hw : wrap (a + off) = a + off := wrap_self (by omega)
  have hin := hW.inside k m t off hm
  have hsm := hW.small k
  refine ⟨⟨by cases v <;> rfl, hW.member k m t off hm, ?_, ?_⟩, ?_⟩
  · cases v with
    | imm t v => cases hp
    | dir q o t =>
      cases q with
      | var i => exact ⟨trivial, fun _ _ e => (by cases e)⟩
      | tmp k w => cases hp
    | adr q o t => cases hp
    | der q o t => exact hsh
    | derImm v o t => trivial
  · cases v with
    | imm t v => cases hp
    | dir q o t =>
      cases q with
      | var i =>
        simp only [PVar.place, Option.some.injEq] at hp
        simp only [PVar.member, PVar.place, member_arith, hp, hw]
      | tmp k w => cases hp
    | adr q o t => cases hp
    | der q o t =>
      simp only [PVar.place, Option.bind_eq_some_iff, Option.ite_none_right_eq_some, Option.some.injEq] at hp
      obtain ⟨p, hp1, hp2, hp⟩ := hp
      have h0 := pointer_nonneg hp1
      have e : ((o + BitVec.ofNat 64 off).toNat : Int) = o.toNat + off := by
        rw [BitVec.toNat_add, BitVec.toNat_ofNat]
        omega
      simp only [PVar.member, PVar.place, hp1, Option.bind_some, e]
      rw [if_pos (by omega), ← hp, Int.add_assoc]
    | derImm v o t =>
      simp only [PVar.place, Option.some.injEq] at hp
      simp only [PVar.member, PVar.place, member_arith, hp, hw]
  · intro s o' u e
    cases v <;> simp only [PVar.member, PVar.der.injEq, reduceCtorEq] at e
    rename_i q o t'
    obtain ⟨rfl, rfl, rfl⟩ := e
    right
    rw [BitVec.toNat_add, BitVec.toNat_ofNat]
    have hr : CTy.size W.toDecls (.record k) = (W.recs k).size := rfl
    rcases ho _ _ _ rfl with hz | hz
    · subst hz
      rw [show (0 : BitVec 64).toNat = 0 from rfl]
      omega
    · rw [hr] at hz
      omega

/-! ### Negation -/

theorem cmp_value {op : Fold.Op} {o : Compare.Op} (h1 : Expr.arithOp op = none) (h2 : Expr.compareOp op = some o) :
    (PExp.bin op t l r).value W σ = (do
      let x ← l.read W σ
      let y ← r.read W σ
      some (if o.holds (some (compare x y)) then 1 else 0)) := by
  simp only [PExp.value, h1, h2]

theorem evalNegation_sound (hW : W.Good) (h : ERes W n σ e res) {X : CTy × Int} (hv : res.value W σ.mem = some X) :
    Sound W σ n (evalNegation W.toDecls e) fun σ' n' e => Keep n σ σ' ∧ EVal W n' σ' e (.int .int) (if X.2 = 0 then 1 else 0) := by
  have other : Sound W σ n (do
      let v ← eval e
      evalEq W.toDecls .eq (varInt 0) v) fun σ' n' e => Keep n σ σ' ∧ EVal W n' σ' e (.int .int) (if X.2 = 0 then 1 else 0) := by
    refine .bind (evalRes h) ?_
    rintro σ1 n1 v l1 ⟨k1, hv1⟩
    have h0 : VRes W n1 σ1 (varInt 0) (.rv (.int .int) 0) := int_imm (b := .int) ⟨_, _, rfl, by omega, by omega⟩
    have hx : res.value W σ1.mem = some X := by rw [k1.mem]; exact hv
    have hm : World.compare .eq (.int .int, 0) X = some (.rv (.int .int) (if X.2 = 0 then 1 else 0)) := by
      obtain ⟨tx, x⟩ := X
      obtain ⟨v', hv', hf⟩ : ∃ v', v' = x ∧ Fit tx v' := by
        obtain ⟨_, _, _, _, _, _, _, h⟩ := rvalue_sound hW hv1 hx
        exact ⟨x, rfl, h.2.fit⟩
      subst hv'
      have e : ∀ y : Int, (Compare.Rel.eq.holds (some (Ord.compare 0 y)) = true) ↔ y = 0 := by
        intro y
        rw [compare_eq]
        simp only [Compare.Rel.holds]
        grind
      cases tx with
      | int b =>
        have z : conv (Basic.int.common b) 0 = 0 ∧ (conv (Basic.int.common b) v' = 0 ↔ v' = 0) := by
          have hf : fits b v' := hf
          rcases Fold.isInt_cases (Fold.fits_isInt hf) with h | h | h | h | h | h | h | h | h <;> subst h <;>
            obtain ⟨lo, hi, hr, h1, h2⟩ := hf <;> cases hr <;>
              exact ⟨Fold.conv_self ⟨_, _, rfl, by omega, by omega⟩, by rw [Fold.conv_self ⟨_, _, rfl, by omega, by omega⟩]⟩
        simp only [World.compare, e, z.1, z.2]
      | ptr t => simp only [World.compare, e, true_or, and_self, if_true]
      | _ => exact hf.elim
    refine (evalEq_sound hW (o := .eq) (.inl ⟨rfl, rfl⟩) h0 hv1 rfl hx hm).weaken ?_
    rintro σ2 n2 e' l2 ⟨k2, he⟩
    exact ⟨k1.trans k2 l1, he⟩
  have flip : ∀ {op op' : Fold.Op} {o o' : Compare.Op} {t l r l' r'}, e = .bin op t l r → Expr.arithOp op = none → Expr.arithOp op' = none →
      Expr.compareOp op = some o → Expr.compareOp op' = some o' → (l' = l ∧ r' = r ∧ (∀ x y : Int, o'.holds (some (compare x y)) = !o.holds (some (compare x y))) ∨
        l' = r ∧ r' = l ∧ ∀ x y : Int, o'.holds (some (compare y x)) = !o.holds (some (compare x y))) →
      Sound W σ n (pure (.bin op' t l' r')) fun σ' n' e => Keep n σ σ' ∧ EVal W n' σ' e (.int .int) (if X.2 = 0 then 1 else 0) := by
    rintro op op' o o' t l r l' r' rfl a1 a2 c1 c2 hlr
    cases res with
    | lv t a => obtain ⟨v, e, _⟩ := h; cases e
    | rv t' x =>
      have h : EVal W n σ _ t' x := h
      cases hv
      have ht := h.cmp _ _ _ _ _ rfl c1
      subst ht
      have hx := h.value
      rw [cmp_value a1 c1] at hx
      simp only [Option.bind_eq_bind, Option.bind_eq_some_iff, Option.some.injEq] at hx
      obtain ⟨y, hy, z, hz, hx⟩ := hx
      have fit : Fit (.int .int) (if x = 0 then 1 else 0) := by split_ifs <;> exact ⟨_, _, rfl, by omega, by omega⟩
      obtain ⟨s1, s2, -, s3⟩ := h.shape
      obtain ⟨b, q1, q2, q3⟩ := s3 _ c1
      rcases hlr with ⟨rfl, rfl, hh⟩ | ⟨rfl, rfl, hh⟩
      · refine .pure ⟨Keep.refl _ _, rfl, rfl, ⟨s1, s2, (fun _ ho => by rw [a2] at ho; cases ho), fun _ _ => ⟨b, q1, q2, q3⟩⟩, ?_, fit, fun _ _ _ _ _ e _ => by cases e; rfl⟩
        rw [cmp_value a2 c2]
        simp only [Option.bind_eq_bind, hy, hz, Option.bind_some, Option.some.injEq, hh]
        subst hx
        cases o.holds (some (compare y z)) <;> simp
      · refine .pure ⟨Keep.refl _ _, rfl, rfl, ⟨s2, s1, (fun _ ho => by rw [a2] at ho; cases ho), fun _ _ => ⟨b, q1, q3, q2⟩⟩, ?_, fit, fun _ _ _ _ _ e _ => by cases e; rfl⟩
        rw [cmp_value a2 c2]
        simp only [Option.bind_eq_bind, hy, hz, Option.bind_some, Option.some.injEq, hh]
        subst hx
        cases o.holds (some (compare y z)) <;> simp
  unfold evalNegation
  split
  · exact flip rfl rfl rfl rfl rfl (.inl ⟨rfl, rfl, fun x y => by simp only [Compare.Op.holds, Bool.not_not]⟩)
  · exact flip rfl rfl rfl rfl rfl (.inl ⟨rfl, rfl, fun x y => by simp only [Compare.Op.holds, Bool.not_not]⟩)
  · exact flip rfl rfl rfl rfl rfl (.inr ⟨rfl, rfl, fun x y => by rw [compare_eq, compare_eq]; simp only [Compare.Op.holds]; split_ifs <;> first | rfl | omega⟩)
  · exact flip rfl rfl rfl rfl rfl (.inr ⟨rfl, rfl, fun x y => by rw [compare_eq, compare_eq]; simp only [Compare.Op.holds]; split_ifs <;> first | rfl | omega⟩)
  · exact other

end

end Verif.Ptr
