import Verif.Flow.Spec
import Verif.Expr.RunLemmas

/-!
# The code of values, tests and results
-/

namespace Verif.Flow

open Verif.Abi (M AX DX CX R11 Place isTempInt)
open Verif.Conv (CM Val)
open Verif.Arith (Result Calm Operand)
open Verif.Types (scalarSize)
open Verif.Types.Spec (Basic)
open Verif.Compare (Flags CC runJumps branches truthBranches)
open Verif.Fold (tyOf isInt isOpTy isSigned)
open Verif.Fold.Spec (conv fits)
open Verif.Expr

variable {Γ : Nat → Basic} {N : Nat} {L : Layout} {bp : Int}

theorem Result.congr {s t : CM} {r w : Nat} {a b : Int} (h : Result s t r w a) (e : a % 256 ^ w = b % 256 ^ w) : Result s t r w b :=
  ⟨h.same, h.low.trans e, h.reg, h.mem⟩

/-- `compile_expression`. -/
theorem expr_ok {M n : Nat} {s : CM} {σ : Env} {e : IExp} {b : Basic} {x : Int} (enc) (f : Option Flags)
    (hL : L.Good Γ N M bp) (hI : Inv L Γ N M bp s σ) (hn : n ≤ M) (h : EHolds Γ N n σ e b x) :
    ∃ c r, exprCode L e = some (c, r) ∧ (r = AX ∨ r = DX) ∧ ∃ t g, run enc (s, f) c = some (t, g) ∧ Result s t r (size b) x := by
  have up : ∀ {v : IVar} {a : Basic} {y : Int}, VHolds Γ N n σ v a y → VHolds Γ N M σ v a y := fun h => h.keep (Keep.refl _ _) hn
  have hib := Fold.fits_isInt h.fits
  cases h with
  | @same v _ _ hv =>
    obtain ⟨ov, vv, zv, sv, fv, av⟩ := operand hL hI (up hv)
    obtain ⟨c, g, t, e, h⟩ := Arith.load_sets (d := AX) enc ov (by decide) hI.skip
    obtain ⟨t', g', e', rfl⟩ := run_map (f := f) e
    rw [vv, zv] at h
    refine ⟨c.map .a, AX, ?_, .inl rfl, t', g', e', h.same, h.low, (h.calm (by decide)).reg, h.mem⟩
    simp only [Arith.load, zv] at g
    simp only [exprCode, size_tyOf hib, g]; rfl
  | @conv v a _ y hv hi _ hb ha =>
    obtain ⟨ov, vv, zv, sv, fv, av⟩ := operand hL hI (up hv)
    have hz := isSize_size hib
    have hw' : (if size b < 4 then 4 else size b) = 4 ∨ (if size b < 4 then 4 else size b) = 8 := by
      unfold Conv.IsSize at hz; split_ifs <;> omega
    have hle : size b ≤ (if size b < 4 then 4 else size b) := by split_ifs <;> omega
    obtain ⟨c, g, t, e, h⟩ := Arith.loadInt_sets enc ov hI.skip hw' (by
      cases v with
      | imm i => exact (hi i rfl).elim
      | _ => simp [IVar.val]) (fun p hp => (av p hp).elim)
    obtain ⟨t', g', e', rfl⟩ := run_map (f := f) e
    rw [vv] at h
    refine ⟨c.map .a, AX, ?_, .inl rfl, t', g', e', h.same, (Conv.emod_pow_le hle h.low).trans (conv_low hib hb y).symm,
      (h.calm (by decide)).reg, h.mem⟩
    simp only [exprCode, size_tyOf hib, g]; rfl
  | @not v _ y hv hb =>
    obtain ⟨ov, vv, zv, sv, fv, av⟩ := operand hL hI (up hv)
    obtain ⟨c, g, t, e, h⟩ := Arith.not_outcome (t := none) enc hI.skip ov (by simp)
    obtain ⟨t', g', e', rfl⟩ := run_map (f := f) e
    rw [vv, zv] at h
    exact ⟨c.map .a, AX, by simp only [exprCode, g]; rfl, .inl rfl, t', g', e', Result.congr h (conv_low hib hb.isInt.2 _).symm⟩
  | @arith op o l r a _ y z _ ho hb hl hr ha hm =>
    obtain ⟨ol, vl, zl, sl, fl, al⟩ := operand hL hI (up hl)
    obtain ⟨or, vr, zr, sr, fr, ar⟩ := operand hL hI (up hr)
    obtain ⟨c, g, u, e, h⟩ := Arith.binary_outcome (t := none) (op := o) (c := x) enc hI.skip ol or
      (opTy_size hb) zl sl (by
        rcases ha with ha | ha | rfl
        · exact .inl ha
        · exact .inr (.inl ha)
        · exact .inr (.inr ⟨zr, sr⟩)) (by simp) (fun _ hf => (hf fl).elim) (by simp) (by rw [vl, vr]; exact hm)
    obtain ⟨t, g', e', rfl⟩ := run_map (f := f) e
    refine ⟨c.map .a, o.result, ?_, by cases o <;> first | exact .inl rfl | exact .inr rfl, t, g', e', h⟩
    simp only [exprCode, ho, size_tyOf hib, Fold.isSigned_tyOf hib, g]; rfl
  | @rel op o l r a y z ho ha hl hr =>
    obtain ⟨ol, vl, zl, sl, fl, al⟩ := operand hL hI (up hl)
    obtain ⟨or, vr, zr, sr, fr, ar⟩ := operand hL hI (up hr)
    obtain ⟨c, cc, g, t, fg, e, h, hc⟩ := compare_result (op := o) enc f ol or fl fr (zl.trans zr.symm) (sl.trans sr.symm)
      (by rw [zl]; exact opTy_size ha) hI.skip
    obtain ⟨t', f', e', h'⟩ := setValue_result (g := fg) (cc := cc) enc (s := t) (by rw [h.same]; exact hI.skip)
    rw [vl, vr] at hc
    rw [hc] at h'
    have hno : arithOp op = none := by cases op <;> first | rfl | cases ho
    exact ⟨c ++ setValue cc, AX, by simp only [exprCode, hno, ho, g]; rfl, .inl rfl, t', f', run_two e e',
      by rw [h'.same, h.same], h'.low, fun r hr => (h'.reg r hr).trans (h.calm.reg r hr), h'.mem.trans h.calm.mem⟩

/-! ### Tests -/

/-- The flags that a test leaves. -/
def Test.flags (t : Test) (s : M) : Flags := compareFlags t.w (t.d.value s t.w) (t.s.value s t.w)

theorem splitCmp_append : ∀ (a : List XIns) (w : Nat) (d s : Arg), splitCmp (a ++ [.cmp w d s]) = some (a, w, d, s)
  | [], w, d, s => rfl
  | i :: a, w, d, s => by
    have ih := splitCmp_append a w d s
    cases h : a ++ [XIns.cmp w d s] with
    | nil => simp at h
    | cons j r =>
      rw [h] at ih
      show splitCmp (i :: (a ++ [XIns.cmp w d s])) = _
      rw [h]
      cases i with
      | a i => simp only [splitCmp, ih]; rfl
      | cmp w' d' s' => simp only [splitCmp, ih]; rfl
      | setcc c r => simp only [splitCmp, ih]; rfl

theorem compareImm_cmp {w : Nat} {v : Val} {n : Int} {c' : List XIns} (h : compareImm w v n = some c') :
    ∃ a d s, c' = a ++ [.cmp w d s] := by
  unfold compareImm at h
  split at h
  · cases h; exact ⟨[], _, _, rfl⟩
  · simp only [Option.bind_eq_bind, Option.bind_eq_some_iff, Option.some.injEq] at h
    obtain ⟨_, _, rfl⟩ := h
    exact ⟨_, _, _, rfl⟩

theorem compareBoth_cmp {w : Nat} {l r : Val} {c' : List XIns} (h1 : compareBoth w l r = some c') : ∃ a d s, c' = a ++ [.cmp w d s] := by
  unfold compareBoth at h1
  split at h1 <;> simp only [Option.bind_eq_bind, Option.bind_eq_some_iff, Option.some.injEq] at h1
  · obtain ⟨_, _, rfl⟩ := h1; exact ⟨_, _, _, rfl⟩
  · obtain ⟨_, _, rfl⟩ := h1; exact ⟨_, _, _, rfl⟩
  · obtain ⟨_, _, rfl⟩ := h1; exact ⟨_, _, _, rfl⟩
  · obtain ⟨_, _, _, _, rfl⟩ := h1; exact ⟨_, _, _, rfl⟩

/-- A comparison ends with `CMP`. -/
theorem compareCode_inv {op : Compare.Op} {l r : Val} {c : List XIns} {cc : CC} (h : compareCode op l r = some (c, cc)) :
    (∃ a d s, c = a ++ [.cmp l.sz d s]) ∧ cc = (Compare.intCompare (kindOf l) op (l.sz == 8) (formOf l) (formOf r)).2 := by
  unfold compareCode at h
  simp only [Option.bind_eq_bind] at h
  split_ifs at h <;> rw [Option.bind_eq_some_iff] at h <;> obtain ⟨c', h1, h2⟩ := h <;>
    simp only [Option.some.injEq, Prod.mk.injEq] at h2 <;> obtain ⟨rfl, rfl⟩ := h2 <;> refine ⟨?_, rfl⟩
  · exact compareImm_cmp h1
  · exact compareImm_cmp h1
  · exact compareBoth_cmp h1

theorem compareCode_cc {op : Compare.Op} {l r : Val} {c : List XIns} {cc : CC} (h : compareCode op l r = some (c, cc)) :
    cc ≠ .p ∧ cc ≠ .np := by
  rw [(compareCode_inv h).2]
  have : ∀ (k : Compare.Kind) (o : Compare.Op) (w : Bool) (l r : Compare.Form), (Compare.intCompare k o w l r).2 ≠ .p ∧
      (Compare.intCompare k o w l r).2 ≠ .np := by
    intro k o w l r
    cases k <;> cases o <;> cases w <;> (rcases l with _ | ⟨_ | _⟩ | _) <;> (rcases r with _ | ⟨_ | _⟩ | _) <;> decide
  exact this _ _ _ _ _

theorem branches_eval {v : Val} {cc : CC} (h : cc ≠ .p ∧ cc ≠ .np) (f : Flags) : runJumps f (branches (kindOf v) cc) = cc.eval f := by
  unfold kindOf
  obtain ⟨h1, h2⟩ := h
  rcases f with ⟨a, b, c, d, e⟩
  revert h1 h2
  cases v.signed <;> cases cc <;> intro h1 h2 <;> first
    | exact absurd rfl h1
    | exact absurd rfl h2
    | (cases a <;> cases b <;> cases c <;> cases d <;> cases e <;> rfl)

theorem truth_flags {w : Nat} {a : Int} (hw : 0 < w) : runJumps (compareFlags w a 0) (truthBranches .signed) = decide (a % 256 ^ w ≠ 0) := by
  unfold compareFlags
  rw [show BitVec.ofInt (8 * w) 0 = 0 from by simp]
  rw [(Compare.C41_truth _ _ _ none).1]
  congr 1
  apply propext
  apply not_congr
  rw [← BitVec.toNat_inj, BitVec.toNat_ofInt]
  have e : (256 : Int) ^ w = ((2 ^ (8 * w) : Nat) : Int) := by push_cast; rw [pow_mul]; norm_num
  rw [e]
  have := Int.emod_nonneg a (b := ((2 ^ (8 * w) : Nat) : Int)) (by positivity)
  simp only [BitVec.toNat_ofNat, Nat.zero_mod, BitVec.ofNat_eq_ofNat]
  omega

theorem fits_zero {b : Basic} {x : Int} (h : fits b x) : x % 256 ^ size b = 0 ↔ x = 0 := by
  have hh := has_fits h
  have hz := isSize_size (Fold.fits_isInt h)
  unfold Arith.Has at hh
  generalize size b = w at *
  generalize b.isSigned = sg at *
  rcases hz with rfl | rfl | rfl | rfl <;> cases sg <;> simp at hh <;> omega

/-- A test leads to the right block. -/
theorem test_ok {M n : Nat} {s : CM} {σ : Env} {e : IExp} {b : Basic} {x : Int} (enc) (f : Option Flags)
    (hL : L.Good Γ N M bp) (hI : Inv L Γ N M bp s σ) (hn : n ≤ M) (h : EHolds Γ N n σ e b x) :
    ∃ c T, testCode L e = some (c, T) ∧ ∃ t g, run enc (s, f) c = some (t, g) ∧ Same s t ∧
      runJumps (T.flags t.m) T.jumps = decide (x ≠ 0) := by
  have hz := isSize_size (Fold.fits_isInt h.fits)
  have tr : ∃ c T, testCode.truth L e = some (c, T) ∧ ∃ t g, run enc (s, f) c = some (t, g) ∧ Same s t ∧
      runJumps (T.flags t.m) T.jumps = decide (x ≠ 0) := by
    obtain ⟨c, r, g, hr, t, f', e', h'⟩ := expr_ok enc f hL hI hn h
    refine ⟨c, _, by simp only [testCode.truth, g]; rfl, t, f', e', ⟨h'.same, h'.mem, h'.reg⟩, ?_⟩
    have hs : scalarSize e.ty = size b := by rw [h.ty]; exact size_tyOf (Fold.fits_isInt h.fits)
    have h0 : Abi.encoded (size b) 0 = 0 := Abi.encoded_of fun _ => ⟨by omega, by omega⟩
    simp only [Test.flags, Arg.value, hs, h0]
    rw [truth_flags (by rcases hz with h | h | h | h <;> omega), h'.low]
    congr 1
    exact propext (not_congr (fits_zero h.fits))
  cases h with
  | @same v _ _ hv => exact tr
  | @conv v a _ y hv hi _ hb ha => exact tr
  | @not v _ y hv hb => exact tr
  | @arith op o l r a _ y z _ ho hb hl hr ha hm =>
    have hno : compareOp op = none := by cases op <;> first | rfl | cases ho
    simp only [testCode, hno]
    exact tr
  | @rel op o l r a y z ho ha hl hr =>
    obtain ⟨ol, vl, zl, sl, fl, al⟩ := operand hL hI (hl.keep (Keep.refl _ _) hn)
    obtain ⟨or, vr, zr, sr, fr, ar⟩ := operand hL hI (hr.keep (Keep.refl _ _) hn)
    obtain ⟨c, cc, g, t, fg, e, h, hc⟩ := compare_result (op := o) enc f ol or fl fr (zl.trans zr.symm) (sl.trans sr.symm)
      (by rw [zl]; exact opTy_size ha) hI.skip
    obtain ⟨c', d, q, rfl⟩ := (compareCode_inv g).1
    have hcc := compareCode_cc g
    rw [run_append] at e
    rw [Option.bind_eq_some_iff] at e
    obtain ⟨⟨t1, f1⟩, e1, e2⟩ := e
    simp only [run, step, Option.bind_some, Option.some.injEq, Prod.mk.injEq] at e2
    obtain ⟨rfl, rfl⟩ := e2
    refine ⟨c', ⟨(l.val L).sz, d, q, branches (kindOf (l.val L)) cc⟩, ?_, t1, f1, e1, h, ?_⟩
    · simp only [testCode, ho, g, Option.bind_eq_bind, Option.bind_some, splitCmp_append]
    · simp only [Test.flags]
      rw [branches_eval hcc, hc, vl, vr]
      cases o.holds (some (compare y z)) <;> rfl

end Verif.Flow
