import Verif.Expr.Spec
import Verif.Arith.ValueLemmas
import Verif.Props.C31

/-!
# The code of one statement
-/

namespace Verif.Expr

open Verif.Abi (M Ea Ins Src Place AX CX DX R11 BP le val sval rd isTempInt merged)
open Verif.Conv (CM Val IsSize CIns bytes)
open Verif.Arith (AIns Operand Target Assigned Result Outcome Has scratch Sets Calm)
open Verif.Compare (Flags CC Form Kind)

theorem run_append (enc) : ∀ (a b : List XIns) (s : XM), run enc s (a ++ b) = (run enc s a).bind fun t => run enc t b
  | [], _, _ => rfl
  | i :: a, b, s => by
    simp only [List.cons_append, run]
    cases h : step enc s i with
    | none => rfl
    | some t => simp only [Option.bind_some]; exact run_append enc a b t

theorem run_two {enc} {s t u : XM} {a b : List XIns} (h : run enc s a = some t) (g : run enc t b = some u) :
    run enc s (a ++ b) = some u := by
  rw [run_append, h]; exact g

theorem run_arith {enc} : ∀ (c : List AIns) {s u : CM} (f : Option Flags), Arith.run enc s c = some u →
    ∃ g, run enc (s, f) (c.map .a) = some (u, g)
  | [], s, u, f, h => by
    simp only [Arith.run, Option.some.injEq] at h
    subst h
    exact ⟨f, rfl⟩
  | i :: c, s, u, f, h => by
    simp only [Arith.run, Option.bind_eq_bind] at h
    cases e : Arith.step enc s i with
    | none => rw [e] at h; exact absurd h (by simp)
    | some t =>
      rw [e, Option.bind_some] at h
      obtain ⟨g, hg⟩ := run_arith c none h
      exact ⟨g, by simp only [List.map_cons, run, step, e, Option.map_some, Option.bind_some]; exact hg⟩

/-! ### Comparisons -/

theorem ofInt_congr {w : Nat} {a b : Int} (h : a % 256 ^ w = b % 256 ^ w) : BitVec.ofInt (8 * w) a = BitVec.ofInt (8 * w) b := by
  have e : (256 : Int) ^ w = ((2 ^ (8 * w) : Nat) : Int) := by push_cast; rw [pow_mul]; norm_num
  rw [e] at h
  apply BitVec.eq_of_toNat_eq
  rw [BitVec.toNat_ofInt, BitVec.toNat_ofInt, h]

theorem compare_cast (m n : Nat) : compare m n = compare (m : Int) (n : Int) := by
  simp only [compare, compareOfLessAndEq]
  split_ifs <;> first | rfl | omega

theorem intCmp_ofInt {w : Nat} {sg : Bool} {a b : Int} (hw : 0 < w) (ha : Has w sg a) (hb : Has w sg b) :
    Compare.intCmp sg (BitVec.ofInt (8 * w) a) (BitVec.ofInt (8 * w) b) = compare a b := by
  have hn : ∀ x : Int, Has w false x → (((BitVec.ofInt (8 * w) x).toNat : Nat) : Int) = x := by
    intro x hx
    simp only [Has, Bool.false_eq_true, if_false] at hx
    rw [BitVec.toNat_ofInt]
    have : x % ((2 ^ (8 * w) : Nat) : Int) = x := Int.emod_eq_of_lt hx.1 (by push_cast; exact hx.2)
    rw [this]
    omega
  have hi : ∀ x : Int, Has w true x → (BitVec.ofInt (8 * w) x).toInt = x := by
    intro x hx
    simp only [Has, if_true] at hx
    have h2 : ((2 ^ (8 * w) : Nat) : Int) = 2 * 2 ^ (8 * w - 1) := by
      push_cast; rw [← Int.pow_succ', show 8 * w - 1 + 1 = 8 * w by omega]
    rw [BitVec.toInt_ofInt]
    apply Int.bmod_eq_of_le
    · omega
    · omega
  unfold Compare.intCmp
  cases sg
  · rw [if_neg (by decide), compare_cast, hn a ha, hn b hb]
  · rw [if_pos rfl, hi a ha, hi b hb]

/-- What a comparison of the operands, either way, tells. -/
theorem flags_tell {w : Nat} {sg : Bool} {op : Compare.Op} {wide : Bool} {lf rf : Form} {a b d r : Int} (hw : w = 4 ∨ w = 8)
    (ha : Has w sg a) (hb : Has w sg b)
    (hd : d % 256 ^ w = Compare.pick a b (Compare.intCompare (if sg then .signed else .unsigned) op wide lf rf).1.dst % 256 ^ w)
    (hr : r % 256 ^ w = Compare.pick a b (Compare.intCompare (if sg then .signed else .unsigned) op wide lf rf).1.src % 256 ^ w) :
    (Compare.intCompare (if sg then .signed else .unsigned) op wide lf rf).2.eval (compareFlags w d r) = op.holds (some (compare a b)) := by
  have hp : ∀ (x y : Int) (z : Compare.Side), BitVec.ofInt (8 * w) (Compare.pick x y z) =
      Compare.pick (BitVec.ofInt (8 * w) x) (BitVec.ofInt (8 * w) y) z := fun x y z => by cases z <;> rfl
  unfold compareFlags
  rw [ofInt_congr hd, ofInt_congr hr, hp, hp]
  have hreal : (if sg then Kind.signed else Kind.unsigned).isReal = false := by cases sg <;> rfl
  have h := (Compare.C41_integer (if sg then .signed else .unsigned) hreal op wide lf rf (8 * w)
    (by unfold Compare.isWidth; omega) (BitVec.ofInt (8 * w) a) (BitVec.ofInt (8 * w) b)
    (parity (Compare.pick (BitVec.ofInt (8 * w) a) (BitVec.ofInt (8 * w) b) (Compare.intCompare (if sg then .signed else .unsigned) op wide lf rf).1.dst -
      Compare.pick (BitVec.ofInt (8 * w) a) (BitVec.ofInt (8 * w) b) (Compare.intCompare (if sg then .signed else .unsigned) op wide lf rf).1.src))).2
  have hs : ∀ c, Compare.setValue (if sg then .signed else .unsigned) c = .one c := fun c => by cases sg <;> rfl
  have hk : Compare.isSigned (if sg then .signed else .unsigned) = sg := by cases sg <;> rfl
  rw [hs, hk, intCmp_ofInt (by omega) ha hb] at h
  exact h

/-- The operand of `CMP` has the bits of the variable. -/
theorem direct_low {s t : M} {v : Val} {a : Arg} (hq : Calm s t) (hv : Operand s v) (hf : v.field = none) (h : direct v = some a) :
    a.value t v.sz % 256 ^ v.sz = v.value s % 256 ^ v.sz := by
  unfold direct at h
  split at h
  · rename_i r e
    simp only [Option.some.injEq] at h
    subst h
    show t.reg r % _ = _
    rw [hq.reg r (Arith.temp_scratch (hv.temp r e).1)]
    exact Arith.temp_low hv e
  · rename_i p hp e
    cases hea : p.ea with
    | none => rw [hea] at h; simp at h
    | some ea =>
      rw [hea] at h
      simp only [Option.bind_eq_bind, Option.bind_some, Option.some.injEq] at h
      subst h
      show val (rd t.mem (t.ea ea) v.sz) % _ = _
      rw [Arith.place_low hq hv hf e hea, Int.emod_emod_of_dvd _ (dvd_refl _)]
  · simp at h

/-- A state in which only scratch registers are different. -/
structure Same (s t : CM) : Prop where
  same : t = { s with m := t.m }
  calm : Calm s.m t.m

theorem Same.refl (s : CM) : Same s s := ⟨rfl, Calm.refl _⟩

theorem compareImm_flags {s : CM} {v : Val} {n : Int} (enc) (f : Option Flags) (hv : Operand s.m v) (hf : v.field = none) (hk : s.skip = none)
    (h8 : v.sz < 8) :
    ∃ code, compareImm v.sz v n = some code ∧ ∃ t d, run enc (s, f) code = some (t, some (compareFlags v.sz d n)) ∧ Same s t ∧
      d % 256 ^ v.sz = v.value s.m % 256 ^ v.sz := by
  have hn : ∀ s : Abi.M, Arg.value s v.sz (.imm n) = n := fun _ => Abi.encoded_of fun e => by omega
  unfold compareImm
  cases hd : direct v with
  | some a =>
    exact ⟨_, rfl, s, a.value s.m v.sz, by simp only [run, step, hn]; rfl, Same.refl s, direct_low (Calm.refl _) hv hf hd⟩
  | none =>
    obtain ⟨c, g, t, e, h⟩ := Arith.load_sets (d := AX) enc hv (by decide) hk
    obtain ⟨f', e'⟩ := run_arith c f e
    refine ⟨_, by simp only [g]; rfl, t, t.m.reg AX, run_two e' (by simp only [run, step, hn]; rfl), ⟨h.same, h.calm (by decide)⟩, h.low⟩

theorem compareBoth_flags {s : CM} {l r : Val} (enc) (f : Option Flags) (hl : Operand s.m l) (hr : Operand s.m r) (fl : l.field = none)
    (fr : r.field = none) (he : l.sz = r.sz) (hk : s.skip = none) :
    ∃ code, compareBoth l.sz l r = some code ∧ ∃ t d b, run enc (s, f) code = some (t, some (compareFlags l.sz d b)) ∧ Same s t ∧
      d % 256 ^ l.sz = l.value s.m % 256 ^ l.sz ∧ b % 256 ^ l.sz = r.value s.m % 256 ^ l.sz := by
  have lft : ∀ a, direct l = some a → ∃ code, (do some ((← Arith.load r AX).map .a ++ [.cmp l.sz a (.reg AX)])) = some code ∧
      ∃ t d b, run enc (s, f) code = some (t, some (compareFlags l.sz d b)) ∧ Same s t ∧
        d % 256 ^ l.sz = l.value s.m % 256 ^ l.sz ∧ b % 256 ^ l.sz = r.value s.m % 256 ^ l.sz := by
    intro a ha
    obtain ⟨c, g, t, e, h⟩ := Arith.load_sets (d := AX) enc hr (by decide) hk
    obtain ⟨f', e'⟩ := run_arith c f e
    have hq := h.calm (by decide)
    refine ⟨_, by simp only [g]; rfl, t, a.value t.m l.sz, t.m.reg AX, run_two e' rfl, ⟨h.same, hq⟩, direct_low hq hl fl ha, ?_⟩
    rw [he]; exact h.low
  have rgt : ∀ a, direct r = some a → ∃ code, (do some ((← Arith.load l AX).map .a ++ [.cmp l.sz (.reg AX) a])) = some code ∧
      ∃ t d b, run enc (s, f) code = some (t, some (compareFlags l.sz d b)) ∧ Same s t ∧
        d % 256 ^ l.sz = l.value s.m % 256 ^ l.sz ∧ b % 256 ^ l.sz = r.value s.m % 256 ^ l.sz := by
    intro a ha
    obtain ⟨c, g, t, e, h⟩ := Arith.load_sets (d := AX) enc hl (by decide) hk
    obtain ⟨f', e'⟩ := run_arith c f e
    have hq := h.calm (by decide)
    refine ⟨_, by simp only [g]; rfl, t, t.m.reg AX, a.value t.m l.sz, run_two e' rfl, ⟨h.same, hq⟩, h.low, ?_⟩
    rw [he]; exact direct_low hq hr fr ha
  have two : ∃ code, (do some ((← Arith.load l AX).map .a ++ (← Arith.load r CX).map .a ++ [.cmp l.sz (.reg AX) (.reg CX)])) = some code ∧
      ∃ t d b, run enc (s, f) code = some (t, some (compareFlags l.sz d b)) ∧ Same s t ∧
        d % 256 ^ l.sz = l.value s.m % 256 ^ l.sz ∧ b % 256 ^ l.sz = r.value s.m % 256 ^ l.sz := by
    obtain ⟨c1, c2, g1, g2, t, e, h1, h2, h3, h4⟩ := Arith.load_two enc hl hr hk
    obtain ⟨f', e'⟩ := run_arith _ f e
    rw [List.map_append] at e'
    refine ⟨_, by simp only [g1, g2]; rfl, t, t.m.reg AX, t.m.reg CX, run_two e' rfl, ⟨h1, h2⟩, h3, ?_⟩
    rw [he]; exact h4
  unfold compareBoth
  split
  · rename_i _ _ _ ha; exact lft _ (by assumption)
  · exact rgt _ (by assumption)
  · exact rgt _ (by assumption)
  · exact two

theorem formOf_imm {v : Val} (h : formOf v = .imm) : v.src = .imm (constant v) := by
  unfold formOf at h
  unfold constant
  split at h <;> simp_all

theorem compare_result {s : CM} {op : Compare.Op} {l r : Val} (enc) (f : Option Flags) (hl : Operand s.m l) (hr : Operand s.m r)
    (fl : l.field = none) (fr : r.field = none) (he : l.sz = r.sz) (hs : l.signed = r.signed) (hw : l.sz = 4 ∨ l.sz = 8) (hk : s.skip = none) :
    ∃ code cc, compareCode op l r = some (code, cc) ∧ ∃ t g, run enc (s, f) code = some (t, some g) ∧ Same s t ∧
      cc.eval g = op.holds (some (compare (l.value s.m) (r.value s.m))) := by
  have ha := Arith.value_has hl
  have hb := Arith.value_has hr
  rw [← he, ← hs] at hb
  unfold compareCode
  simp only
  have hside : (Compare.intCompare (kindOf l) op (l.sz == 8) (formOf l) (formOf r)).1 =
      if formOf l = .imm ∧ l.sz < 8 then ⟨.r, .l⟩ else ⟨.l, .r⟩ := by
    have e8 : (l.sz == 8) = false ↔ l.sz < 8 := by rcases hw with h | h <;> rw [h] <;> decide
    unfold Compare.intCompare
    simp only [e8]
    split_ifs
    · cases formOf r with
      | direct b => cases b <;> rfl
      | _ => rfl
    · cases formOf l with
      | direct b => cases b <;> rfl
      | _ => rfl
    · cases formOf l with
      | direct b => cases b <;> rfl
      | _ =>
        cases formOf r with
        | direct b => cases b <;> rfl
        | _ => rfl
  by_cases h1 : formOf l = .imm ∧ l.sz < 8
  · rw [if_pos h1] at hside ⊢
    rw [he]
    obtain ⟨c, g, t, d, e, h, hd⟩ := compareImm_flags (n := constant l) enc f hr fr hk (by omega)
    refine ⟨c, _, by simp only [g]; rfl, t, _, e, h, ?_⟩
    rw [← he] at hd ⊢
    refine flags_tell hw ha hb ?_ ?_
    · show d % _ = Compare.pick _ _ (Compare.intCompare (kindOf l) op _ _ _).1.dst % _
      rw [hside]; exact hd
    · show constant l % _ = Compare.pick _ _ (Compare.intCompare (kindOf l) op _ _ _).1.src % _
      rw [hside]; exact (Arith.constant_low hl (formOf_imm h1.1)).symm
  · rw [if_neg h1] at hside ⊢
    by_cases h2 : formOf r = .imm ∧ l.sz < 8
    · rw [if_pos h2]
      obtain ⟨c, g, t, d, e, h, hd⟩ := compareImm_flags (n := constant r) enc f hl fl hk (by omega)
      refine ⟨c, _, by simp only [g]; rfl, t, _, e, h, ?_⟩
      refine flags_tell hw ha hb ?_ ?_
      · show d % _ = Compare.pick _ _ (Compare.intCompare (kindOf l) op _ _ _).1.dst % _
        rw [hside]; exact hd
      · show constant r % _ = Compare.pick _ _ (Compare.intCompare (kindOf l) op _ _ _).1.src % _
        rw [hside, he]; exact (Arith.constant_low hr (formOf_imm h2.1)).symm
    · rw [if_neg h2]
      obtain ⟨c, g, t, d, b, e, h, hd, hb'⟩ := compareBoth_flags enc f hl hr fl fr he hk
      refine ⟨c, _, by simp only [g]; rfl, t, _, e, h, ?_⟩
      refine flags_tell hw ha hb ?_ ?_
      · show d % _ = Compare.pick _ _ (Compare.intCompare (kindOf l) op _ _ _).1.dst % _
        rw [hside]; exact hd
      · show b % _ = Compare.pick _ _ (Compare.intCompare (kindOf l) op _ _ _).1.src % _
        rw [hside]; exact hb'

/-- `SETcc` and `MOVZX`. -/
theorem setValue_result {s : CM} {g : Flags} {cc : CC} (enc) (hk : s.skip = none) :
    ∃ t f', run enc (s, some g) (setValue cc) = some (t, f') ∧ Result s t AX 4 (if cc.eval g then 1 else 0) := by
  have hb : ∀ b : Bool, val (le 1 ((Arith.set s.m 1 AX (if b then 1 else 0)).reg AX)) = if b then 1 else 0 := by
    intro b
    have h := Arith.set_low s.m 1 AX (if b then 1 else 0)
    rw [Abi.val_le_emod, h]
    cases b <;> decide
  refine ⟨{ s with m := M.set (Arith.set s.m 1 AX (if cc.eval g then 1 else 0)) AX (merged false 4 (M.reg (Arith.set s.m 1 AX (if cc.eval g then 1 else 0)) AX) (if cc.eval g then 1 else 0)) }, none, ?_, rfl, ?_, ?_, rfl⟩
  · simp only [setValue, run, step, Option.map_some, Option.bind_some, Arith.step, Conv.step, hk, Conv.exec, Abi.step, hb]
    rfl
  · simp only [Abi.set_reg, if_true, merged, Bool.false_eq_true, if_false]
    rw [Int.emod_emod_of_dvd _ (dvd_refl _)]
  · intro r hr
    have : r ≠ AX := fun e => hr (e ▸ by decide)
    simp only [Abi.set_reg, if_neg this, Arith.set]

/-- The code of `x = a op b` where the operator is a comparison. -/
theorem compare_outcome {s : CM} {op : Compare.Op} {x l r : Val} (enc) (f : Option Flags) (hl : Operand s.m l) (hr : Operand s.m r)
    (fl : l.field = none) (fr : r.field = none) (he : l.sz = r.sz) (hs : l.signed = r.signed) (hw : l.sz = 4 ∨ l.sz = 8) (hk : s.skip = none)
    (hx : Target s.m x) (hz : x.sz ≤ 4) :
    ∃ c cc st, compareCode op l r = some (c, cc) ∧ Arith.store AX x = some st ∧ ∃ t g, run enc (s, f) (c ++ setValue cc ++ st.map .a) = some (t, g) ∧
      Assigned s t x (if op.holds (some (compare (l.value s.m) (r.value s.m))) then 1 else 0) := by
  obtain ⟨c, cc, g, t, fg, e, h, hc⟩ := compare_result (op := op) enc f hl hr fl fr he hs hw hk
  obtain ⟨t', f', e', h'⟩ := setValue_result (g := fg) (cc := cc) enc (s := t) (by rw [h.same]; exact hk)
  have hR : Result s t' AX 4 (if op.holds (some (compare (l.value s.m) (r.value s.m))) then 1 else 0) := by
    rw [← hc]
    exact ⟨by rw [h'.same, h.same], h'.low, fun r hr => (h'.reg r hr).trans (h.calm.reg r hr), h'.mem.trans h.calm.mem⟩
  obtain ⟨st, g2, u, e2, h2⟩ := Arith.store_assigned enc hx hz hk hR (.inl rfl)
  obtain ⟨g', e3⟩ := run_arith st f' e2
  exact ⟨c, cc, st, g, g2, u, g', run_two (run_two e e') e3, h2⟩

/-! ### Casts -/

theorem Assigned.congr {s t : CM} {v : Val} {c d : Int} (h : Assigned s t v c) (hf : v.field = none) (e : c % 256 ^ v.sz = d % 256 ^ v.sz) :
    Assigned s t v d where
  same := h.same
  temp r hr := ⟨(h.temp r hr).1.trans e, (h.temp r hr).2⟩
  full := h.full
  reg := h.reg
  plain h1 h2 := by rw [h.plain h1 h2, (Conv.le_eq_iff _ _ _).mpr e]
  field _ _ h' := by rw [hf] at h'; cases h'
  mem := h.mem

/-- Between different types. -/
theorem convert_outcome {s : CM} {w : Nat} {sg : Bool} {x l : Val} (enc) (hk : s.skip = none) (hl : Operand s.m l)
    (hi : ∀ n, l.src ≠ .imm n) (ha : ∀ p, l.src ≠ .addr p) (hw : IsSize w) (hx : Target s.m x) (h1 : x.sz = w) (h2 : x.signed = sg) :
    ∃ code, (do some ((← Arith.loadInt l AX (if w < 4 then 4 else w)) ++ (← Arith.store AX { x with sz := w, signed := sg }))) = some code ∧
      ∃ u, Arith.run enc s code = some u ∧ Assigned s u x (l.value s.m) := by
  have hw' : (if w < 4 then 4 else w) = 4 ∨ (if w < 4 then 4 else w) = 8 := by
    unfold IsSize at hw; split_ifs <;> omega
  have hle : w ≤ (if w < 4 then 4 else w) := by split_ifs <;> omega
  obtain ⟨c1, g1, t1, e1, s1⟩ := Arith.loadInt_sets enc hl hk hw' (fun n hn => (hi n hn).elim) (fun p hp => (ha p hp).elim)
  have r1 : Result s t1 AX w (l.value s.m) := ⟨s1.same, Conv.emod_pow_le hle s1.low, (s1.calm (by decide)).reg, s1.mem⟩
  have htv : ({ x with sz := w, signed := sg } : Val) = x := by rw [← h1, ← h2]
  rw [htv]
  obtain ⟨st, g2, u, e2, h⟩ := Arith.store_assigned enc hx (le_of_eq h1) hk r1 (.inl rfl)
  exact ⟨_, by simp only [g1, g2]; rfl, u, Arith.run_two e1 e2, h⟩

/-- Of the same type. -/
theorem copy_outcome {s : CM} {x l : Val} (enc) (hk : s.skip = none) (hl : Operand s.m l) (fl : l.field = none) (fx : x.field = none)
    (hx : Target s.m x) (h1 : x.sz = l.sz) (h2 : x.signed = l.signed) :
    ∃ code, Arith.cast (some x) l.sz l.signed l = some code ∧ ∃ u, Arith.run enc s code = some u ∧ Assigned s u x (l.value s.m) := by
  have htv : ({ x with sz := l.sz, signed := l.signed } : Val) = x := by rw [← h1, ← h2]
  unfold Arith.cast
  simp only [htv, and_self, if_true]
  have ordinary : ∃ code, (do some ((← Arith.loadInt l AX (if l.sz < 4 then 4 else l.sz)) ++ (← Arith.store AX x))) = some code ∧
      ∃ u, Arith.run enc s code = some u ∧ Assigned s u x (l.value s.m) := by
    obtain ⟨c1, g1, t1, e1, s1⟩ := Arith.load_sets (d := AX) enc hl (by decide) hk
    have r1 : Result s t1 AX l.sz (l.value s.m) := ⟨s1.same, s1.low, (s1.calm (by decide)).reg, s1.mem⟩
    obtain ⟨st, g2, u, e2, h⟩ := Arith.store_assigned enc hx (le_of_eq h1) hk r1 (.inl rfl)
    unfold Arith.load at g1
    exact ⟨_, by simp only [g1, g2]; rfl, u, Arith.run_two e1 e2, h⟩
  split
  · rename_i n hn
    obtain ⟨code, g, u, e, h⟩ := Arith.storeConst_assigned (n := n) enc hx hk (fun e => Arith.constant_range hn (by omega))
    refine ⟨code, g, u, e, Assigned.congr h fx ?_⟩
    rw [h1]
    exact (Arith.constant_low hl (Arith.constant_src hn)).symm
  · rename_i q _ hq
    have hqt := (hl.temp q hq).1
    obtain ⟨code, g, u, e, h⟩ := Arith.storePlain_wrote (r := q) enc hx hk (Arith.temp_lt hqt)
      (fun e => Arith.temp_scratch hqt (by rw [e]; decide))
    refine ⟨code, by simp only [Arith.store, fx, g], u, e, Arith.Wrote.assigned rfl (Calm.refl _) hx h fx ?_⟩
    rw [h1]
    exact Arith.temp_low hl hq
  · exact ordinary

end Verif.Expr
