import Verif.Asm.Match

namespace Verif.Asm

open Att (Arg gprName xmmName Form)
open Encode.Intel (Mem Opnd Ins)
open Encode (Addr Imm ImmVal Ops Instr Enc matchesRow memOf immOf G X implicitOk in32BitRange)

def widthOk (w : Option Nat) : Prop := ∀ k ∈ w, k = 1 ∨ k = 2 ∨ k = 4 ∨ k = 8

/-- The suffix stands for a width there is. -/
def FormOk : Form → Prop
  | .bin _ w | .shift _ w | .un _ w => widthOk w
  | _ => True

theorem repReg_sub {r : Nat} : repReg r - 1 = 1 ↔ r - 1 = 1 := by
  unfold repReg
  by_cases h1 : r = 1
  · subst h1; decide
  · by_cases h2 : r = 2
    · subst h2; decide
    · rw [if_neg h1, if_neg h2]
      constructor
      · intro h; split_ifs at h <;> simp at h
      · intro h; omega

theorem regArg_gpr {w r : Nat} (h : r < 17) : regArg w r = .gpr (r - 1) w := if_pos h
theorem regArg_xmm {w r : Nat} (h : ¬ r < 17) : regArg w r = .xmm (r - 17) := if_neg h

theorem att_regReg {f : Form} {ws a w b : Nat} {ins : Ins}
    (h : Att.meaning f (argsOf (.regReg ws a w b)) = some ins) :
    ∃ ins0, Att.meaning f (argsOf (repOps (.regReg ws a w b))) = some ins0 ∧ relabel (.regReg ws a w b) ins0 = ins := by
  by_cases ha : a < 17 <;> by_cases hb : b < 17
  · have ha' := repReg_lt.mpr ha
    have hb' := repReg_lt.mpr hb
    simp only [argsOf, repOps, regArg_gpr ha, regArg_gpr hb, regArg_gpr ha', regArg_gpr hb'] at h ⊢
    cases f <;> simp only [Att.meaning, Att.binMeaning, reduceCtorEq, repReg_sub] at h ⊢
    case bin mn w' =>
      obtain ⟨k, hk, rfl⟩ := Option.map_eq_some_iff.mp h
      exact ⟨_, by rw [hk]; rfl, rfl⟩
    case shift mn w' =>
      by_cases q : a - 1 = 1 ∧ ws = 1
      · rw [if_pos q] at h ⊢
        obtain ⟨k, hk, rfl⟩ := Option.map_eq_some_iff.mp h
        exact ⟨_, by rw [hk]; rfl, by simp [relabel, setR, q.1]⟩
      · rw [if_neg q] at h; cases h
    case ext mn s k =>
      by_cases q : ws = s ∧ w = k
      · rw [if_pos q] at h ⊢
        cases h
        exact ⟨_, rfl, rfl⟩
      · rw [if_neg q] at h; cases h
  · have ha' := repReg_lt.mpr ha
    have hb' : ¬ repReg b < 17 := fun h => hb (repReg_lt.mp h)
    simp only [argsOf, repOps, regArg_gpr ha, regArg_xmm hb, regArg_gpr ha', regArg_xmm hb'] at h ⊢
    cases f <;> simp only [Att.meaning, Att.binMeaning, reduceCtorEq] at h ⊢
    case fromInt mn w' =>
      obtain ⟨k, hk, h⟩ := Option.bind_eq_some_iff.mp h
      split_ifs at h with q
      cases h
      exact ⟨_, by rw [hk]; simp only [Option.bind_some]; rw [if_pos q], rfl⟩
  · have ha' : ¬ repReg a < 17 := fun h => ha (repReg_lt.mp h)
    have hb' := repReg_lt.mpr hb
    simp only [argsOf, repOps, regArg_xmm ha, regArg_gpr hb, regArg_xmm ha', regArg_gpr hb'] at h ⊢
    cases f <;> simp only [Att.meaning, Att.binMeaning, reduceCtorEq] at h ⊢
    case toInt mn n w' =>
      obtain ⟨k, hk, h⟩ := Option.bind_eq_some_iff.mp h
      split_ifs at h with q
      cases h
      exact ⟨_, by rw [hk]; simp only [Option.bind_some]; rw [if_pos q], rfl⟩
  · have ha' : ¬ repReg a < 17 := fun h => ha (repReg_lt.mp h)
    have hb' : ¬ repReg b < 17 := fun h => hb (repReg_lt.mp h)
    simp only [argsOf, repOps, regArg_xmm ha, regArg_xmm hb, regArg_xmm ha', regArg_xmm hb'] at h ⊢
    cases f <;> simp only [Att.meaning, Att.binMeaning, reduceCtorEq] at h ⊢
    case vec mn n st =>
      cases h
      exact ⟨_, rfl, rfl⟩

theorem att_memReg {f : Form} {ws : Nat} {a : Addr} {w b : Nat} {ins : Ins}
    (h : Att.meaning f (argsOf (.memReg ws a w b)) = some ins) :
    ∃ ins0, Att.meaning f (argsOf (repOps (.memReg ws a w b))) = some ins0 ∧ relabel (.memReg ws a w b) ins0 = ins := by
  by_cases hb : b < 17
  · have hb' := repReg_lt.mpr hb
    simp only [argsOf, repOps, memArg, regArg_gpr hb, regArg_gpr hb'] at h ⊢
    cases f <;> simp only [Att.meaning, Att.binMeaning, reduceCtorEq] at h ⊢
    case bin mn w' =>
      obtain ⟨k, hk, rfl⟩ := Option.map_eq_some_iff.mp h
      refine ⟨_, by rw [hk]; rfl, ?_⟩
      split_ifs <;> rfl
    case ext mn s k =>
      by_cases q : w = k
      · rw [if_pos q] at h ⊢
        cases h
        exact ⟨_, rfl, rfl⟩
      · rw [if_neg q] at h; cases h
    case lea w' =>
      obtain ⟨k, hk, rfl⟩ := Option.map_eq_some_iff.mp h
      exact ⟨_, by rw [hk]; rfl, rfl⟩
    case toInt mn n w' =>
      obtain ⟨k, hk, h⟩ := Option.bind_eq_some_iff.mp h
      split_ifs at h with q
      cases h
      exact ⟨_, by rw [hk]; simp only [Option.bind_some]; rw [if_pos q], rfl⟩
  · have hb' : ¬ repReg b < 17 := fun h => hb (repReg_lt.mp h)
    simp only [argsOf, repOps, memArg, regArg_xmm hb, regArg_xmm hb'] at h ⊢
    cases f <;> simp only [Att.meaning, Att.binMeaning, reduceCtorEq] at h ⊢
    case vec mn n st =>
      cases h
      exact ⟨_, rfl, rfl⟩
    case fromInt mn w' =>
      cases h
      exact ⟨_, rfl, rfl⟩

theorem att_regMem {f : Form} {ws r w : Nat} {a : Addr} {ins : Ins}
    (h : Att.meaning f (argsOf (.regMem ws r w a)) = some ins) :
    ∃ ins0, Att.meaning f (argsOf (repOps (.regMem ws r w a))) = some ins0 ∧ relabel (.regMem ws r w a) ins0 = ins := by
  by_cases hb : r < 17
  · have hb' := repReg_lt.mpr hb
    simp only [argsOf, repOps, memArg, regArg_gpr hb, regArg_gpr hb'] at h ⊢
    cases f <;> simp only [Att.meaning, Att.binMeaning, reduceCtorEq] at h ⊢
    case bin mn w' =>
      obtain ⟨k, hk, rfl⟩ := Option.map_eq_some_iff.mp h
      exact ⟨_, by rw [hk]; rfl, rfl⟩
  · have hb' : ¬ repReg r < 17 := fun h => hb (repReg_lt.mp h)
    simp only [argsOf, repOps, memArg, regArg_xmm hb, regArg_xmm hb'] at h ⊢
    cases f <;> simp only [Att.meaning, Att.binMeaning, reduceCtorEq] at h ⊢
    case vec mn n st =>
      cases st
      · simp only [Att.meaning, reduceCtorEq] at h
      · simp only [Att.meaning] at h ⊢
        cases h
        exact ⟨_, rfl, rfl⟩

theorem width_ok {w : Option Nat} {rs : List Nat} {k : Nat} (h : Att.width w rs = some k) (hw : widthOk w)
    (hr : ∀ r ∈ rs, r = 1 ∨ r = 2 ∨ r = 4 ∨ r = 8) : k = 1 ∨ k = 2 ∨ k = 4 ∨ k = 8 := by
  unfold Att.width at h
  cases w with
  | some w =>
    simp only at h
    split_ifs at h
    cases h
    exact hw k rfl
  | none =>
    cases rs with
    | nil => cases h
    | cons r rs =>
      simp only at h
      split_ifs at h
      cases h
      exact hr k (by simp)

theorem att_immReg {f : Form} {wi : Nat} {q : Int} {w r : Nat} {ins : Ins} (hf : FormOk f) (h0 : 0 ≤ q)
    (hw : r < 17 → w = 1 ∨ w = 2 ∨ w = 4 ∨ w = 8)
    (h : Att.meaning f (argsOf (.immReg ⟨wi, .int q⟩ w r)) = some ins) :
    ∃ ins0, Att.meaning f (argsOf (repOps (.immReg ⟨wi, .int q⟩ w r))) = some ins0
      ∧ relabel (.immReg ⟨wi, .int q⟩ w r) ins0 = ins := by
  by_cases hb : r < 17
  · have hb' := repReg_lt.mpr hb
    simp only [argsOf, repOps, immArg, repImm, repVal, regArg_gpr hb, regArg_gpr hb'] at h ⊢
    cases f <;> simp only [Att.meaning, Att.binMeaning, reduceCtorEq] at h ⊢
    case bin mn w' =>
      obtain ⟨k, hk, h⟩ := Option.bind_eq_some_iff.mp h
      split_ifs at h with g
      cases h
      have hk' := width_ok hk hf (by simpa using hw hb)
      exact ⟨_, by rw [hk]; simp only [Option.bind_some]; rw [if_pos (immFits_rep hk' h0 g)], rfl⟩
    case shift mn w' =>
      obtain ⟨k, hk, h⟩ := Option.bind_eq_some_iff.mp h
      split_ifs at h with g
      cases h
      have : repInt q = 0 := by simp [repInt, in32BitRange]; omega
      exact ⟨_, by rw [hk]; simp only [Option.bind_some, this]; rw [if_pos (by decide)], rfl⟩
  · have hb' : ¬ repReg r < 17 := fun h => hb (repReg_lt.mp h)
    simp only [argsOf, repOps, immArg, repImm, repVal, regArg_xmm hb, regArg_xmm hb'] at h ⊢
    cases f <;> simp only [Att.meaning, Att.binMeaning, reduceCtorEq] at h ⊢

theorem att_immMem {f : Form} {wi : Nat} {q : Int} {w : Nat} {a : Addr} {ins : Ins} (hf : FormOk f) (h0 : 0 ≤ q)
    (h : Att.meaning f (argsOf (.immMem ⟨wi, .int q⟩ w a)) = some ins) :
    ∃ ins0, Att.meaning f (argsOf (repOps (.immMem ⟨wi, .int q⟩ w a))) = some ins0
      ∧ relabel (.immMem ⟨wi, .int q⟩ w a) ins0 = ins := by
  simp only [argsOf, repOps, immArg, repImm, repVal, memArg] at h ⊢
  cases f <;> simp only [Att.meaning, Att.binMeaning, reduceCtorEq] at h ⊢
  case bin mn w' =>
    obtain ⟨k, hk, h⟩ := Option.bind_eq_some_iff.mp h
    split_ifs at h with g
    cases h
    have hk' := width_ok hk hf (by simp)
    exact ⟨_, by rw [hk]; simp only [Option.bind_some]; rw [if_pos (immFits_rep hk' h0 g)], rfl⟩

theorem att_imm {f : Form} {wi : Nat} {q : Int} {ins : Ins} (h0 : 0 ≤ q)
    (h : Att.meaning f (argsOf (.imm ⟨wi, .int q⟩)) = some ins) :
    ∃ ins0, Att.meaning f (argsOf (repOps (.imm ⟨wi, .int q⟩))) = some ins0
      ∧ relabel (.imm ⟨wi, .int q⟩) ins0 = ins := by
  simp only [argsOf, repOps, immArg, repImm, repVal] at h ⊢
  cases f <;> simp only [Att.meaning, Att.binMeaning, reduceCtorEq] at h ⊢
  case stack mn =>
    cases mn <;> simp only [Att.meaning, reduceCtorEq] at h ⊢
    split_ifs at h with g
    cases h
    have hq : q ≤ 2147483647 := by simp [Att.immFits] at g; omega
    have : repInt q = 0 := by simp [repInt, in32BitRange]; omega
    refine ⟨_, by rw [this, if_pos (by decide)], ?_⟩
    have : immOf 8 q = q := Int.bmod_eq_of_le (by omega) (by omega)
    simp [relabel, setImm, this]

theorem att_target {f : Form} {wi : Nat} {a : Addr} {ins : Ins}
    (h : Att.meaning f (argsOf (.imm ⟨wi, .addr a⟩)) = some ins) :
    ∃ ins0, Att.meaning f (argsOf (repOps (.imm ⟨wi, .addr a⟩))) = some ins0
      ∧ relabel (.imm ⟨wi, .addr a⟩) ins0 = ins := by
  simp only [argsOf, repOps, immArg, repImm, repVal] at h ⊢
  cases f <;> simp only [Att.meaning, Att.binMeaning, reduceCtorEq] at h ⊢ <;> (cases h; exact ⟨_, rfl, rfl⟩)

theorem att_reg {f : Form} {w r : Nat} {ins : Ins} (h : Att.meaning f (argsOf (.reg w r)) = some ins) :
    ∃ ins0, Att.meaning f (argsOf (repOps (.reg w r))) = some ins0 ∧ relabel (.reg w r) ins0 = ins := by
  by_cases hb : r < 17
  · have hb' := repReg_lt.mpr hb
    simp only [argsOf, repOps, regArg_gpr hb, regArg_gpr hb'] at h ⊢
    cases f <;> simp only [Att.meaning, Att.binMeaning, reduceCtorEq] at h ⊢
    case un mn w' =>
      obtain ⟨k, hk, rfl⟩ := Option.map_eq_some_iff.mp h
      exact ⟨_, by rw [hk]; rfl, rfl⟩
    case stack mn =>
      by_cases hw : w = 8
      · subst hw
        simp only [Att.meaning] at h ⊢
        cases h
        exact ⟨_, rfl, rfl⟩
      · cases mn <;> simp [Att.meaning, hw] at h
    case call =>
      by_cases hw : w = 8
      · subst hw
        simp only [Att.meaning] at h ⊢
        cases h
        exact ⟨_, rfl, rfl⟩
      · simp [Att.meaning, hw] at h
    case set c =>
      by_cases hw : w = 1
      · subst hw
        simp only [Att.meaning] at h ⊢
        cases h
        exact ⟨_, rfl, rfl⟩
      · simp [Att.meaning, hw] at h
  · have hb' : ¬ repReg r < 17 := fun h => hb (repReg_lt.mp h)
    simp only [argsOf, repOps, regArg_xmm hb, regArg_xmm hb'] at h ⊢
    cases f <;> simp only [Att.meaning, Att.binMeaning, reduceCtorEq] at h ⊢

theorem att_mem {f : Form} {w : Nat} {a : Addr} {ins : Ins} (h : Att.meaning f (argsOf (.mem w a)) = some ins) :
    ∃ ins0, Att.meaning f (argsOf (repOps (.mem w a))) = some ins0 ∧ relabel (.mem w a) ins0 = ins := by
  simp only [argsOf, repOps, memArg] at h ⊢
  cases f <;> simp only [Att.meaning, Att.binMeaning, reduceCtorEq] at h ⊢
  case un mn w' =>
    obtain ⟨k, hk, rfl⟩ := Option.map_eq_some_iff.mp h
    exact ⟨_, by rw [hk]; rfl, rfl⟩
  case stack mn =>
    cases mn <;> simp only [Att.meaning, reduceCtorEq] at h ⊢
    cases h
    exact ⟨_, rfl, rfl⟩
  case call =>
    cases h
    exact ⟨_, rfl, rfl⟩
  case fmem mn n =>
    cases h
    exact ⟨_, rfl, rfl⟩

end Verif.Asm
