import Verif.Asm.OperandLemmas

/-!
Finding the row of the table for a mnemonic with operands.  What is found depends on the
operands only through their kinds and widths, on whether a register is `%rax` or `%rcx`,
and on whether an immediate fits in 32 bits.  So each mnemonic is checked with a few
representatives, and the result is carried over to all operands.
-/

namespace Verif.Asm

open Att (Arg gprName xmmName Form)
open Encode.Intel (Mem Opnd Ins)
open Encode (Addr Imm ImmVal Ops Instr Enc matchesRow memOf immOf G X implicitOk in32BitRange)

/-! ## The rows of a mnemonic -/

/-- The rest of `tryRow` when the suffix is known. -/
def tryEnc (o : Ops) (sfx : Nat) (e : Enc) : Try :=
  if (e.optype &&& o.mask) ≠ o.mask then .next
  else
    let ws := if e.opc = Encode.oLEA then e.w0 else o.sourceWidth
    let wd := o.destWidth
    if (ws ≠ 0 ∧ e.w0 ≠ 0 ∧ ws &&& e.w0 = 0) ∨ (wd ≠ 0 ∧ e.w1 ≠ 0 ∧ wd &&& e.w1 = 0) then .next
    else
      let ws := if singleWidth e.w0 then e.w0 else ws
      let wd := if singleWidth e.w1 then e.w1 else wd
      if binary o ∧ ws = 0 ∧ wd = 0 ∧ sfx = 0 then .error
      else
        let (ws, wd) :=
          if binary o then
            if ws = 0 then (if wd = 0 then (sfx, sfx) else (wd, wd))
            else if wd = 0 then (ws, ws) else (ws, wd)
          else (ws, wd)
        if matchesRow (withWidths o ws wd) e then .found ws wd else .next

theorem tryRow_eq (m : Bytes) (o : Ops) (name : Bytes) (e : Enc) :
    tryRow m o (name, e) = match suffixOf m name e.suffix with
      | none => .next
      | some sfx => tryEnc o sfx e := by
  unfold tryRow tryEnc
  simp only
  generalize suffixOf m name e.suffix = s
  cases s with
  | none => simp
  | some sfx => rfl

/-- The rows with the name: the number of the instruction, the width of the suffix. -/
def entriesFrom (m : Bytes) : Nat → List (Bytes × Enc) → List (Nat × Nat × Enc)
  | _, [] => []
  | k, (name, e) :: rest =>
    match suffixOf m name e.suffix with
    | some sfx => (if e.opc = 0 then k else e.opc, sfx, e) :: entriesFrom m (k + 1) rest
    | none => entriesFrom m (k + 1) rest

def pick (o : Ops) : List (Nat × Nat × Enc) → Option (Nat × Nat × Nat)
  | [] => none
  | (op, sfx, e) :: rest =>
    match tryEnc o sfx e with
    | .next => pick o rest
    | .error => none
    | .found ws wd => some (op, ws, wd)

theorem matchFrom_pick {m : Bytes} {o o' : Ops} {rs : List (Bytes × Enc)} {k op : Nat}
    (h : matchFrom m o k rs = .ok (op, o')) :
    ∃ ws wd, pick o (entriesFrom m k rs) = some (op, ws, wd) ∧ o' = withWidths o ws wd := by
  induction rs generalizing k with
  | nil => cases h
  | cons row rest ih =>
    obtain ⟨name, e⟩ := row
    rw [matchFrom, tryRow_eq] at h
    rw [entriesFrom]
    cases hs : suffixOf m name e.suffix with
    | none =>
      rw [hs] at h
      exact ih h
    | some sfx =>
      rw [hs] at h
      simp only at h ⊢
      rw [pick]
      cases ht : tryEnc o sfx e with
      | next => rw [ht] at h; exact ih h
      | error => rw [ht] at h; cases h
      | found ws wd =>
        rw [ht] at h
        cases h
        exact ⟨ws, wd, rfl, rfl⟩

/-! ## Representatives -/

def repReg (r : Nat) : Nat := if r = 1 then 1 else if r = 2 then 2 else if r < 17 then 3 else 17

def repInt (q : Int) : Int :=
  if in32BitRange q then 0 else if q < 4294967296 then 2147483648 else 1099511627776

def repVal : ImmVal → ImmVal
  | .int q => .int (repInt q)
  | .addr _ => .addr ⟨some (.normal, 0), 0, 0, 0, 0⟩

def repImm (i : Imm) : Imm := ⟨i.width, repVal i.val⟩

def repOps : Ops → Ops
  | .none w => .none w
  | .imm i => .imm (repImm i)
  | .reg w r => .reg w (repReg r)
  | .mem w _ => .mem w noAddr
  | .regReg ws a w b => .regReg ws (repReg a) w (repReg b)
  | .regMem ws r w _ => .regMem ws (repReg r) w noAddr
  | .memReg ws _ w r => .memReg ws noAddr w (repReg r)
  | .immReg i w r => .immReg (repImm i) w (repReg r)
  | .immMem i w _ => .immMem (repImm i) w noAddr

/-- The numbers of the registers and the size of an immediate are all there is. -/
def Wf : Ops → Prop
  | .imm ⟨_, .int q⟩ | .immReg ⟨_, .int q⟩ _ _ | .immMem ⟨_, .int q⟩ _ _ => 0 ≤ q ∧ q < 2 ^ 63
  | _ => True

theorem implicit_rep (impl r : Nat) : implicitOk impl (some (repReg r)) = implicitOk impl (some r) := by
  have h1 : (repReg r = 1) ↔ r = 1 := by unfold repReg; split_ifs <;> omega
  have h2 : (repReg r = 2) ↔ r = 2 := by unfold repReg; split_ifs <;> omega
  unfold implicitOk
  split
  · rfl
  · rw [Bool.eq_iff_iff]; simp [h2, Encode.CX]
  · rw [Bool.eq_iff_iff]; simp [h1, Encode.AX]
  · rfl

theorem repInt_range (q : Int) : in32BitRange (repInt q) = in32BitRange q := by
  unfold repInt
  split
  · rename_i h; rw [h]; rfl
  · rename_i h
    simp only [Bool.not_eq_true] at h
    rw [h]
    split <;> rfl

theorem is32_rep (i : Imm) (w : Nat) :
    Encode.is32BitImm ⟨w, repVal i.val⟩ = Encode.is32BitImm ⟨w, i.val⟩ := by
  obtain ⟨_, v⟩ := i
  cases v with
  | int q => simp only [repVal, Encode.is32BitImm, repInt_range]
  | addr a => rfl

theorem matchesRow_rep (o : Ops) (ws wd : Nat) (e : Enc) :
    matchesRow (withWidths (repOps o) ws wd) e = matchesRow (withWidths o ws wd) e := by
  cases o <;>
    simp only [repOps, withWidths, matchesRow, Ops.mask, Ops.theImm, Ops.sourceReg, Ops.destReg,
      Ops.sourceWidth, Ops.destWidth, implicit_rep, is32_rep, repImm]

theorem tryEnc_rep (o : Ops) (sfx : Nat) (e : Enc) : tryEnc (repOps o) sfx e = tryEnc o sfx e := by
  have h1 : (repOps o).mask = o.mask := by cases o <;> rfl
  have h2 : (repOps o).sourceWidth = o.sourceWidth := by cases o <;> rfl
  have h3 : (repOps o).destWidth = o.destWidth := by cases o <;> rfl
  have h4 : binary (repOps o) = binary o := by unfold binary; rw [h1]
  unfold tryEnc
  simp only [h1, h2, h3, h4, matchesRow_rep]

theorem pick_rep (o : Ops) (es : List (Nat × Nat × Enc)) : pick (repOps o) es = pick o es := by
  induction es with
  | nil => rfl
  | cons x es ih =>
    obtain ⟨op, sfx, e⟩ := x
    simp only [pick, tryEnc_rep, ih]

/-! ## Putting operands in the place of representatives -/

def setR (r : Nat) : Opnd → Opnd
  | .gpr _ w => .gpr (r - 1) w
  | .xmm _ => .xmm (r - 17)
  | .st _ => .st (r - 34)
  | x => x

/-- An immediate of the width the instruction has. -/
def setImm (q : Int) (ops : List Opnd) : Option Int :=
  ops.findSome? fun o => match o with
    | .imm w => some (immOf w q)
    | _ => none

def relabel : Ops → Ins → Ins
  | .none _, i => i
  | .imm ⟨_, .int q⟩, i => { i with imm := setImm q i.ops }
  | .imm ⟨_, .addr _⟩, i => i
  | .reg _ r, i => { i with ops := i.ops.map (setR r) }
  | .mem _ a, i => { i with mem := some (memOf a) }
  | .regReg _ a _ b, i =>
    { i with ops := match i.ops with
      | [d, s] => [setR b d, setR a s]
      | l => l }
  | .regMem _ r _ a, i | .memReg _ a _ r, i => { i with ops := i.ops.map (setR r), mem := some (memOf a) }
  | .immReg ⟨_, .int q⟩ _ r, i => { i with ops := i.ops.map (setR r), imm := setImm q i.ops }
  | .immReg ⟨_, .addr _⟩ _ _, i => i
  | .immMem ⟨_, .int q⟩ _ a, i => { i with mem := some (memOf a), imm := setImm q i.ops }
  | .immMem ⟨_, .addr _⟩ _ _, i => i

theorem meaning_rep (op : Nat) (o : Ops) (ws wd : Nat) :
    Encode.meaning ⟨op, 0, 0, withWidths o ws wd⟩
      = (Encode.meaning ⟨op, 0, 0, withWidths (repOps o) ws wd⟩).map (relabel o) := by
  cases o with
  | none w =>
    simp only [withWidths, repOps]
    cases Encode.meaning ⟨op, 0, 0, .none ws⟩ <;> rfl
  | imm i =>
    obtain ⟨w, v⟩ := i
    cases v with
    | int q =>
      simp only [withWidths, repOps, repImm, repVal, Encode.meaning]
      split <;> rfl
    | addr a =>
      simp only [withWidths, repOps, repImm, repVal, Encode.meaning]
      split <;> rfl
  | reg w r =>
    simp only [withWidths, repOps, Encode.meaning]
    split
    · rfl
    · rfl
    · split <;> rfl
  | mem w a =>
    simp only [withWidths, repOps, Encode.meaning]
    split
    · rfl
    · rfl
    · split <;> rfl
  | regReg w1 a w2 b =>
    simp only [withWidths, repOps, Encode.meaning]
    split
    · rfl
    · rfl
    · rename_i m xs xd n _ _ _
      cases xs <;> cases xd <;> rfl
    · split <;> rfl
  | regMem w1 r w2 a =>
    simp only [withWidths, repOps, Encode.meaning]
    split <;> rfl
  | memReg w1 a w2 r =>
    simp only [withWidths, repOps, Encode.meaning]
    split
    · rfl
    · rfl
    · rename_i m xs xd n _ _ _
      cases xd <;> rfl
    · split <;> rfl
  | immReg i w r =>
    obtain ⟨wi, v⟩ := i
    cases v with
    | int q =>
      simp only [withWidths, repOps, repImm, repVal, Encode.meaning]
      split <;> rfl
    | addr a => rfl
  | immMem i w a =>
    obtain ⟨wi, v⟩ := i
    cases v with
    | int q =>
      simp only [withWidths, repOps, repImm, repVal, Encode.meaning]
      cases Encode.arith op <;> rfl
    | addr a => rfl

/-! ## The meaning of what is written -/

def regArg (w r : Nat) : Arg := if r < 17 then .gpr (r - 1) w else .xmm (r - 17)

def immArg (i : Imm) : Arg :=
  match i.val with
  | .int q => .imm q
  | .addr a => .target ((a.sym.map (·.2)).getD 0)

def memArg (a : Addr) : Arg := .mem (memOf a) (refOf a)

/-- The operands written, source first. -/
def argsOf : Ops → List Arg
  | .none _ => []
  | .imm i => [immArg i]
  | .reg w r => [regArg w r]
  | .mem _ a => [memArg a]
  | .regReg ws a w b => [regArg ws a, regArg w b]
  | .regMem ws r _ a => [regArg ws r, memArg a]
  | .memReg _ a w r => [memArg a, regArg w r]
  | .immReg i w r => [immArg i, regArg w r]
  | .immMem i _ a => [immArg i, memArg a]

theorem repReg_lt {r : Nat} : repReg r < 17 ↔ r < 17 := by unfold repReg; split_ifs <;> omega

theorem immFits_rep {mn : Encode.Intel.Mn} {b : Bool} {w : Nat} {q : Int} (hw : w = 1 ∨ w = 2 ∨ w = 4 ∨ w = 8) (h0 : 0 ≤ q)
    (h : Att.immFits mn b w q = true) : Att.immFits mn b w (repInt q) = true := by
  have hr : repInt q = 0 ∨ (repInt q = 2147483648 ∧ 2147483647 < q ∧ q < 4294967296)
      ∨ (repInt q = 1099511627776 ∧ 4294967295 < q) := by
    by_cases g1 : q ≤ 2147483647
    · left; simp [repInt, in32BitRange, g1]; omega
    · by_cases g2 : q < 4294967296
      · right; left; exact ⟨by simp [repInt, in32BitRange, g1, g2], by omega, g2⟩
      · right; right; exact ⟨by simp [repInt, in32BitRange, g1, g2], by omega⟩
  unfold Att.immFits at h ⊢
  rcases hw with rfl | rfl | rfl | rfl
  · simp at h ⊢; rcases hr with hr | hr | hr <;> omega
  · simp at h ⊢; rcases hr with hr | hr | hr <;> omega
  · simp at h ⊢; rcases hr with hr | hr | hr <;> omega
  · by_cases g : mn = .mov ∧ b = true
    · rw [if_pos rfl, if_pos g] at h ⊢; simp at h ⊢; rcases hr with hr | hr | hr <;> omega
    · rw [if_pos rfl, if_neg g] at h ⊢; simp at h ⊢; rcases hr with hr | hr | hr <;> omega

end Verif.Asm
