import Verif.Asm.MatchCheck

/-! A line of assembly text means what is written. -/

namespace Verif.Asm

open Att (Arg gprName xmmName Form)
open Encode.Intel (Mem Opnd Ins)
open Encode (Addr Imm ImmVal Ops Instr Enc memOf)

/-! ## From representatives to all operands -/

def sizeOk (w : Nat) : Opnd → Bool
  | .mem k => k == 0 || w == (if k = 10 then 16 else k)
  | _ => true

theorem sizedB_eq (w : Nat) (ins : Ins) : sizedB w ins = (w == 0 || ins.ops.all (sizeOk w)) := rfl

theorem sizeOk_setR (w r : Nat) (o : Opnd) : sizeOk w (setR r o) = sizeOk w o := by cases o <;> rfl

theorem sized_relabel (o : Ops) (i : Ins) : sizedB (memWidth o) (relabel o i) = sizedB (memWidth (repOps o)) i := by
  have hm : ∀ (w r : Nat) (l : List Opnd), (l.map (setR r)).all (sizeOk w) = l.all (sizeOk w) := by
    intro w r l
    induction l with
    | nil => rfl
    | cons x l ih => rw [List.map_cons, List.all_cons, List.all_cons, sizeOk_setR, ih]
  cases o with
  | none w => rfl
  | imm im => obtain ⟨w, v⟩ := im; cases v <;> rfl
  | reg w r => rfl
  | mem w a => rfl
  | regReg ws a w b => rfl
  | regMem ws r w a => simp only [relabel, repOps, memWidth, sizedB_eq, hm]
  | memReg ws a w r => simp only [relabel, repOps, memWidth, sizedB_eq, hm]
  | immReg im w r => rfl
  | immMem im w a => obtain ⟨wi, v⟩ := im; cases v <;> rfl

theorem ambiguous_rep (m : Bytes) (o : Ops) : ambiguous m (repOps o) = ambiguous m o := by cases o <;> rfl

theorem carry {m : Bytes} {f : Form} {o : Ops} {op ws wd : Nat} {ins : Ins}
    (hatt : ∃ ins0, Att.meaning f (argsOf (repOps o)) = some ins0 ∧ relabel o ins0 = ins)
    (hc : chk m f (repOps o) = true) (hs : sizedB (memWidth o) ins = true) (ha : ambiguous m o = false)
    (hp : pick o (entries m) = some (op, ws, wd)) :
    Encode.meaning ⟨norm op, 0, 0, withWidths o ws wd⟩ = some ins := by
  obtain ⟨ins0, h0, rfl⟩ := hatt
  rw [sized_relabel] at hs
  unfold chk at hc
  rw [h0, pick_rep, hp, ambiguous_rep, ha] at hc
  simp only [hs, Bool.not_true, Bool.or_false, Bool.false_or, decide_eq_true_eq] at hc
  rw [meaning_rep, hc]
  rfl

/-! ## The size of memory -/

def memSizes (ins : Ins) : List Nat := ins.ops.filterMap fun o => match o with
  | .mem k => some k
  | _ => none

theorem sized_mem {w : Nat} {ins : Ins} (hs : sizedB w ins = true) {k : Nat} (hk : k ∈ memSizes ins)
    (h : k ∈ [1, 2, 4, 8, 10, 16]) : w ∈ repWidths := by
  unfold sizedB at hs
  rw [Bool.or_eq_true] at hs
  rcases hs with hs | hs
  · rw [beq_iff_eq] at hs; subst hs; decide
  · rw [List.all_eq_true] at hs
    unfold memSizes at hk
    rw [List.mem_filterMap] at hk
    obtain ⟨o, ho, hk⟩ := hk
    have := hs o ho
    cases o <;> simp only [reduceCtorEq] at hk
    cases hk
    simp only [Bool.or_eq_true, beq_iff_eq] at this
    simp only [List.mem_cons, List.not_mem_nil, or_false] at h
    rcases this with rfl | rfl
    · omega
    · rcases h with rfl | rfl | rfl | rfl | rfl | rfl <;> decide

def isLea : Form → Bool
  | .lea _ => true
  | _ => false

/-- Does the instruction access memory of a known size? -/
def known (f : Form) (o : Ops) : Bool :=
  match Att.meaning f (argsOf o) with
  | none => true
  | some ins => (memSizes ins).any fun k => [1, 2, 4, 8, 10, 16].contains k

theorem known_memReg : ∀ p ∈ Att.names, ∀ y ∈ repRegs, (isLea p.2 || known p.2 (.memReg 0 noAddr y.1 y.2)) = true := by
  decide +kernel
theorem known_regMem : ∀ p ∈ Att.names, ∀ y ∈ repRegs, known p.2 (.regMem y.1 y.2 0 noAddr) = true := by
  decide +kernel
theorem known_immMem : ∀ p ∈ Att.names, ∀ q ∈ repInts, known p.2 (.immMem ⟨0, .int q⟩ 0 noAddr) = true := by
  decide +kernel
theorem known_mem : ∀ p ∈ Att.names, known p.2 (.mem 0 noAddr) = true := by decide +kernel

theorem known_width {f : Form} {o : Ops} {ins0 : Ins} {w : Nat} (hk : known f o = true)
    (h : Att.meaning f (argsOf o) = some ins0) (hs : sizedB w ins0 = true) : w ∈ repWidths := by
  unfold known at hk
  rw [h] at hk
  simp only [List.any_eq_true] at hk
  obtain ⟨k, hk, h6⟩ := hk
  exact sized_mem hs hk (by simpa using h6)

/-! ## Loading an address does not access memory -/

theorem lea_rows : ∀ p ∈ Att.names, isLea p.2 = true → ∀ x ∈ entries p.1, x.2.2.opc = Encode.oLEA := by
  decide +kernel

theorem tryEnc_lea {e : Enc} (h : e.opc = Encode.oLEA) (w : Nat) (a : Addr) (wd r sfx : Nat) :
    tryEnc (.memReg w a wd r) sfx e = tryEnc (.memReg 0 a wd r) sfx e := by
  unfold tryEnc
  simp only [h, if_true]
  rfl

theorem pick_lea {es : List (Nat × Nat × Enc)} (h : ∀ x ∈ es, x.2.2.opc = Encode.oLEA) (w : Nat) (a : Addr)
    (wd r : Nat) : pick (.memReg w a wd r) es = pick (.memReg 0 a wd r) es := by
  induction es with
  | nil => rfl
  | cons x es ih =>
    obtain ⟨op, sfx, e⟩ := x
    have he : e.opc = Encode.oLEA := h (op, sfx, e) (by simp)
    simp only [pick, tryEnc_lea he w a wd r, ih fun x hx => h x (by simp [hx])]

def formWidths : Form → Bool
  | .bin _ w | .shift _ w | .un _ w => [none, some 1, some 2, some 4, some 8].contains w
  | _ => true

theorem form_ok : ∀ p ∈ Att.names, FormOk p.2 := by
  have hw : ∀ w : Option Nat, w ∈ [none, some 1, some 2, some 4, some 8] → widthOk w := by
    intro w h k hk
    simp only [List.mem_cons, List.not_mem_nil, or_false] at h
    rcases h with rfl | rfl | rfl | rfl | rfl <;> simp_all
  have key : ∀ p ∈ Att.names, ∀ mn w, p.2 = .bin mn w ∨ p.2 = .shift mn w ∨ p.2 = .un mn w →
      w ∈ [none, some 1, some 2, some 4, some 8] := by
    intro p hp
    have : formWidths p.2 = true := by
      revert hp p
      decide +kernel
    rintro mn w (h | h | h) <;> (rw [h] at this; simpa [formWidths] using this)
  intro p hp
  have := key p hp
  cases hf : p.2 <;> simp only [FormOk]
  · exact hw _ (this _ _ (.inl hf))
  · exact hw _ (this _ _ (.inr (.inl hf)))
  · exact hw _ (this _ _ (.inr (.inr hf)))

/-! ## All operands -/

theorem rep_gpr {k w : Nat} (hk : k < 16) (hw : w ∈ Encode.widths) : (w, repReg (k + 1)) ∈ repRegs := by
  have : ∀ k : Fin 16, ∀ w ∈ Encode.widths, (w, repReg (k.val + 1)) ∈ repRegs := by decide
  exact this ⟨k, hk⟩ w hw

theorem rep_xmm {k w : Nat} (hw : w = 0 ∨ w = 4 ∨ w = 8) : (w, repReg (k + 17)) ∈ repRegs := by
  have : repReg (k + 17) = 17 := by
    unfold repReg
    rw [if_neg (by omega), if_neg (by omega), if_neg (by omega)]
  rw [this]
  rcases hw with rfl | rfl | rfl <;> decide

theorem rep_int (q : Int) : repInt q ∈ repInts := by unfold repInt; split_ifs <;> decide

/-- A register found for an operand. -/
inductive RegOk : Nat → Nat → Arg → Prop
  | gpr {k w} : k < 16 → w ∈ Encode.widths → RegOk w (k + 1) (.gpr k w)
  | xmm {k w} : k < 16 → (w = 0 ∨ w = 4 ∨ w = 8) → RegOk w (k + 17) (.xmm k)

theorem RegOk.rep {w r a} (h : RegOk w r a) : (w, repReg r) ∈ repRegs := by
  cases h with
  | gpr hk hw => exact rep_gpr hk hw
  | xmm hk hw => exact rep_xmm hw

theorem RegOk.arg {w r a} (h : RegOk w r a) : regArg w r = a := by
  cases h with
  | gpr hk hw => rw [regArg_gpr (by omega)]; simp
  | xmm hk hw => rw [regArg_xmm (by omega)]; simp

theorem RegOk.width {w r a} (h : RegOk w r a) (hr : r < 17) : w = 1 ∨ w = 2 ∨ w = 4 ∨ w = 8 := by
  cases h with
  | gpr hk hw => simpa [Encode.widths] using hw
  | xmm hk hw => omega

/-- What the operands of an instruction may be. -/
inductive OpsOk (n : Nat) : List Arg → Ops → Prop
  | reg {w r a} : RegOk w r a → OpsOk n [a] (.reg w r)
  | mem {w a} : (w = 0 ∨ w = n) → OpsOk n [memArg a] (.mem w a)
  | imm {q} : 0 ≤ q → OpsOk n [.imm q] (.imm ⟨0, .int q⟩)
  | target {s} : OpsOk n [.target s] (.imm ⟨8, .addr ⟨some (.normal, s), 0, 0, 0, 0⟩⟩)
  | regReg {ws a w b x y} : RegOk ws a x → RegOk w b y → OpsOk n [x, y] (.regReg ws a w b)
  | regMem {ws r w a x} : RegOk ws r x → (w = 0 ∨ w = n) → OpsOk n [x, memArg a] (.regMem ws r w a)
  | memReg {ws a w r y} : (ws = 0 ∨ ws = n) → RegOk w r y → OpsOk n [memArg a, y] (.memReg ws a w r)
  | immReg {q w r y} : 0 ≤ q → RegOk w r y → OpsOk n [.imm q, y] (.immReg ⟨0, .int q⟩ w r)
  | immMem {q w a} : 0 ≤ q → (w = 0 ∨ w = n) → OpsOk n [.imm q, memArg a] (.immMem ⟨0, .int q⟩ w a)

theorem OpsOk.args {n : Nat} {args : List Arg} {o : Ops} (h : OpsOk n args o) : argsOf o = args := by
  cases h with
  | reg h => simp only [argsOf, h.arg]
  | mem h => rfl
  | imm h => rfl
  | target => rfl
  | regReg h h' => simp only [argsOf, h.arg, h'.arg]
  | regMem h h' => simp only [argsOf, h.arg]
  | memReg h h' => simp only [argsOf, h'.arg]
  | immReg h h' => simp only [argsOf, h'.arg, immArg]
  | immMem h h' => rfl

theorem OpsOk.memWidth {n : Nat} {args : List Arg} {o : Ops} (h : OpsOk n args o) : memWidth o = 0 ∨ memWidth o = n := by
  cases h with
  | mem h => exact h
  | regMem h h' => exact h'
  | memReg h h' => exact h
  | immMem h h' => exact h'
  | _ => exact .inl rfl

theorem ops_right {m : Bytes} {f : Form} {n op ws wd : Nat} {args : List Arg} {o : Ops} {ins : Ins}
    (hm : (m, f) ∈ Att.names) (ho : OpsOk n args o) (h : Att.meaning f args = some ins)
    (hs : sizedB n ins = true) (ha : ambiguous m o = false) (hp : pick o (entries m) = some (op, ws, wd)) :
    Encode.meaning ⟨norm op, 0, 0, withWidths o ws wd⟩ = some ins := by
  have hs' : sizedB (memWidth o) ins = true := by
    rcases ho.memWidth with h0 | h0
    · rw [h0]; rfl
    · rw [h0]; exact hs
  rw [← ho.args] at h
  cases ho with
  | reg hr => exact carry (att_reg h) (chk_reg _ hm _ hr.rep) hs' ha hp
  | @mem w a hw =>
    have hatt := att_mem h
    refine carry hatt (chk_mem _ hm w ?_) hs' ha hp
    obtain ⟨ins0, h0, rfl⟩ := hatt
    rw [sized_relabel] at hs'
    exact known_width (known_mem _ hm) h0 hs'
  | @imm q h0 => exact carry (att_imm h0 h) (chk_imm _ hm _ (rep_int q)) hs' ha hp
  | target => exact carry (att_target h) (chk_target _ hm) hs' ha hp
  | regReg hx hy => exact carry (att_regReg h) (chk_regReg _ hm _ hx.rep _ hy.rep) hs' ha hp
  | @regMem ws r w a x hx hw =>
    have hatt := att_regMem h
    refine carry hatt (chk_regMem _ hm _ hx.rep w ?_) hs' ha hp
    obtain ⟨ins0, h0, rfl⟩ := hatt
    rw [sized_relabel] at hs'
    exact known_width (known_regMem _ hm _ hx.rep) h0 hs'
  | @memReg ws' a w r y hw hy =>
    by_cases hl : isLea f = true
    · rw [pick_lea (lea_rows _ hm hl) ws'] at hp
      have h' : Att.meaning f (argsOf (.memReg 0 a w r)) = some ins := h
      have hf : ambiguous m (.memReg 0 a w r) = false := by
        cases hk : ambiguous m (.memReg 0 a w r) with
        | false => rfl
        | true =>
          exfalso
          simp only [ambiguous, Bool.and_eq_true, beq_iff_eq] at hk
          have := hk.2
          subst this
          have : ∀ p ∈ Att.names, p.1 = str% "cvtsi2sd" → isLea p.2 = false := by decide +kernel
          rw [this _ hm rfl] at hl
          cases hl
      have := carry (o := .memReg 0 a w r) (att_memReg h') (chk_memReg _ hm 0 (by decide) _ hy.rep) rfl hf hp
      exact this
    · have hatt := att_memReg h
      refine carry hatt (chk_memReg _ hm ws' ?_ _ hy.rep) hs' ha hp
      obtain ⟨ins0, h0, rfl⟩ := hatt
      rw [sized_relabel] at hs'
      have hk := known_memReg _ hm _ hy.rep
      simp only [Bool.not_eq_true] at hl
      rw [hl, Bool.false_or] at hk
      exact known_width hk h0 hs'
  | @immReg q w r y h0 hy =>
    exact carry (att_immReg (form_ok _ hm) h0 hy.width h) (chk_immReg _ hm _ (rep_int q) _ hy.rep) hs' ha hp
  | @immMem q w a h0 hw =>
    have hatt := att_immMem (form_ok _ hm) h0 h
    refine carry hatt (chk_immMem _ hm _ (rep_int q) w ?_) hs' ha hp
    obtain ⟨ins0, h0, rfl⟩ := hatt
    rw [sized_relabel] at hs'
    exact known_width (known_immMem _ hm _ (rep_int q)) h0 hs'

/-! ## Lines -/

theorem Parsed.reg_ok {n : Nat} {a : Arg} {w r : Nat} (h : Parsed n a (.reg w r)) : RegOk w r a := by
  cases h with
  | gpr hk hw => exact .gpr hk hw
  | xmm hk hw => exact .xmm hk hw

theorem single_ok {n : Nat} {a : Arg} {o : Opd} (h : Parsed n a o) : OpsOk n [a] (single o) := by
  cases h with
  | gpr hk hw => exact .reg (.gpr hk hw)
  | xmm hk hw => exact .reg (.xmm hk hw)
  | imm h0 _ => exact .imm h0
  | mem hw hm hr => subst hm hr; exact .mem hw
  | target => exact .target

theorem combine_ok {n : Nat} {a a' : Arg} {o o' : Opd} {q : Ops} (h : Parsed n a o) (h' : Parsed n a' o')
    (hq : combine o o' = some q) (ht : ∀ l, a ≠ .target l) : OpsOk n [a, a'] q := by
  have hreg : ∀ {w r a'}, Parsed n a' (.reg w r) → RegOk w r a' := fun h => h.reg_ok
  cases o' with
  | reg w r =>
    have hy := h'.reg_ok
    cases o with
    | reg ws r' => cases hq; exact .regReg h.reg_ok hy
    | mem ws b =>
      cases hq
      cases h with
      | mem hw hm hr => subst hm hr; exact .memReg hw hy
    | imm i =>
      cases hq
      cases h with
      | imm h0 _ => exact .immReg h0 hy
      | target => exact absurd rfl (ht _)
  | mem w b =>
    cases h' with
    | mem hw hm hr =>
      subst hm hr
      cases o with
      | reg ws r' => cases hq; exact .regMem h.reg_ok hw
      | mem ws b => cases hq
      | imm i =>
        cases hq
        cases h with
        | imm h0 _ => exact .immMem h0 hw
        | target => exact absurd rfl (ht _)
  | imm i => cases o <;> cases hq

/-- The names of instructions are words. -/
theorem names_words : ∀ p ∈ Att.names, p.1 ≠ [] ∧ (∀ c ∈ p.1, identChar c = true) ∧ Not isDigit p.1 := by
  have : ∀ p ∈ Att.names, p.1 ≠ [] ∧ (∀ c ∈ p.1, identChar c = true) ∧ p.1.head?.all (fun c => !isDigit c) = true := by
    decide +kernel
  intro p hp
  refine ⟨(this p hp).1, (this p hp).2.1, ?_⟩
  intro c hc
  have h3 := (this p hp).2.2
  rw [Option.mem_def.mp hc] at h3
  simpa using h3

theorem lookup_mem {m : Bytes} {f : Form} (h : Att.lookup m = some f) : (m, f) ∈ Att.names := by
  unfold Att.lookup at h
  obtain ⟨p, hp, rfl⟩ := Option.map_eq_some_iff.mp h
  have h1 := List.find?_some hp
  have h2 := List.mem_of_find?_eq_some hp
  rw [beq_iff_eq] at h1
  rw [← h1]
  exact h2

end Verif.Asm
