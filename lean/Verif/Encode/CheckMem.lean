import Verif.Encode.Check

/-! Instructions with a register or an opcode extension and an operand in memory.
What precedes the address depends on few things, so all cases are tested; the address
itself is `parseMem_decode`. -/

namespace Verif.Encode

open Intel

/-- Any address: nothing before the address depends on it, but for two bits. -/
def noAddr : Addr := ⟨none, 0, 0, 0, 0⟩

/-! ## Register and memory -/

/-- What `encodeMemReg` writes before the address. -/
def mrHead (c : Code) (e : Enc) (w : Nat) (d : Bool) (mw r : Nat) (x b : Bool) : Code :=
  let rex := withW (REX ||| rexR r ||| flag x 2 ||| flag b 1) e.opc w
  let c := pushRex c rex ((r == SI || r == DI) && w == 1)
  let c := encodeOpcode c e
  let c := if e.opxW then c.orBack 1 (flag (mw != 1) 1) else c
  if e.opxD then c.orBack 1 (flag d 2) else c

theorem encodeMemReg_eq (c : Code) (e : Enc) (w : Nat) (d : Bool) (mw r : Nat) (a : Addr) :
    encodeMemReg c e w d mw a r
      = if e.impl1 ≠ 0 then none
        else (encodeAddress (mrHead c e w d mw r (is64 a.index) (is64 a.base)) (reg3 r) a 0).map (·.1) :=
  rfl

def checkMR (op ws w r : Nat) (x b : Bool) : Bool :=
  match findEncoding ⟨op, 0, 0, .memReg ws noAddr w r⟩, meaning ⟨op, 0, 0, .memReg ws noAddr w r⟩ with
  | some e, some ⟨mn, ops, _, none⟩ =>
    e.impl1 == 0 &&
      let sz := operandSize ⟨op, 0, 0, .memReg ws noAddr w r⟩
      (mrHead (start e 0 sz) e sz true ws r x b).fix == [] &&
      forceList (mrHead (start e 0 sz) e sz true ws r x b).val fun v =>
        parseMem v (reg3 r) x b == some (mn, ops, 0)
  | _, _ => false

def checkRM (op ws w r : Nat) (x b : Bool) : Bool :=
  match findEncoding ⟨op, 0, 0, .regMem ws r w noAddr⟩, meaning ⟨op, 0, 0, .regMem ws r w noAddr⟩ with
  | some e, some ⟨mn, ops, _, none⟩ =>
    e.impl1 == 0 &&
      let sz := operandSize ⟨op, 0, 0, .regMem ws r w noAddr⟩
      (mrHead (start e 0 sz) e sz false w r x b).fix == [] &&
      forceList (mrHead (start e 0 sz) e sz false w r x b).val fun v =>
        parseMem v (reg3 r) x b == some (mn, ops, 0)
  | _, _ => false

theorem meaning_memReg (op cc p ws : Nat) (a : Addr) (w r : Nat) :
    meaning ⟨op, cc, p, .memReg ws a w r⟩
      = (meaning ⟨op, 0, 0, .memReg ws noAddr w r⟩).map fun i => { i with mem := some (memOf a) } := by
  simp only [meaning]
  split <;> try rfl
  split <;> rfl

theorem meaning_regMem (op cc p ws : Nat) (a : Addr) (w r : Nat) :
    meaning ⟨op, cc, p, .regMem ws r w a⟩
      = (meaning ⟨op, 0, 0, .regMem ws r w noAddr⟩).map fun i => { i with mem := some (memOf a) } := by
  simp only [meaning]
  split <;> rfl

theorem findEncoding_memReg (op cc p ws : Nat) (a : Addr) (w r : Nat) :
    findEncoding ⟨op, cc, p, .memReg ws a w r⟩ = findEncoding ⟨op, 0, 0, .memReg ws noAddr w r⟩ := rfl

theorem findEncoding_regMem (op cc p ws : Nat) (a : Addr) (w r : Nat) :
    findEncoding ⟨op, cc, p, .regMem ws r w a⟩ = findEncoding ⟨op, 0, 0, .regMem ws r w noAddr⟩ := rfl

theorem right_memReg {op cc ws w r : Nat} {a : Addr} (ok : a.Ok)
    (hj : (op == oJMP || op == oJcc) = false)
    (h : checkMR op ws w r (is64 a.index) (is64 a.base) = true) :
    Right ⟨op, cc, 0, .memReg ws a w r⟩ := by
  unfold checkMR at h
  split at h
  · rename_i e mn ops mm he hm
    simp only [Bool.and_eq_true, beq_iff_eq, forceList_eq] at h
    obtain ⟨h1, h2, h3⟩ := h
    obtain ⟨c, hc⟩ : ∃ c, c = mrHead (start e 0 (operandSize ⟨op, 0, 0, .memReg ws noAddr w r⟩))
        e (operandSize ⟨op, 0, 0, .memReg ws noAddr w r⟩) true
        ws r (is64 a.index) (is64 a.base) := ⟨_, rfl⟩
    rw [← hc] at h3 h2
    obtain ⟨bs, ea, _, _, h5, hd⟩ := parseMem_decode h3 ok 0
    have key : encode ⟨op, cc, 0, .memReg ws a w r⟩
        = some ⟨c.val ++ bs, c.fix ++ addrFix a (c.val.length + 1) 0⟩ := by
      unfold encode
      rw [findEncoding_memReg, he]
      simp only [encodeMemReg_eq]
      rw [if_neg (by simp [h1])]
      have g := congrArg (Option.map Prod.fst) ea
      rw [hc] at g
      rw [hc]
      exact g
    refine ⟨_, _, key, by rw [meaning_memReg, hm]; rfl, ?_, ?_⟩
    · intro t
      rw [List.append_assoc]
      exact hd t t none rfl
    · refine links_mem (v := c.val) (bs := bs) (post := []) rfl hj ok rfl (by simp)
        (by simp [h2]) ?_
      intro g
      obtain ⟨m, hm, hd⟩ := h5 g
      exact ⟨m, hm, fun z t hz => hd z t t none hz rfl⟩
  · cases h

theorem right_regMem {op cc ws w r : Nat} {a : Addr} (ok : a.Ok)
    (hj : (op == oJMP || op == oJcc) = false)
    (h : checkRM op ws w r (is64 a.index) (is64 a.base) = true) :
    Right ⟨op, cc, 0, .regMem ws r w a⟩ := by
  unfold checkRM at h
  split at h
  · rename_i e mn ops mm he hm
    simp only [Bool.and_eq_true, beq_iff_eq, forceList_eq] at h
    obtain ⟨h1, h2, h3⟩ := h
    obtain ⟨c, hc⟩ : ∃ c, c = mrHead (start e 0 (operandSize ⟨op, 0, 0, .regMem ws r w noAddr⟩))
        e (operandSize ⟨op, 0, 0, .regMem ws r w noAddr⟩) false
        w r (is64 a.index) (is64 a.base) := ⟨_, rfl⟩
    rw [← hc] at h3 h2
    obtain ⟨bs, ea, _, _, h5, hd⟩ := parseMem_decode h3 ok 0
    have key : encode ⟨op, cc, 0, .regMem ws r w a⟩
        = some ⟨c.val ++ bs, c.fix ++ addrFix a (c.val.length + 1) 0⟩ := by
      unfold encode
      rw [findEncoding_regMem, he]
      simp only [encodeMemReg_eq]
      rw [if_neg (by simp [h1])]
      have g := congrArg (Option.map Prod.fst) ea
      rw [hc] at g
      rw [hc]
      exact g
    refine ⟨_, _, key, by rw [meaning_regMem, hm]; rfl, ?_, ?_⟩
    · intro t
      rw [List.append_assoc]
      exact hd t t none rfl
    · refine links_mem (v := c.val) (bs := bs) (post := []) rfl hj ok rfl (by simp)
        (by simp [h2]) ?_
      intro g
      obtain ⟨m, hm, hd⟩ := h5 g
      exact ⟨m, hm, fun z t hz => hd z t t none hz rfl⟩
  · cases h

theorem arith_mr : ∀ op ∈ [oADD, oAND, oCMP, oMOV, oOR, oTEST, oXOR], ∀ w ∈ widths, ∀ r ∈ regsB w,
    ∀ x b, checkMR op w w r x b = true := by decide +kernel

theorem arith_rm : ∀ op ∈ [oADD, oAND, oCMP, oMOV, oOR, oSUB, oTEST, oXOR], ∀ w ∈ widths,
    ∀ r ∈ regsB w, ∀ x b, checkRM op w w r x b = true := by decide +kernel

theorem vector_mr : ∀ p ∈ vectors, ∀ r ∈ (if p.2.2.2.2 then xmms else gprs),
    ∀ x b, checkMR p.1 p.2.1 p.2.2.1 r x b = true := by decide +kernel

theorem other_mr : ∀ p ∈ [(oMOVSX, 4, 8), (oMOVSX, 1, 4), (oMOVSX, 1, 8), (oMOVSX, 2, 4),
    (oMOVSX, 2, 8), (oMOVZX, 1, 4), (oMOVZX, 1, 8), (oMOVZX, 2, 4), (oMOVZX, 2, 8), (oLEA, 8, 8)],
    ∀ r ∈ gprs, ∀ x b, checkMR p.1 p.2.1 p.2.2 r x b = true := by decide +kernel

theorem vector_rm : ∀ p ∈ vectorStores, ∀ r ∈ xmms, ∀ x b,
    checkRM p.1 p.2.1 p.2.2 r x b = true := by decide +kernel

/-! ## Memory alone -/

/-- What `encodeMem` writes before the address. -/
def mHead (c : Code) (e : Enc) (w : Nat) (x b : Bool) : Code :=
  let c := pushRex c (withW (REX ||| flag x 2 ||| flag b 1) e.opc w) false
  let c := encodeOpcode c e
  if e.opxW then c.orBack 1 (flag (w != 1) 1) else c

theorem encodeMem_eq (c : Code) (e : Enc) (w : Nat) (a : Addr) :
    encodeMem c e w a
      = (encodeAddress (mHead c e w (is64 a.index) (is64 a.base)) (e.modrm / 8 % 8) a 0).map (·.1) :=
  rfl

def checkM (op w : Nat) (x b : Bool) : Bool :=
  match findEncoding ⟨op, 0, 0, .mem w noAddr⟩, meaning ⟨op, 0, 0, .mem w noAddr⟩ with
  | some e, some ⟨mn, ops, _, none⟩ =>
    (mHead (start e 0 w) e w x b).fix == [] &&
      forceList (mHead (start e 0 w) e w x b).val fun v =>
        parseMem v (e.modrm / 8 % 8) x b == some (mn, ops, 0)
  | _, _ => false

theorem meaning_mem (op cc p : Nat) (a : Addr) (w : Nat) :
    meaning ⟨op, cc, p, .mem w a⟩
      = (meaning ⟨op, 0, 0, .mem w noAddr⟩).map fun i => { i with mem := some (memOf a) } := by
  simp only [meaning]
  split <;> try rfl
  split <;> rfl

theorem findEncoding_mem (op cc p : Nat) (a : Addr) (w : Nat) :
    findEncoding ⟨op, cc, p, .mem w a⟩ = findEncoding ⟨op, 0, 0, .mem w noAddr⟩ := rfl

theorem right_mem {op cc w : Nat} {a : Addr} (ok : a.Ok)
    (hj : (op == oJMP || op == oJcc) = false)
    (h : checkM op w (is64 a.index) (is64 a.base) = true) : Right ⟨op, cc, 0, .mem w a⟩ := by
  unfold checkM at h
  split at h
  · rename_i e mn ops mm he hm
    simp only [Bool.and_eq_true, beq_iff_eq, forceList_eq] at h
    obtain ⟨h2, h3⟩ := h
    obtain ⟨c, hc⟩ : ∃ c, c = mHead (start e 0 w) e w (is64 a.index) (is64 a.base) := ⟨_, rfl⟩
    rw [← hc] at h3 h2
    obtain ⟨bs, ea, _, _, h5, hd⟩ := parseMem_decode h3 ok 0
    have key : encode ⟨op, cc, 0, .mem w a⟩
        = some ⟨c.val ++ bs, c.fix ++ addrFix a (c.val.length + 1) 0⟩ := by
      unfold encode
      rw [findEncoding_mem, he]
      simp only [encodeMem_eq]
      have g := congrArg (Option.map Prod.fst) ea
      rw [hc] at g
      rw [hc]
      exact g
    refine ⟨_, _, key, by rw [meaning_mem, hm]; rfl, ?_, ?_⟩
    · intro t
      rw [List.append_assoc]
      exact hd t t none rfl
    · refine links_mem (v := c.val) (bs := bs) (post := []) rfl hj ok rfl (by simp)
        (by simp [h2]) ?_
      intro g
      obtain ⟨m, hm, hd⟩ := h5 g
      exact ⟨m, hm, fun z t hz => hd z t t none hz rfl⟩
  · cases h

theorem unary_m : ∀ op ∈ [oDIV, oIDIV, oMUL, oNOT], ∀ w ∈ widths, ∀ x b, checkM op w x b = true := by
  decide +kernel

theorem other_m : ∀ p ∈ [(oCALL, 8), (oPUSH, 8), (oFILD, 2), (oFILD, 4), (oFILD, 8), (oFISTP, 2),
    (oFISTP, 4), (oFISTP, 8), (oFLD, 4), (oFLD, 8), (oFLD, 16), (oFSTP, 4), (oFSTP, 8), (oFSTP, 16),
    (oFLDCW, 2), (oFNSTCW, 2), (oFLD, 0), (oFSTP, 0), (oFLDCW, 0), (oFNSTCW, 0)], ∀ x b, checkM p.1 p.2 x b = true := by decide +kernel

end Verif.Encode
