import Verif.Asm.OutAddress
import Verif.Asm.MatchRep
import Verif.Encode.All

/-!
The mnemonic printed for every instruction of `Encode.Good`, by representatives: it is a
word, and the assembler knows it as an instruction of the right form.
-/

namespace Verif.Asm.Printed

open Gas
open Att (Arg Form)
open Encode

theorem withWidths_self (o : Ops) : withWidths o o.sourceWidth o.destWidth = o := by cases o <;> rfl

theorem matchesRow_rep' (o : Ops) (e : Enc) : matchesRow (repOps o) e = matchesRow o e := by
  have h := matchesRow_rep o o.sourceWidth o.destWidth e
  have h2 : (repOps o).sourceWidth = o.sourceWidth := by cases o <;> rfl
  have h3 : (repOps o).destWidth = o.destWidth := by cases o <;> rfl
  rw [withWidths_self, ← h2, ← h3, withWidths_self] at h
  exact h

theorem mnemonic_rep (op cc pfx : Nat) (o : Ops) :
    mnemonicText ⟨op, cc, pfx, o⟩ = mnemonicText ⟨op, cc, pfx, repOps o⟩ := by
  have h1 : findRow ⟨op, cc, pfx, o⟩ = findRow ⟨op, cc, pfx, repOps o⟩ := by
    unfold findRow
    simp only [matchesRow_rep']
  have h2 : ∀ e, widthText e (repOps o) = widthText e o := by intro e; cases o <;> rfl
  unfold mnemonicText
  simp only [h1, h2]

/-- A mnemonic of the form. -/
def spoken (i : Instr) (f : Form) : Bool :=
  match mnemonicText i with
  | some m => m.all isWord && m != [] && m != str% "rep" && m != str% "fldz" && Att.lookup m == some f
  | none => false

theorem spoken_rep {op cc pfx : Nat} {o : Ops} {f : Form} (h : spoken ⟨op, cc, pfx, repOps o⟩ f = true) :
    spoken ⟨op, cc, pfx, o⟩ f = true := by
  unfold spoken at h ⊢
  rw [mnemonic_rep]
  exact h

theorem spoken_text {i : Instr} {f : Form} (h : spoken i f = true) :
    ∃ m, mnemonicText i = some m ∧ (∀ c ∈ m, isWord c = true) ∧ m ≠ [] ∧ m ≠ str% "rep" ∧ m ≠ str% "fldz"
      ∧ Att.lookup m = some f := by
  unfold spoken at h
  split at h
  · rename_i m hm
    simp only [Bool.and_eq_true, List.all_eq_true, bne_iff_ne, beq_iff_eq] at h
    obtain ⟨⟨⟨⟨h1, h2⟩, h3⟩, h4⟩, h5⟩ := h
    exact ⟨m, hm, h1, h2, h3, h4, h5⟩
  · cases h

theorem repReg_gpr {r : Nat} (h : r ∈ gprs) : repReg r ∈ [1, 2, 3] := by
  exact (show ∀ r ∈ gprs, repReg r ∈ [1, 2, 3] by decide) r h

theorem repReg_xmm {r : Nat} (h : r ∈ xmms) : repReg r = 17 := by
  exact (show ∀ r ∈ xmms, repReg r = 17 by decide) r h

theorem repInt_mem (q : Int) : repInt q ∈ [(0 : Int), 2147483648, 1099511627776] := by
  unfold repInt; split_ifs <;> simp

def arithOps : List Nat := [oADD, oAND, oCMP, oMOV, oOR, oSUB, oTEST, oXOR]
def mnOf (op : Nat) : Encode.Intel.Mn :=
  ((arith op).or ((shift op).or (unary op))).getD .ret

theorem say_arith_rr : ∀ op ∈ arithOps, ∀ w ∈ widths, ∀ a ∈ [1, 2, 3], ∀ b ∈ [1, 2, 3],
    spoken ⟨op, 0, 0, .regReg w a w b⟩ (.bin (mnOf op) (some w)) = true := by decide +kernel

theorem say_arith_mr : ∀ op ∈ arithOps, op ≠ oSUB → ∀ w ∈ widths, ∀ b ∈ [1, 2, 3],
    spoken ⟨op, 0, 0, .memReg w noAddr w b⟩ (.bin (mnOf op) (some w)) = true := by decide +kernel

theorem say_arith_rm : ∀ op ∈ arithOps, ∀ w ∈ widths, ∀ b ∈ [1, 2, 3],
    spoken ⟨op, 0, 0, .regMem w b w noAddr⟩ (.bin (mnOf op) (some w)) = true := by decide +kernel

theorem say_arith_ir : ∀ op ∈ arithOps, ∀ w ∈ widths, ∀ q ∈ [(0 : Int), 2147483648, 1099511627776],
    ∀ b ∈ [1, 2, 3], immRegOk op w q →
    spoken ⟨op, 0, 0, .immReg ⟨w, .int q⟩ w b⟩ (.bin (mnOf op) (some w)) = true := by decide +kernel

theorem say_arith_im : ∀ op ∈ arithOps, ∀ w ∈ widths, ∀ q ∈ [(0 : Int), 2147483648, 1099511627776],
    immMemOk op w q →
    spoken ⟨op, 0, 0, .immMem ⟨w, .int q⟩ w noAddr⟩ (.bin (mnOf op) (some w)) = true := by decide +kernel

theorem say_shift_rr : ∀ op ∈ [oSAR, oSHL, oSHR], ∀ w ∈ widths, ∀ b ∈ [1, 2, 3],
    spoken ⟨op, 0, 0, .regReg 1 2 w b⟩ (.shift (mnOf op) (some w)) = true := by decide +kernel

theorem say_shift_ir : ∀ op ∈ [oSAR, oSHL, oSHR], ∀ w ∈ widths, ∀ q ∈ [(0 : Int), 2147483648, 1099511627776],
    ∀ b ∈ [1, 2, 3],
    spoken ⟨op, 0, 0, .immReg ⟨1, .int q⟩ w b⟩ (.shift (mnOf op) (some w)) = true := by decide +kernel

theorem say_unary_r : ∀ op ∈ [oDIV, oIDIV, oMUL, oNOT], ∀ w ∈ widths, ∀ b ∈ [1, 2, 3],
    spoken ⟨op, 0, 0, .reg w b⟩ (.un (mnOf op) none) = true := by decide +kernel

theorem say_unary_m : ∀ op ∈ [oDIV, oIDIV, oMUL, oNOT], ∀ w ∈ widths,
    spoken ⟨op, 0, 0, .mem w noAddr⟩ (.un (mnOf op) (some w)) = true := by decide +kernel

/-- The form of a vector instruction. -/
def vecForm (op ws w : Nat) : Form :=
  match vector op ws w with
  | some (m, true, true, n) => .vec m n (m == .movaps || m == .movups || m == .movss || m == .movsd)
  | some (m, false, true, _) => .fromInt m (some ws)
  | some (m, _, _, n) => .toInt m n (some w)
  | none => .call

/-- Representatives of vector registers, or of general registers. -/
def repsOf (x : Bool) : List Nat := if x then [17] else [1, 2, 3]

theorem say_vector_rr : ∀ p ∈ vectors, ∀ a ∈ repsOf p.2.2.2.1, ∀ b ∈ repsOf p.2.2.2.2,
    spoken ⟨p.1, 0, 0, .regReg p.2.1 a p.2.2.1 b⟩ (vecForm p.1 p.2.1 p.2.2.1) = true := by decide +kernel

theorem say_vector_mr : ∀ p ∈ vectors, ∀ b ∈ repsOf p.2.2.2.2,
    spoken ⟨p.1, 0, 0, .memReg p.2.1 noAddr p.2.2.1 b⟩ (vecForm p.1 p.2.1 p.2.2.1) = true := by decide +kernel

def storeForm (op ws w : Nat) : Form :=
  match vectorStore op ws w with
  | some (m, n) => .vec m n true
  | none => .call

theorem say_vector_rm : ∀ p ∈ vectorStores,
    spoken ⟨p.1, 0, 0, .regMem p.2.1 17 p.2.2 noAddr⟩ (storeForm p.1 p.2.1 p.2.2) = true := by decide +kernel

def extForm (op ws w : Nat) : Form := .ext (if op = oMOVSX then .movsx else .movzx) ws w

def extends_ : List (Nat × Nat × Nat) :=
  [(oMOVSX, 4, 8), (oMOVSX, 1, 4), (oMOVSX, 1, 8), (oMOVSX, 2, 4), (oMOVSX, 2, 8),
    (oMOVZX, 1, 4), (oMOVZX, 1, 8), (oMOVZX, 2, 4), (oMOVZX, 2, 8)]

theorem say_ext_rr : ∀ p ∈ extends_, ∀ a ∈ [1, 2, 3], ∀ b ∈ [1, 2, 3],
    spoken ⟨p.1, 0, 0, .regReg p.2.1 a p.2.2 b⟩ (extForm p.1 p.2.1 p.2.2) = true := by decide +kernel

theorem say_ext_mr : ∀ p ∈ extends_, ∀ b ∈ [1, 2, 3],
    spoken ⟨p.1, 0, 0, .memReg p.2.1 noAddr p.2.2 b⟩ (extForm p.1 p.2.1 p.2.2) = true := by decide +kernel

theorem say_lea : ∀ b ∈ [1, 2, 3],
    spoken ⟨oLEA, 0, 0, .memReg 8 noAddr 8 b⟩ (.lea none) = true := by decide +kernel

theorem say_stack : ∀ b ∈ [1, 2, 3],
    spoken ⟨oCALL, 0, 0, .reg 8 b⟩ .call = true ∧ spoken ⟨oPUSH, 0, 0, .reg 8 b⟩ (.stack .push) = true
      ∧ spoken ⟨oPOP, 0, 0, .reg 8 b⟩ (.stack .pop) = true := by decide +kernel

theorem say_set : ∀ cc < 16, ∀ b ∈ [1, 2, 3],
    spoken ⟨oSETcc, cc, 0, .reg 1 b⟩ (.set cc) = true := by decide +kernel

def memForm (op w : Nat) : Form :=
  match x87mem op w with
  | some (m, n) => .fmem m n
  | none => if op = oCALL then .call else .stack .push

theorem say_mem : ∀ p ∈ [(oCALL, 8), (oPUSH, 8), (oFILD, 2), (oFILD, 4), (oFILD, 8), (oFISTP, 2),
    (oFISTP, 4), (oFISTP, 8), (oFLD, 4), (oFLD, 8), (oFLD, 16), (oFSTP, 4), (oFSTP, 8), (oFSTP, 16),
    (oFLDCW, 2), (oFNSTCW, 2), (oFLD, 0), (oFSTP, 0), (oFLDCW, 0), (oFNSTCW, 0)],
    spoken ⟨p.1, 0, 0, .mem p.2 noAddr⟩ (memForm p.1 p.2) = true := by decide +kernel

theorem say_push : ∀ q ∈ [(0 : Int), 2147483648, 1099511627776],
    in32BitRange q = true → spoken ⟨oPUSH, 0, 0, .imm ⟨8, .int q⟩⟩ (.stack .push) = true := by decide +kernel

theorem say_jump : ∀ cc < 16,
    spoken ⟨oCALL, 0, 0, .imm ⟨8, .addr ⟨some (.normal, 0), 0, 0, 0, 0⟩⟩⟩ .call = true
      ∧ spoken ⟨oJMP, 0, 0, .imm ⟨8, .addr ⟨some (.normal, 0), 0, 0, 0, 0⟩⟩⟩ (.jump .jmp) = true
      ∧ spoken ⟨oJcc, cc, 0, .imm ⟨8, .addr ⟨some (.normal, 0), 0, 0, 0, 0⟩⟩⟩ (.jump (.jcc cc)) = true := by
  decide +kernel

theorem say_none :
    spoken ⟨oCxy, 0, 0, .none 4⟩ (.plain .cdq) = true ∧ spoken ⟨oCxy, 0, 0, .none 8⟩ (.plain .cqo) = true
      ∧ spoken ⟨oLEAVE, 0, 0, .none 0⟩ (.plain .leave) = true
      ∧ spoken ⟨oRET, 0, 0, .none 0⟩ (.plain .ret) = true
      ∧ ∀ w ∈ widths, spoken ⟨oMOV_STR, 0, 0, .none w⟩ (.plain (.movs false w)) = true := by decide +kernel

end Verif.Asm.Printed
