import Verif.Encode.Compose

/-! Tests of single instructions that imply the decoding theorem for them. -/

namespace Verif.Encode

open Intel

/-- The encoder's bytes are read as the instruction asked for, whatever follows. -/
def Right (i : Instr) : Prop :=
  ∃ c ins, encode i = some c ∧ meaning i = some ins ∧ (∀ t, decode (c.val ++ t) = some (ins, t))
    ∧ Links i c ins

/-! The kernel evaluates arguments again at each use; these evaluate numbers first. -/

def forceNat {α : Type} (n : Nat) (g : Nat → α) : α :=
  match n with
  | 0 => g 0
  | k + 1 => g (k + 1)

def forceList {α : Type} : List Nat → (List Nat → α) → α
  | [], g => g []
  | b :: l, g => forceNat b fun b => forceList l fun l => g (b :: l)

theorem forceNat_eq {α : Type} (n : Nat) (g : Nat → α) : forceNat n g = g n := by
  cases n <;> rfl

theorem forceList_eq {α : Type} (l : List Nat) (g : List Nat → α) : forceList l g = g l := by
  induction l generalizing g with
  | nil => rfl
  | cons b l ih => simp only [forceList, forceNat_eq, ih]

/-- A boolean test that implies it. -/
def checkR (i : Instr) : Bool :=
  match encode i, meaning i with
  | some c, some ⟨mn, ops, none, none⟩ => i.ref == none && c.fix == [] && forceList c.val fun v => parseReg v == some (mn, ops, 0)
  | _, _ => false

theorem immediate_zero (t : List Nat) : immediate 0 t = some (none, t) := rfl

theorem right_of_check {i : Instr} (h : checkR i = true) : Right i := by
  unfold checkR at h
  split at h
  · rename_i c mn ops e1 e2
    simp only [Bool.and_eq_true, beq_iff_eq, forceList_eq] at h
    exact ⟨c, _, e1, e2, fun t => parseReg_decode h.2 (immediate_zero t),
      by rw [Links, h.1.1]; exact h.1.2⟩
  · cases h

/-- The distance of an address. -/
theorem links_mem {i : Instr} {c : Code} {ins : Ins} {a : Addr} {v bs post : List Nat}
    (ha : i.ops.address = some a) (hj : i.jumps = false) (ok : a.Ok)
    (hm : ins.mem.isSome) (hv : c.val = v ++ (bs ++ post))
    (hf : c.fix = addrFix a (v.length + 1) post.length)
    (hd : a.sym.isSome → ∃ m, bs = [m, 0, 0, 0, 0] ∧ ∀ z t, z.length = 4 →
      decode (v ++ (m :: (z ++ (post ++ t)))) = some ({ ins with mem := some (.rip (distance z)) }, t)) :
    Links i c ins := by
  unfold Links Instr.ref
  rw [ha]
  simp only [Option.bind_some]
  rcases hs : a.sym with _ | ⟨ty, s⟩
  · simp only [Option.map_none]
    rw [hf, addrFix, hs]
  · simp only [Option.map_some]
    obtain ⟨m, rfl, hz'⟩ := hd (by rw [hs]; rfl)
    refine ⟨v ++ [m], post, by simp, by rw [hv]; simp, ?_, ?_⟩
    · intro z t hz
      rw [List.append_assoc, List.singleton_append, hz' z t hz, reach]
      obtain ⟨x, hx⟩ := Option.isSome_iff_exists.mp hm
      rw [hx]
    · rw [hf, addrFix, hs, hj]
      simp only [Addr.Ok, hs] at ok
      cases ty with
      | plt => exact absurd rfl ok.1
      | normal => simp [refType]
      | got => simp [refType]

theorem arith_mem {op : Nat} (h : (arith op).isSome) :
    op ∈ [oADD, oAND, oCMP, oMOV, oOR, oSUB, oTEST, oXOR] := by
  unfold arith at h
  split at h <;> first | decide | cases h

theorem shift_mem {op : Nat} (h : (shift op).isSome) : op ∈ [oSAR, oSHL, oSHR] := by
  unfold shift at h
  split at h <;> first | decide | cases h

theorem unary_mem {op : Nat} (h : (unary op).isSome) : op ∈ [oDIV, oIDIV, oMUL, oNOT] := by
  unfold unary at h
  split at h <;> first | decide | cases h

/-- The vector instructions: opcode, widths, kinds of registers. -/
def vectors : List (Nat × Nat × Nat × Bool × Bool) := [
      (oADDS, 4, 4, true, true), (oADDS, 8, 8, true, true), (oSUBS, 4, 4, true, true),
      (oSUBS, 8, 8, true, true), (oMULS, 4, 4, true, true), (oMULS, 8, 8, true, true),
      (oDIVS, 4, 4, true, true), (oDIVS, 8, 8, true, true), (oCVTSI2S, 4, 4, false, true),
      (oCVTSI2S, 8, 4, false, true), (oCVTSI2S, 4, 8, false, true), (oCVTSI2S, 8, 8, false, true),
      (oCVTS2S, 4, 8, true, true), (oCVTS2S, 8, 4, true, true), (oCVTTS2SI, 4, 4, true, false),
      (oCVTTS2SI, 4, 8, true, false), (oCVTTS2SI, 8, 4, true, false), (oCVTTS2SI, 8, 8, true, false),
      (oMOVAP, 4, 4, true, true), (oMOVS, 4, 4, true, true), (oMOVS, 8, 8, true, true),
      (oUCOMIS, 4, 4, true, true), (oUCOMIS, 8, 8, true, true), (oPXOR, 8, 8, true, true),
      (oANDNPS, 4, 4, true, true), (oANDPS, 4, 4, true, true), (oORPS, 4, 4, true, true),
      (oCVTPS2DQ, 4, 4, true, true), (oCVTDQ2PS, 4, 4, true, true), (oMOVUPS, 4, 4, true, true)]

/-- Those to memory. -/
def vectorStores : List (Nat × Nat × Nat) :=
  [(oMOVAP, 4, 4), (oMOVS, 4, 4), (oMOVS, 8, 8), (oMOVUPS_ST, 4, 4)]

theorem vector_mem {op ws w m xs xd n} (h : vector op ws w = some (m, xs, xd, n)) :
    (op, ws, w, xs, xd) ∈ vectors := by
  unfold vector at h
  split at h <;> first | (cases h; decide) | cases h

theorem vectorStore_mem {op ws w : Nat} (h : (vectorStore op ws w).isSome) : (op, ws, w) ∈ vectorStores := by
  unfold vectorStore at h
  split at h <;> first | decide | cases h

end Verif.Encode
