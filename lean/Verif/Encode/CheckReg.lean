import Verif.Encode.Check

/-! Two-register instructions: all of them, one by one; in parts, so that checking them
needs less memory. -/

namespace Verif.Encode

theorem arith_oADDa : ∀ w ∈ [1, 2], ∀ a ∈ regsA w, ∀ b ∈ regsA w,
    checkR ⟨oADD, 0, 0, .regReg w a w b⟩ = true := by decide +kernel

theorem arith_oADDb : ∀ w ∈ [4, 8], ∀ a ∈ regsA w, ∀ b ∈ regsA w,
    checkR ⟨oADD, 0, 0, .regReg w a w b⟩ = true := by decide +kernel

theorem arith_oANDa : ∀ w ∈ [1, 2], ∀ a ∈ regsA w, ∀ b ∈ regsA w,
    checkR ⟨oAND, 0, 0, .regReg w a w b⟩ = true := by decide +kernel

theorem arith_oANDb : ∀ w ∈ [4, 8], ∀ a ∈ regsA w, ∀ b ∈ regsA w,
    checkR ⟨oAND, 0, 0, .regReg w a w b⟩ = true := by decide +kernel

theorem arith_oCMPa : ∀ w ∈ [1, 2], ∀ a ∈ regsA w, ∀ b ∈ regsA w,
    checkR ⟨oCMP, 0, 0, .regReg w a w b⟩ = true := by decide +kernel

theorem arith_oCMPb : ∀ w ∈ [4, 8], ∀ a ∈ regsA w, ∀ b ∈ regsA w,
    checkR ⟨oCMP, 0, 0, .regReg w a w b⟩ = true := by decide +kernel

theorem arith_oMOVa : ∀ w ∈ [1, 2], ∀ a ∈ regsA w, ∀ b ∈ regsA w,
    checkR ⟨oMOV, 0, 0, .regReg w a w b⟩ = true := by decide +kernel

theorem arith_oMOVb : ∀ w ∈ [4, 8], ∀ a ∈ regsA w, ∀ b ∈ regsA w,
    checkR ⟨oMOV, 0, 0, .regReg w a w b⟩ = true := by decide +kernel

theorem arith_oORa : ∀ w ∈ [1, 2], ∀ a ∈ regsA w, ∀ b ∈ regsA w,
    checkR ⟨oOR, 0, 0, .regReg w a w b⟩ = true := by decide +kernel

theorem arith_oORb : ∀ w ∈ [4, 8], ∀ a ∈ regsA w, ∀ b ∈ regsA w,
    checkR ⟨oOR, 0, 0, .regReg w a w b⟩ = true := by decide +kernel

theorem arith_oSUBa : ∀ w ∈ [1, 2], ∀ a ∈ regsA w, ∀ b ∈ regsA w,
    checkR ⟨oSUB, 0, 0, .regReg w a w b⟩ = true := by decide +kernel

theorem arith_oSUBb : ∀ w ∈ [4, 8], ∀ a ∈ regsA w, ∀ b ∈ regsA w,
    checkR ⟨oSUB, 0, 0, .regReg w a w b⟩ = true := by decide +kernel

theorem arith_oTESTa : ∀ w ∈ [1, 2], ∀ a ∈ regsA w, ∀ b ∈ regsA w,
    checkR ⟨oTEST, 0, 0, .regReg w a w b⟩ = true := by decide +kernel

theorem arith_oTESTb : ∀ w ∈ [4, 8], ∀ a ∈ regsA w, ∀ b ∈ regsA w,
    checkR ⟨oTEST, 0, 0, .regReg w a w b⟩ = true := by decide +kernel

theorem arith_oXORa : ∀ w ∈ [1, 2], ∀ a ∈ regsA w, ∀ b ∈ regsA w,
    checkR ⟨oXOR, 0, 0, .regReg w a w b⟩ = true := by decide +kernel

theorem arith_oXORb : ∀ w ∈ [4, 8], ∀ a ∈ regsA w, ∀ b ∈ regsA w,
    checkR ⟨oXOR, 0, 0, .regReg w a w b⟩ = true := by decide +kernel

theorem arith_all : ∀ op ∈ [oADD, oAND, oCMP, oMOV, oOR, oSUB, oTEST, oXOR], ∀ w ∈ widths,
    ∀ a ∈ regsA w, ∀ b ∈ regsA w, checkR ⟨op, 0, 0, .regReg w a w b⟩ = true := by
  have hw : ∀ w ∈ widths, w ∈ [1, 2] ∨ w ∈ [4, 8] := by decide
  intro op hop w h
  simp only [List.mem_cons, List.not_mem_nil, or_false] at hop
  rcases hw w h with h | h
  · rcases hop with rfl | rfl | rfl | rfl | rfl | rfl | rfl | rfl
    · exact arith_oADDa w h
    · exact arith_oANDa w h
    · exact arith_oCMPa w h
    · exact arith_oMOVa w h
    · exact arith_oORa w h
    · exact arith_oSUBa w h
    · exact arith_oTESTa w h
    · exact arith_oXORa w h
  · rcases hop with rfl | rfl | rfl | rfl | rfl | rfl | rfl | rfl
    · exact arith_oADDb w h
    · exact arith_oANDb w h
    · exact arith_oCMPb w h
    · exact arith_oMOVb w h
    · exact arith_oORb w h
    · exact arith_oSUBb w h
    · exact arith_oTESTb w h
    · exact arith_oXORb w h

theorem shift_all : ∀ op ∈ [oSAR, oSHL, oSHR], ∀ w ∈ widths, ∀ b ∈ regsA w,
    checkR ⟨op, 0, 0, .regReg 1 CX w b⟩ = true := by decide +kernel

end Verif.Encode
