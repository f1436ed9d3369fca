import Verif.Encode.Check

/-! Instructions with one register or without operands: all of them, one by one. -/

namespace Verif.Encode

theorem unary_all : ∀ op ∈ [oDIV, oIDIV, oMUL, oNOT], ∀ w ∈ widths, ∀ r ∈ regsA w,
    checkR ⟨op, 0, 0, .reg w r⟩ = true := by decide +kernel

theorem stack_all : ∀ op ∈ [oCALL, oPUSH, oPOP], ∀ r ∈ gprs,
    checkR ⟨op, 0, 0, .reg 8 r⟩ = true := by decide +kernel

theorem setcc_all : ∀ cc < 16, ∀ r ∈ regsA 1, checkR ⟨oSETcc, cc, 0, .reg 1 r⟩ = true := by
  decide +kernel

theorem none_all : ∀ p ∈ [(oCxy, 0, 4), (oCxy, 0, 8), (oLEAVE, 0, 0), (oRET, 0, 0), (oFLDZ, 0, 0),
    (oMOV_STR, 0, 1), (oMOV_STR, 0, 2), (oMOV_STR, 0, 4), (oMOV_STR, 0, 8),
    (oMOV_STR, 0xF3, 1), (oMOV_STR, 0xF3, 2), (oMOV_STR, 0xF3, 4), (oMOV_STR, 0xF3, 8)],
    checkR ⟨p.1, 0, p.2.1, .none p.2.2⟩ = true := by decide +kernel

end Verif.Encode
