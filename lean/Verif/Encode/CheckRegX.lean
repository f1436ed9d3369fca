import Verif.Encode.CheckReg

/-! Two-register instructions that convert, or use vector registers: all of them, one
by one. -/

namespace Verif.Encode

theorem vector_0 : ∀ p ∈ (vectors.drop 0).take 3,
    ∀ a ∈ (if p.2.2.2.1 then xmms else gprs), ∀ b ∈ (if p.2.2.2.2 then xmms else gprs),
      checkR ⟨p.1, 0, 0, .regReg p.2.1 a p.2.2.1 b⟩ = true := by decide +kernel

theorem vector_1 : ∀ p ∈ (vectors.drop 3).take 3,
    ∀ a ∈ (if p.2.2.2.1 then xmms else gprs), ∀ b ∈ (if p.2.2.2.2 then xmms else gprs),
      checkR ⟨p.1, 0, 0, .regReg p.2.1 a p.2.2.1 b⟩ = true := by decide +kernel

theorem vector_2 : ∀ p ∈ (vectors.drop 6).take 3,
    ∀ a ∈ (if p.2.2.2.1 then xmms else gprs), ∀ b ∈ (if p.2.2.2.2 then xmms else gprs),
      checkR ⟨p.1, 0, 0, .regReg p.2.1 a p.2.2.1 b⟩ = true := by decide +kernel

theorem vector_3 : ∀ p ∈ (vectors.drop 9).take 3,
    ∀ a ∈ (if p.2.2.2.1 then xmms else gprs), ∀ b ∈ (if p.2.2.2.2 then xmms else gprs),
      checkR ⟨p.1, 0, 0, .regReg p.2.1 a p.2.2.1 b⟩ = true := by decide +kernel

theorem vector_4 : ∀ p ∈ (vectors.drop 12).take 3,
    ∀ a ∈ (if p.2.2.2.1 then xmms else gprs), ∀ b ∈ (if p.2.2.2.2 then xmms else gprs),
      checkR ⟨p.1, 0, 0, .regReg p.2.1 a p.2.2.1 b⟩ = true := by decide +kernel

theorem vector_5 : ∀ p ∈ (vectors.drop 15).take 3,
    ∀ a ∈ (if p.2.2.2.1 then xmms else gprs), ∀ b ∈ (if p.2.2.2.2 then xmms else gprs),
      checkR ⟨p.1, 0, 0, .regReg p.2.1 a p.2.2.1 b⟩ = true := by decide +kernel

theorem vector_6 : ∀ p ∈ (vectors.drop 18).take 3,
    ∀ a ∈ (if p.2.2.2.1 then xmms else gprs), ∀ b ∈ (if p.2.2.2.2 then xmms else gprs),
      checkR ⟨p.1, 0, 0, .regReg p.2.1 a p.2.2.1 b⟩ = true := by decide +kernel

theorem vector_7 : ∀ p ∈ (vectors.drop 21).take 3,
    ∀ a ∈ (if p.2.2.2.1 then xmms else gprs), ∀ b ∈ (if p.2.2.2.2 then xmms else gprs),
      checkR ⟨p.1, 0, 0, .regReg p.2.1 a p.2.2.1 b⟩ = true := by decide +kernel

theorem vector_8 : ∀ p ∈ (vectors.drop 24).take 3,
    ∀ a ∈ (if p.2.2.2.1 then xmms else gprs), ∀ b ∈ (if p.2.2.2.2 then xmms else gprs),
      checkR ⟨p.1, 0, 0, .regReg p.2.1 a p.2.2.1 b⟩ = true := by decide +kernel

theorem vector_9 : ∀ p ∈ (vectors.drop 27).take 3,
    ∀ a ∈ (if p.2.2.2.1 then xmms else gprs), ∀ b ∈ (if p.2.2.2.2 then xmms else gprs),
      checkR ⟨p.1, 0, 0, .regReg p.2.1 a p.2.2.1 b⟩ = true := by decide +kernel

theorem vector_all : ∀ p ∈ vectors,
    ∀ a ∈ (if p.2.2.2.1 then xmms else gprs), ∀ b ∈ (if p.2.2.2.2 then xmms else gprs),
      checkR ⟨p.1, 0, 0, .regReg p.2.1 a p.2.2.1 b⟩ = true := by
  have e : vectors = (((((((((((vectors.drop 0).take 3 ++ (vectors.drop 3).take 3) ++ (vectors.drop 6).take 3) ++
      (vectors.drop 9).take 3) ++ (vectors.drop 12).take 3) ++ (vectors.drop 15).take 3) ++ (vectors.drop 18).take 3) ++
      (vectors.drop 21).take 3) ++ (vectors.drop 24).take 3) ++ (vectors.drop 27).take 3)) := by decide
  intro p hp
  rw [e] at hp
  simp only [List.mem_append] at hp
  rcases hp with ((((((((hp | hp) | hp) | hp) | hp) | hp) | hp) | hp) | hp) | hp
  · exact vector_0 p hp
  · exact vector_1 p hp
  · exact vector_2 p hp
  · exact vector_3 p hp
  · exact vector_4 p hp
  · exact vector_5 p hp
  · exact vector_6 p hp
  · exact vector_7 p hp
  · exact vector_8 p hp
  · exact vector_9 p hp

theorem movslq_all : ∀ a ∈ gprs, ∀ b ∈ gprs, checkR ⟨oMOVSX, 0, 0, .regReg 4 a 8 b⟩ = true := by
  decide +kernel

theorem extend_oMOVSX : ∀ ws ∈ [1, 2], ∀ w ∈ [4, 8], ∀ a ∈ regsA ws,
    ∀ b ∈ gprs, checkR ⟨oMOVSX, 0, 0, .regReg ws a w b⟩ = true := by decide +kernel

theorem extend_oMOVZX : ∀ ws ∈ [1, 2], ∀ w ∈ [4, 8], ∀ a ∈ regsA ws,
    ∀ b ∈ gprs, checkR ⟨oMOVZX, 0, 0, .regReg ws a w b⟩ = true := by decide +kernel

theorem extend_all : ∀ op ∈ [oMOVSX, oMOVZX], ∀ ws ∈ [1, 2], ∀ w ∈ [4, 8], ∀ a ∈ regsA ws,
    ∀ b ∈ gprs, checkR ⟨op, 0, 0, .regReg ws a w b⟩ = true := by
  intro op hop
  simp only [List.mem_cons, List.not_mem_nil, or_false] at hop
  rcases hop with rfl | rfl
  · exact extend_oMOVSX
  · exact extend_oMOVZX

end Verif.Encode
