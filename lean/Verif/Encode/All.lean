import Verif.Encode.Size
import Verif.Encode.CheckReg
import Verif.Encode.CheckRegX
import Verif.Encode.CheckRest

/-! Every request of `Good` is encoded right: the cases put together. -/

namespace Verif.Encode

theorem checkR_cc {op cc ws a w b : Nat} (h : Right ⟨op, 0, 0, .regReg ws a w b⟩) :
    Right ⟨op, cc, 0, .regReg ws a w b⟩ := h

theorem x87mem_mem {op w : Nat} (h : (x87mem op w).isSome) :
    (op, w) ∈ [(oCALL, 8), (oPUSH, 8), (oFILD, 2), (oFILD, 4), (oFILD, 8), (oFISTP, 2),
    (oFISTP, 4), (oFISTP, 8), (oFLD, 4), (oFLD, 8), (oFLD, 16), (oFSTP, 4), (oFSTP, 8), (oFSTP, 16),
    (oFLDCW, 2), (oFNSTCW, 2), (oFLD, 0), (oFSTP, 0), (oFLDCW, 0), (oFNSTCW, 0)] := by
  unfold x87mem at h
  split at h <;> first | decide | cases h

abbrev Stays (op : Nat) : Prop := (op == oJMP || op == oJcc) = false

theorem arith_stays {op : Nat} (h : (arith op).isSome) : Stays op :=
  (show ∀ op ∈ [oADD, oAND, oCMP, oMOV, oOR, oSUB, oTEST, oXOR], Stays op by decide) op (arith_mem h)

theorem unary_stays {op : Nat} (h : (unary op).isSome) : Stays op :=
  (show ∀ op ∈ [oDIV, oIDIV, oMUL, oNOT], Stays op by decide) op (unary_mem h)

theorem vector_stays {op ws w m xs xd n} (h : vector op ws w = some (m, xs, xd, n)) : Stays op :=
  (show ∀ p ∈ vectors, Stays p.1 by decide) _ (vector_mem h)

theorem vectorStore_stays {op ws w : Nat} (h : (vectorStore op ws w).isSome) : Stays op :=
  (show ∀ p ∈ vectorStores, Stays p.1 by decide) _ (vectorStore_mem h)

theorem x87mem_stays {op w : Nat} (h : (x87mem op w).isSome) : Stays op :=
  (show ∀ p ∈ [(oCALL, 8), (oPUSH, 8), (oFILD, 2), (oFILD, 4), (oFILD, 8), (oFISTP, 2),
    (oFISTP, 4), (oFISTP, 8), (oFLD, 4), (oFLD, 8), (oFLD, 16), (oFSTP, 4), (oFSTP, 8), (oFSTP, 16),
    (oFLDCW, 2), (oFNSTCW, 2), (oFLD, 0), (oFSTP, 0), (oFLDCW, 0), (oFNSTCW, 0)], Stays p.1 by decide) _ (x87mem_mem h)

theorem good_right (i : Instr) (h : Good i) : Right i := by
  obtain ⟨op, cc, pfx, ops⟩ := i
  cases ops with
  | regReg ws a w b =>
    simp only [Good] at h
    obtain ⟨rfl, h⟩ := h
    rcases h with ⟨h1, rfl, hw, ha, hb⟩ | ⟨h1, rfl, rfl, hw, hb⟩ | ⟨m, xs, xd, n, hv, ha, hb⟩
      | ⟨rfl, rfl, rfl, ha, hb⟩ | ⟨h1, h2, h3, ha, hb⟩
    · exact checkR_cc (right_of_check (arith_all _ (arith_mem h1) _ hw _ ha _ hb))
    · exact checkR_cc (right_of_check (shift_all _ (shift_mem h1) _ hw _ hb))
    · exact checkR_cc (right_of_check (vector_all _ (vector_mem hv) _ ha _ hb))
    · exact checkR_cc (right_of_check (movslq_all _ ha _ hb))
    · refine checkR_cc (right_of_check (extend_all op ?_ ws ?_ w ?_ _ ha _ hb))
      · rcases h1 with rfl | rfl <;> decide
      · rcases h2 with rfl | rfl <;> decide
      · rcases h3 with rfl | rfl <;> decide
  | memReg ws a w r =>
    simp only [Good] at h
    obtain ⟨rfl, ok, h⟩ := h
    have hj : Stays op := by
      rcases h with ⟨h1, _⟩ | ⟨m, xs, xd, n, hv, hr⟩ | ⟨rfl, _⟩ | ⟨rfl | rfl, _⟩ | ⟨rfl, _⟩
      · exact arith_stays h1
      · exact vector_stays hv
      all_goals decide
    apply right_memReg ok hj
    rcases h with ⟨h1, h2, rfl, hw, hr⟩ | ⟨m, xs, xd, n, hv, hr⟩ | ⟨rfl, rfl, rfl, hr⟩
      | ⟨h1, h2, h3, hr⟩ | ⟨rfl, rfl, rfl, hr⟩
    · refine arith_mr op ?_ _ hw _ hr _ _
      have := arith_mem h1
      simp only [List.mem_cons, List.not_mem_nil, or_false] at this ⊢
      rcases this with h | h | h | h | h | h | h | h
      · exact .inl h
      · exact .inr (.inl h)
      · exact .inr (.inr (.inl h))
      · exact .inr (.inr (.inr (.inl h)))
      · exact .inr (.inr (.inr (.inr (.inl h))))
      · exact absurd h h2
      · exact .inr (.inr (.inr (.inr (.inr (.inl h)))))
      · exact .inr (.inr (.inr (.inr (.inr (.inr h)))))
    · exact vector_mr _ (vector_mem hv) _ hr _ _
    · exact other_mr (oMOVSX, 4, 8) (by decide) _ hr _ _
    · refine other_mr (op, ws, w) ?_ _ hr _ _
      rcases h1 with rfl | rfl <;> rcases h2 with rfl | rfl <;> rcases h3 with rfl | rfl <;> decide
    · exact other_mr (oLEA, 8, 8) (by decide) _ hr _ _
  | regMem ws r w a =>
    simp only [Good] at h
    obtain ⟨rfl, ok, h⟩ := h
    have hj : Stays op := by
      rcases h with ⟨h1, _⟩ | ⟨h1, _⟩
      · exact arith_stays h1
      · exact vectorStore_stays h1
    apply right_regMem ok hj
    rcases h with ⟨h1, rfl, hw, hr⟩ | ⟨h1, hr⟩
    · exact arith_rm op (arith_mem h1) _ hw _ hr _ _
    · exact vector_rm _ (vectorStore_mem h1) _ hr _ _
  | immReg im w r =>
    obtain ⟨wi, v⟩ := im
    cases v with
    | addr a => exact absurd h (by simp [Good])
    | int q =>
      simp only [Good] at h
      obtain ⟨rfl, hw, hr, h⟩ := h
      apply right_immReg
      rcases h with ⟨h1, rfl, h2⟩ | ⟨h1, rfl⟩
      · exact arith_ir op (arith_mem h1) _ hw _ hr _ (rep_mem q) (by rw [immRegOk_rep]; exact h2)
      · exact shift_ir op (shift_mem h1) _ hw _ hr _ (rep_mem q)
  | immMem im w a =>
    obtain ⟨wi, v⟩ := im
    cases v with
    | addr a => exact absurd h (by simp [Good])
    | int q =>
      simp only [Good] at h
      obtain ⟨rfl, ok, hw, h1, rfl, h2⟩ := h
      exact right_immMem ok (arith_stays h1)
        (arith_im op (arith_mem h1) _ hw _ _ _ (rep_mem q) (by rw [immMemOk_rep]; exact h2))
  | reg w r =>
    simp only [Good] at h
    obtain ⟨rfl, h⟩ := h
    rcases h with ⟨h1, rfl, hw, hr⟩ | ⟨h1, rfl, rfl, hr⟩ | ⟨rfl, hcc, rfl, hr⟩
    · exact right_of_check (unary_all op (unary_mem h1) _ hw _ hr)
    · refine right_of_check (stack_all op ?_ _ hr)
      rcases h1 with rfl | rfl | rfl <;> decide
    · exact right_of_check (setcc_all cc hcc _ hr)
  | mem w a =>
    simp only [Good] at h
    obtain ⟨rfl, ok, h⟩ := h
    have hj : Stays op := by
      rcases h with ⟨h1, _⟩ | h1 | ⟨rfl | rfl, _⟩
      · exact unary_stays h1
      · exact x87mem_stays h1
      all_goals decide
    apply right_mem ok hj
    rcases h with ⟨h1, hw⟩ | h1 | ⟨h1, rfl⟩
    · exact unary_m op (unary_mem h1) _ hw _ _
    · exact other_m (op, w) (x87mem_mem h1) _ _
    · refine other_m (op, 8) ?_ _ _
      rcases h1 with rfl | rfl <;> decide
  | imm im =>
    obtain ⟨w, v⟩ := im
    cases v with
    | int q =>
      simp only [Good] at h
      obtain ⟨rfl, rfl, rfl, hq⟩ := h
      exact right_push cc hq
    | addr a =>
      simp only [Good] at h
      obtain ⟨rfl, rfl, h⟩ := h
      rcases h with ⟨rfl, hs⟩ | ⟨rfl | ⟨rfl, hcc⟩, hs⟩
      · exact right_call cc hs
      · exact right_jmp cc hs
      · exact right_jcc hcc hs
  | none w =>
    simp only [Good] at h
    have key : ∀ p ∈ [(oCxy, 0, 4), (oCxy, 0, 8), (oLEAVE, 0, 0), (oRET, 0, 0), (oFLDZ, 0, 0),
        (oMOV_STR, 0, 1), (oMOV_STR, 0, 2), (oMOV_STR, 0, 4), (oMOV_STR, 0, 8),
        (oMOV_STR, 0xF3, 1), (oMOV_STR, 0xF3, 2), (oMOV_STR, 0xF3, 4), (oMOV_STR, 0xF3, 8)],
        Right ⟨p.1, cc, p.2.1, .none p.2.2⟩ := fun p hp => right_of_check (none_all p hp)
    apply key (op, pfx, w)
    rcases h with ⟨rfl, rfl, rfl | rfl⟩ | ⟨rfl | rfl | rfl, rfl, rfl⟩ | ⟨rfl, rfl | rfl, hw⟩
    iterate 5 decide
    · simp only [widths, List.mem_cons, List.not_mem_nil, or_false] at hw
      rcases hw with rfl | rfl | rfl | rfl <;> decide
    · simp only [widths, List.mem_cons, List.not_mem_nil, or_false] at hw
      rcases hw with rfl | rfl | rfl | rfl <;> decide

end Verif.Encode
