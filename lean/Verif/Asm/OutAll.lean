import Verif.Asm.OutLine

/-! Every instruction of `Encode.Good` is printed right: the cases put together. -/

namespace Verif.Asm.Printed

open Gas
open Att (Arg Form)
open Encode
open Encode.Intel (Ins Mn)

/-- Instructions whose addresses can be written. -/
def Printable (syms : Bytes → Option Nat) (name : Nat → Bytes) (i : Instr) : Prop :=
  match i.ops with
  | .mem _ a | .memReg _ a _ _ | .regMem _ _ _ a | .immMem _ _ a => Written syms name a
  | .imm ⟨_, .addr a⟩ => Place syms name a
  | _ => True

/-! ## Immediates -/

theorem stored_eq {w : Nat} (hw : w ∈ widths) (q : Int) : stored w q = q.bmod (256 ^ w) := by
  simp only [widths, List.mem_cons, List.not_mem_nil, or_false] at hw
  rcases hw with rfl | rfl | rfl | rfl <;> rfl

theorem stored_immOf {w : Nat} (hw : w ∈ widths) (q : Int) : immOf w (stored w q) = immOf w q := by
  rw [stored_eq hw]
  exact Int.bmod_bmod

theorem stored_fits {mn : Mn} {b : Bool} {w : Nat} {q : Int} (hw : w ∈ widths)
    (h : w = 8 → mn = .mov ∧ b = true ∨ in32BitRange q = true) : Att.immFits mn b w (stored w q) = true := by
  rw [stored_eq hw]
  simp only [widths, List.mem_cons, List.not_mem_nil, or_false] at hw
  unfold Att.immFits
  rcases hw with rfl | rfl | rfl | rfl
  · have h1 := Int.le_bmod (x := q) (m := 256 ^ 1) (by decide)
    have h2 := Int.bmod_lt (x := q) (m := 256 ^ 1) (by decide)
    simp at h1 h2 ⊢; omega
  · have h1 := Int.le_bmod (x := q) (m := 256 ^ 2) (by decide)
    have h2 := Int.bmod_lt (x := q) (m := 256 ^ 2) (by decide)
    simp at h1 h2 ⊢; omega
  · have h1 := Int.le_bmod (x := q) (m := 256 ^ 4) (by decide)
    have h2 := Int.bmod_lt (x := q) (m := 256 ^ 4) (by decide)
    simp at h1 h2 ⊢; omega
  · rw [if_pos rfl]
    have h1 := Int.le_bmod (x := q) (m := 256 ^ 8) (by decide)
    have h2 := Int.bmod_lt (x := q) (m := 256 ^ 8) (by decide)
    by_cases g : mn = .mov ∧ b = true
    · rw [if_pos g]; simp at h1 h2 ⊢; omega
    · rw [if_neg g]
      rcases h rfl with h | h
      · exact absurd h g
      · simp only [in32BitRange, Bool.and_eq_true, decide_eq_true_eq] at h
        rw [Encode.bmod_self (by omega) (by omega)]
        simp; omega

theorem inByte_in32 {q : Int} (h : inByteRange q = true) : in32BitRange q = true := by
  simp only [inByteRange, in32BitRange, Bool.and_eq_true, decide_eq_true_eq] at h ⊢
  omega

theorem immRegOk_cases {op w : Nat} {q : Int} (h : immRegOk op w q = true) :
    w = 8 → op = oMOV ∨ op ≠ oMOV ∧ in32BitRange q = true := by
  intro hw
  subst hw
  unfold immRegOk at h
  split at h
  · exact .inl rfl
  · simp at h
  · refine .inr ⟨by decide, inByte_in32 (by simpa using h)⟩
  · rename_i h1 _ _
    exact .inr ⟨h1, by simpa using h⟩

theorem immRegOk_repInt {op w : Nat} {q : Int} (h : immRegOk op w q = true) : immRegOk op w (repInt q) = true := by
  unfold immRegOk at h ⊢
  split at h
  · exact h
  · exact h
  · simp only [Bool.or_eq_true] at h ⊢
    rcases h with h | h
    · exact .inl h
    · right
      rw [show repInt q = 0 by unfold repInt; rw [inByte_in32 h]; rfl]; decide
  · rw [repInt_range]; exact h

theorem immMemOk_cases {op w : Nat} {q : Int} (h : immMemOk op w q = true) : w = 8 → in32BitRange q = true := by
  intro hw
  subst hw
  unfold immMemOk at h
  split at h
  · simpa using h
  · simp at h
  · exact inByte_in32 (by simpa using h)
  · simpa using h

theorem immMemOk_repInt {op w : Nat} {q : Int} (h : immMemOk op w q = true) : immMemOk op w (repInt q) = true := by
  unfold immMemOk at h ⊢
  split at h
  · rw [repInt_range]; exact h
  · exact h
  · simp only [Bool.or_eq_true, Bool.and_eq_true] at h ⊢
    rcases h with ⟨h0, h | h⟩
    · exact ⟨h0, .inl h⟩
    · refine ⟨h0, .inr ?_⟩
      rw [show repInt q = 0 by unfold repInt; rw [inByte_in32 h]; rfl]; decide
  · rw [repInt_range]; exact h

/-! ## The cases -/

theorem width_two (w : Nat) : Att.width (some w) [w, w] = some w := by simp [Att.width]
theorem width_one (w : Nat) : Att.width (some w) [w] = some w := by simp [Att.width]
theorem width_zero (w : Nat) : Att.width (some w) [] = some w := by simp [Att.width]

theorem regsA_gprs {w r : Nat} (h : r ∈ regsA w) : r ∈ gprs := by
  unfold regsA at h
  split_ifs at h
  · exact (List.mem_filter.mp h).1
  · exact h

theorem regsB_gprs {w r : Nat} (h : r ∈ regsB w) : r ∈ gprs := by
  unfold regsB at h
  split_ifs at h
  · exact (List.mem_filter.mp h).1
  · exact h

theorem ref_none {i : Instr} (h : i.ops.address = none) : i.ref = none := by
  unfold Instr.ref; rw [h]; rfl

theorem repReg_of {x : Bool} {r : Nat} (h : r ∈ (if x then xmms else gprs)) : repReg r ∈ repsOf x := by
  cases x
  · exact repReg_gpr h
  · rw [repReg_xmm h]; decide

theorem mnOf_arith {op : Nat} {m : Mn} (h : arith op = some m) : mnOf op = m := by
  unfold mnOf; rw [h]; rfl

theorem mnOf_shift {op : Nat} {m : Mn} (h : shift op = some m) : arith op = none ∧ mnOf op = m := by
  have := shift_mem (by rw [h]; rfl : (shift op).isSome)
  have ha : arith op = none := (show ∀ op ∈ [oSAR, oSHL, oSHR], arith op = none by decide) op this
  exact ⟨ha, by unfold mnOf; rw [ha, h]; rfl⟩

theorem mnOf_unary {op : Nat} {m : Mn} (h : unary op = some m) : mnOf op = m := by
  have := unary_mem (by rw [h]; rfl : (unary op).isSome)
  have ha : arith op = none ∧ shift op = none :=
    (show ∀ op ∈ [oDIV, oIDIV, oMUL, oNOT], arith op = none ∧ shift op = none by decide) op this
  unfold mnOf; rw [ha.1, ha.2, h]; rfl

theorem vector_arith {op ws w : Nat} {p} (h : vector op ws w = some p) : arith op = none ∧ shift op = none := by
  obtain ⟨m, xs, xd, n⟩ := p
  exact (show ∀ p ∈ vectors, arith p.1 = none ∧ shift p.1 = none by decide) _ (vector_mem h)

theorem vectorStore_arith {op ws w : Nat} (h : (vectorStore op ws w).isSome) : arith op = none :=
  (show ∀ p ∈ vectorStores, arith p.1 = none by decide) _ (vectorStore_mem h)

theorem vector_widths {op ws w : Nat} {p} (h : vector op ws w = some p) :
    (ws = 4 ∨ ws = 8) ∧ (w = 4 ∨ w = 8) := by
  obtain ⟨m, xs, xd, n⟩ := p
  exact (show ∀ p ∈ vectors, (p.2.1 = 4 ∨ p.2.1 = 8) ∧ (p.2.2.1 = 4 ∨ p.2.2.1 = 8) by decide) _ (vector_mem h)

theorem mem_widths {w : Nat} (h : w = 4 ∨ w = 8) : w ∈ widths := by rcases h with rfl | rfl <;> decide

/-- Only jumps and `set` have a condition. -/
def plainOp (op : Nat) : Bool := (namedRows op).all fun p => !p.2.opxTttn

theorem plain_rows : ∀ op < 170, op ≠ oJcc → op ≠ oSETcc → plainOp op = true := by decide +kernel

theorem plain_op {op : Nat} (h1 : op ≠ oJcc) (h2 : op ≠ oSETcc) : plainOp op = true := by
  by_cases h : op < 170
  · exact plain_rows op h h1 h2
  · have : rows.drop op = [] := List.drop_eq_nil_of_le (Nat.le_trans (show rows.length ≤ 170 by decide +kernel) (by omega))
    unfold plainOp namedRows
    rw [this]; rfl

theorem mnemonic_cc {op pfx : Nat} {o : Ops} (cc : Nat) (h1 : op ≠ oJcc) (h2 : op ≠ oSETcc) :
    mnemonicText ⟨op, cc, pfx, o⟩ = mnemonicText ⟨op, 0, pfx, o⟩ := by
  unfold mnemonicText
  have hr : findRow ⟨op, cc, pfx, o⟩ = findRow ⟨op, 0, pfx, o⟩ := rfl
  rw [hr]
  cases hp : findRow ⟨op, 0, pfx, o⟩ with
  | none => rfl
  | some p =>
    have hm := List.mem_of_find?_eq_some hp
    have := List.all_eq_true.mp (plain_op h1 h2) p hm
    simp only [Option.bind_some, condText]
    simp only [Bool.not_eq_true'] at this
    rw [this]; rfl

theorem spoken_cc {op pfx : Nat} {o : Ops} {f : Form} (cc : Nat) (h1 : op ≠ oJcc) (h2 : op ≠ oSETcc)
    (h : spoken ⟨op, 0, pfx, o⟩ f = true) : spoken ⟨op, cc, pfx, o⟩ f = true := by
  unfold spoken at h ⊢
  rw [mnemonic_cc cc h1 h2]
  exact h

theorem arith_plain {op : Nat} {m : Mn} (h : arith op = some m) : op ≠ oJcc ∧ op ≠ oSETcc :=
  (show ∀ op ∈ arithOps, op ≠ oJcc ∧ op ≠ oSETcc by decide) op (arith_mem (by rw [h]; rfl))

theorem shift_plain {op : Nat} {m : Mn} (h : shift op = some m) : op ≠ oJcc ∧ op ≠ oSETcc :=
  (show ∀ op ∈ [oSAR, oSHL, oSHR], op ≠ oJcc ∧ op ≠ oSETcc by decide) op (shift_mem (by rw [h]; rfl))

theorem vector_plain {op ws w : Nat} {p} (h : vector op ws w = some p) : op ≠ oJcc ∧ op ≠ oSETcc := by
  obtain ⟨m, xs, xd, n⟩ := p
  exact (show ∀ p ∈ vectors, p.1 ≠ oJcc ∧ p.1 ≠ oSETcc by decide) _ (vector_mem h)

theorem vectorStore_plain {op ws w : Nat} (h : (vectorStore op ws w).isSome) : op ≠ oJcc ∧ op ≠ oSETcc :=
  (show ∀ p ∈ vectorStores, p.1 ≠ oJcc ∧ p.1 ≠ oSETcc by decide) _ (vectorStore_mem h)

theorem unary_plain {op : Nat} (h : (unary op).isSome) : op ≠ oJcc ∧ op ≠ oSETcc :=
  (show ∀ op ∈ [oDIV, oIDIV, oMUL, oNOT], op ≠ oJcc ∧ op ≠ oSETcc by decide) op (unary_mem h)

theorem ext_plain {op : Nat} (h : op = oMOVSX ∨ op = oMOVZX) : op ≠ oJcc ∧ op ≠ oSETcc := by
  rcases h with rfl | rfl <;> decide

theorem good_regReg {syms : Bytes → Option Nat} {name : Nat → Bytes} {op cc ws a w b : Nat}
    (h : Good ⟨op, cc, 0, .regReg ws a w b⟩) : Reads syms name ⟨op, cc, 0, .regReg ws a w b⟩ := by
  simp only [Good, true_and] at h
  have two : ∀ {f ins x x'}, spoken ⟨op, 0, 0, .regReg ws (repReg a) w (repReg b)⟩ f = true → op ≠ oJcc ∧ op ≠ oSETcc →
      (∃ t, regname ws a = some t ∧ OpText syms t x none) → (∃ t, regname w b = some t ∧ OpText syms t x' none) →
      Att.meaning f [x, x'] = some ins → Encode.meaning ⟨op, cc, 0, .regReg ws a w b⟩ = some ins →
      Reads syms name ⟨op, cc, 0, .regReg ws a w b⟩ := by
    intro f ins x x' h1 hcc ⟨t, ht, h2⟩ ⟨t', ht', h3⟩ h4 h5
    exact reads_two (spoken_rep (o := .regReg ws a w b) (spoken_cc cc hcc.1 hcc.2 h1)) (by simp only [opsText, ht, ht', Option.bind_some, Option.map_some]) h2 h3 h4 h5
      (ref_none rfl)
  rcases h with ⟨h1, rfl, hw, ha, hb⟩ | ⟨h1, rfl, rfl, hw, hb⟩ | ⟨m, xs, xd, n, hv, ha, hb⟩
      | ⟨rfl, rfl, rfl, ha, hb⟩ | ⟨h1, h2, h3, ha, hb⟩
  · obtain ⟨m, hm⟩ := Option.isSome_iff_exists.mp h1
    have ha := regsA_gprs ha
    have hb := regsA_gprs hb
    refine two (say_arith_rr op (arith_mem h1) ws hw _ (repReg_gpr ha) _ (repReg_gpr hb)) (arith_plain hm) (op_gpr syms ha hw)
      (op_gpr syms hb hw) (ins := ⟨m, [G b ws, G a ws], none, none⟩) ?_ ?_
    · simp only [Att.meaning, Att.binMeaning, width_two, Option.map_some, mnOf_arith hm]; rfl
    · simp only [Encode.meaning, hm]
  · obtain ⟨m, hm⟩ := Option.isSome_iff_exists.mp h1
    have hb := regsA_gprs hb
    refine two (say_shift_rr op (shift_mem h1) w hw _ (repReg_gpr hb)) (shift_plain hm) (op_gpr syms (r := CX) (by decide) (by decide))
      (op_gpr syms hb hw) (ins := ⟨m, [G b w, G CX 1], none, none⟩) ?_ ?_
    · simp only [Att.meaning, width_one, Option.map_some, (mnOf_shift hm).2]; rfl
    · simp only [Encode.meaning, hm, (mnOf_shift hm).1]
  · have hva := vector_arith hv
    have hvw := vector_widths hv
    have hsp := say_vector_rr _ (vector_mem hv) _ (repReg_of ha) _ (repReg_of hb)
    have hm : Encode.meaning ⟨op, cc, 0, .regReg ws a w b⟩
        = some ⟨m, [if xd then X b else G b w, if xs then X a else G a ws], none, none⟩ := by
      simp only [Encode.meaning, hva.1, hva.2, hv]
    have oa : ∃ t, regname ws a = some t ∧ OpText syms t (if xs then .xmm (a - 17) else .gpr (a - 1) ws) none := by
      cases xs
      · exact op_gpr syms ha (mem_widths hvw.1)
      · exact op_xmm syms ws ha
    have ob : ∃ t, regname w b = some t ∧ OpText syms t (if xd then .xmm (b - 17) else .gpr (b - 1) w) none := by
      cases xd
      · exact op_gpr syms hb (mem_widths hvw.2)
      · exact op_xmm syms w hb
    refine two hsp (vector_plain hv) oa ob ?_ hm
    have hx : xs = true ∨ xd = true := (show ∀ p ∈ vectors, p.2.2.2.1 = true ∨ p.2.2.2.2 = true by decide) _ (vector_mem hv)
    simp only [vecForm, hv]
    cases xs <;> cases xd
    · rcases hx with h | h <;> cases h
    · simp only [Att.meaning, width_one, Option.bind_some, Bool.false_eq_true, if_false, if_true]
      rw [if_pos hvw.1]; rfl
    · simp only [Att.meaning, width_one, Option.bind_some, Bool.false_eq_true, if_false, if_true]
      rw [if_pos hvw.2]; rfl
    · rfl
  · refine two (say_ext_rr (oMOVSX, 4, 8) (by decide) _ (repReg_gpr ha) _ (repReg_gpr hb)) (by decide)
      (op_gpr syms ha (by decide)) (op_gpr syms hb (by decide)) rfl rfl
  · have ha := regsA_gprs ha
    refine two (say_ext_rr (op, ws, w) ?_ _ (repReg_gpr ha) _ (repReg_gpr hb)) (ext_plain h1)
      (op_gpr syms ha ?_) (op_gpr syms hb (mem_widths h3))
      (ins := ⟨if op = oMOVSX then .movsx else .movzx, [G b w, G a ws], none, none⟩) ?_ ?_
    · rcases h1 with rfl | rfl <;> rcases h2 with rfl | rfl <;> rcases h3 with rfl | rfl <;> decide
    · rcases h2 with rfl | rfl <;> decide
    · simp only [extForm, Att.meaning, and_self, if_true]; rfl
    · rcases h1 with rfl | rfl <;> rcases h2 with rfl | rfl <;> rcases h3 with rfl | rfl <;> rfl

theorem good_memReg {syms : Bytes → Option Nat} {name : Nat → Bytes} {op cc ws w b : Nat} {a : Addr}
    (h : Good ⟨op, cc, 0, .memReg ws a w b⟩) (hp : Written syms name a) :
    Reads syms name ⟨op, cc, 0, .memReg ws a w b⟩ := by
  simp only [Good, true_and] at h
  obtain ⟨_, h⟩ := h
  have two : ∀ {f ins x'}, spoken ⟨op, 0, 0, .memReg ws noAddr w (repReg b)⟩ f = true → op ≠ oJcc ∧ op ≠ oSETcc →
      (∃ t, regname w b = some t ∧ OpText syms t x' none) →
      Att.meaning f [.mem (memOf a) (refOf a), x'] = some ins →
      Encode.meaning ⟨op, cc, 0, .memReg ws a w b⟩ = some ins →
      Reads syms name ⟨op, cc, 0, .memReg ws a w b⟩ := by
    intro f ins x' h1 hcc ⟨t', ht', h3⟩ h4 h5
    obtain ⟨t, ht, h2⟩ := op_addr hp
    exact reads_two (spoken_rep (o := .memReg ws a w b) (spoken_cc cc hcc.1 hcc.2 h1)) (by simp only [opsText, ht, ht', Option.bind_some, Option.map_some]) h2 h3 h4 h5
      (by cases hs : a.sym <;> simp [Instr.ref, Ops.address, refOf, hs])
  rcases h with ⟨h1, h2, rfl, hw, hr⟩ | ⟨m, xs, xd, n, hv, hr⟩ | ⟨rfl, rfl, rfl, hr⟩
      | ⟨h1, h2, h3, hr⟩ | ⟨rfl, rfl, rfl, hr⟩
  · obtain ⟨m, hm⟩ := Option.isSome_iff_exists.mp h1
    have hr := regsB_gprs hr
    refine two (say_arith_mr op (arith_mem h1) h2 ws hw _ (repReg_gpr hr)) (arith_plain hm) (op_gpr syms hr hw)
      (ins := ⟨m, if m = .test then [.mem ws, G b ws] else [G b ws, .mem ws], memOf a, none⟩) ?_ ?_
    · simp only [Att.meaning, Att.binMeaning, width_one, Option.map_some, mnOf_arith hm]; rfl
    · have := arith_mem h1
      simp only [List.mem_cons, List.not_mem_nil, or_false] at this
      rcases this with rfl | rfl | rfl | rfl | rfl | rfl | rfl | rfl <;> (cases hm; rfl)
  · have hva := vector_arith hv
    have hvw := vector_widths hv
    have hsp := say_vector_mr _ (vector_mem hv) _ (repReg_of hr)
    have hm : Encode.meaning ⟨op, cc, 0, .memReg ws a w b⟩
        = some ⟨m, [if xd then X b else G b w, .mem n], memOf a, none⟩ := by
      simp only [Encode.meaning, hva.1, hv]
    have ob : ∃ t, regname w b = some t ∧ OpText syms t (if xd then .xmm (b - 17) else .gpr (b - 1) w) none := by
      cases xd
      · exact op_gpr syms hr (mem_widths hvw.2)
      · exact op_xmm syms w hr
    refine two hsp (vector_plain hv) ob ?_ hm
    have hx : xs = true ∨ xd = true := (show ∀ p ∈ vectors, p.2.2.2.1 = true ∨ p.2.2.2.2 = true by decide) _ (vector_mem hv)
    simp only [vecForm, hv]
    cases xs <;> cases xd
    · rcases hx with h | h <;> cases h
    · have hn : n = ws := by
        have : ∀ p ∈ vectors, p.2.2.2.1 = false → (vector p.1 p.2.1 p.2.2.1).map (·.2.2.2) = some p.2.1 := by decide
        have := this _ (vector_mem hv) rfl
        rw [hv] at this
        exact Option.some.inj this
      subst hn
      rfl
    · simp only [Att.meaning, width_one, Option.bind_some, Bool.false_eq_true, if_false]
      rw [if_pos hvw.2]; rfl
    · rfl
  · refine two (say_ext_mr (oMOVSX, 4, 8) (by decide) _ (repReg_gpr hr)) (by decide) (op_gpr syms hr (by decide)) rfl rfl
  · refine two (say_ext_mr (op, ws, w) ?_ _ (repReg_gpr hr)) (ext_plain h1) (op_gpr syms hr (mem_widths h3))
      (ins := ⟨if op = oMOVSX then .movsx else .movzx, [G b w, .mem ws], memOf a, none⟩) ?_ ?_
    · rcases h1 with rfl | rfl <;> rcases h2 with rfl | rfl <;> rcases h3 with rfl | rfl <;> decide
    · simp only [extForm, Att.meaning, if_true]; rfl
    · rcases h1 with rfl | rfl <;> rcases h2 with rfl | rfl <;> rcases h3 with rfl | rfl <;> rfl
  · exact two (say_lea _ (repReg_gpr hr)) (by decide) (op_gpr syms hr (by decide)) rfl rfl

theorem good_regMem {syms : Bytes → Option Nat} {name : Nat → Bytes} {op cc ws w b : Nat} {a : Addr}
    (h : Good ⟨op, cc, 0, .regMem ws b w a⟩) (hp : Written syms name a) :
    Reads syms name ⟨op, cc, 0, .regMem ws b w a⟩ := by
  simp only [Good, true_and] at h
  obtain ⟨_, h⟩ := h
  have two : ∀ {f ins x'}, spoken ⟨op, 0, 0, .regMem ws (repReg b) w noAddr⟩ f = true → op ≠ oJcc ∧ op ≠ oSETcc →
      (∃ t, regname ws b = some t ∧ OpText syms t x' none) →
      Att.meaning f [x', .mem (memOf a) (refOf a)] = some ins →
      Encode.meaning ⟨op, cc, 0, .regMem ws b w a⟩ = some ins →
      Reads syms name ⟨op, cc, 0, .regMem ws b w a⟩ := by
    intro f ins x' h1 hcc ⟨t', ht', h3⟩ h4 h5
    obtain ⟨t, ht, h2⟩ := op_addr hp
    exact reads_two (spoken_rep (o := .regMem ws b w a) (spoken_cc cc hcc.1 hcc.2 h1)) (by simp only [opsText, ht, ht', Option.bind_some, Option.map_some]) h3 h2 h4 h5
      (by cases hs : a.sym <;> simp [Instr.ref, Ops.address, refOf, hs])
  rcases h with ⟨h1, rfl, hw, hr⟩ | ⟨h1, hr⟩
  · obtain ⟨m, hm⟩ := Option.isSome_iff_exists.mp h1
    have hr := regsB_gprs hr
    refine two (say_arith_rm op (arith_mem h1) ws hw _ (repReg_gpr hr)) (arith_plain hm) (op_gpr syms hr hw)
      (ins := ⟨m, [.mem ws, G b ws], memOf a, none⟩) ?_ ?_
    · simp only [Att.meaning, Att.binMeaning, width_one, Option.map_some, mnOf_arith hm]; rfl
    · simp only [Encode.meaning, hm]
  · obtain ⟨⟨m, n⟩, hv⟩ := Option.isSome_iff_exists.mp h1
    have hsp := say_vector_rm _ (vectorStore_mem h1)
    rw [← repReg_xmm hr] at hsp
    refine two hsp (vectorStore_plain h1) (op_xmm syms ws hr) (ins := ⟨m, [.mem n, X b], memOf a, none⟩) ?_ ?_
    · simp only [storeForm, hv]; rfl
    · simp only [Encode.meaning, vectorStore_arith h1, hv]

theorem good_immReg {syms : Bytes → Option Nat} {name : Nat → Bytes} {op cc wi w b : Nat} {q : Int}
    (h : Good ⟨op, cc, 0, .immReg ⟨wi, .int q⟩ w b⟩) : Reads syms name ⟨op, cc, 0, .immReg ⟨wi, .int q⟩ w b⟩ := by
  simp only [Good, true_and] at h
  obtain ⟨hw, hr', h⟩ := h
  have hr := regsB_gprs hr'
  clear hr'
  have two : ∀ {f ins}, spoken ⟨op, 0, 0, .immReg ⟨wi, .int (repInt q)⟩ w (repReg b)⟩ f = true → op ≠ oJcc ∧ op ≠ oSETcc →
      Att.meaning f [.imm (stored wi q), .gpr (b - 1) w] = some ins →
      Encode.meaning ⟨op, cc, 0, .immReg ⟨wi, .int q⟩ w b⟩ = some ins →
      Reads syms name ⟨op, cc, 0, .immReg ⟨wi, .int q⟩ w b⟩ := by
    intro f ins h1 hcc h4 h5
    obtain ⟨t, ht, h2⟩ := op_imm syms name wi q
    obtain ⟨t', ht', h3⟩ := op_gpr syms hr hw
    exact reads_two (spoken_rep (o := .immReg ⟨wi, .int q⟩ w b) (spoken_cc cc hcc.1 hcc.2 h1))
      (by simp only [opsText, ht, ht', Option.bind_some, Option.map_some]) h2 h3 h4 h5 (ref_none rfl)
  rcases h with ⟨h1, rfl, h2⟩ | ⟨h1, rfl⟩
  · obtain ⟨m, hm⟩ := Option.isSome_iff_exists.mp h1
    refine two (say_arith_ir op (arith_mem h1) wi hw _ (repInt_mem q) _ (repReg_gpr hr) (immRegOk_repInt h2)) (arith_plain hm)
      (ins := ⟨m, [G b wi, .imm wi], none, some (immOf wi q)⟩) ?_ ?_
    · simp only [Att.meaning, Att.binMeaning, width_one, Option.bind_some, mnOf_arith hm]
      rw [if_pos, stored_immOf hw]; · rfl
      apply stored_fits hw
      intro h8
      rcases immRegOk_cases h2 h8 with rfl | h
      · cases hm; exact .inl ⟨rfl, rfl⟩
      · exact .inr h.2
    · simp only [Encode.meaning, hm]
  · obtain ⟨m, hm⟩ := Option.isSome_iff_exists.mp h1
    refine two (say_shift_ir op (shift_mem h1) w hw _ (repInt_mem q) _ (repReg_gpr hr)) (shift_plain hm)
      (ins := ⟨m, [G b w, .imm 1], none, some (immOf 1 q)⟩) ?_ ?_
    · simp only [Att.meaning, width_one, Option.bind_some, (mnOf_shift hm).2]
      rw [if_pos, stored_immOf (by decide)]; · rfl
      have h1 := Int.le_bmod (x := q) (m := 256 ^ 1) (by decide)
      have h2 := Int.bmod_lt (x := q) (m := 256 ^ 1) (by decide)
      rw [stored_eq (by decide)]
      simp at h1 h2 ⊢; omega
    · simp only [Encode.meaning, hm, (mnOf_shift hm).1]

theorem good_immMem {syms : Bytes → Option Nat} {name : Nat → Bytes} {op cc wi w : Nat} {a : Addr} {q : Int}
    (h : Good ⟨op, cc, 0, .immMem ⟨wi, .int q⟩ w a⟩) (hp : Written syms name a) :
    Reads syms name ⟨op, cc, 0, .immMem ⟨wi, .int q⟩ w a⟩ := by
  simp only [Good, true_and] at h
  obtain ⟨_, hw, h1, rfl, h2⟩ := h
  obtain ⟨m, hm⟩ := Option.isSome_iff_exists.mp h1
  obtain ⟨t, ht, o1⟩ := op_imm syms name wi q
  obtain ⟨t', ht', o2⟩ := op_addr hp
  refine reads_two (spoken_rep (o := .immMem ⟨wi, .int q⟩ wi a)
      (spoken_cc cc (arith_plain hm).1 (arith_plain hm).2
        (say_arith_im op (arith_mem h1) wi hw _ (repInt_mem q) (immMemOk_repInt h2))))
    (by simp only [opsText, ht, ht', Option.bind_some, Option.map_some]) o1 o2
    (ins := ⟨m, [.mem wi, .imm wi], memOf a, some (immOf wi q)⟩) ?_ ?_
    (by cases hs : a.sym <;> simp [Instr.ref, Ops.address, refOf, hs])
  · simp only [Att.meaning, Att.binMeaning, width_zero, Option.bind_some, mnOf_arith hm]
    rw [if_pos (stored_fits hw fun h8 => .inr (immMemOk_cases h2 h8)), stored_immOf hw]
  · simp only [Encode.meaning, hm, Option.map_some]

theorem good_reg {syms : Bytes → Option Nat} {name : Nat → Bytes} {op cc w b : Nat}
    (h : Good ⟨op, cc, 0, .reg w b⟩) : Reads syms name ⟨op, cc, 0, .reg w b⟩ := by
  simp only [Good, true_and] at h
  have one : ∀ {f ins}, spoken ⟨op, cc, 0, .reg w (repReg b)⟩ f = true → op ≠ oCALL → b ∈ gprs → w ∈ widths →
      Att.meaning f [.gpr (b - 1) w] = some ins → Encode.meaning ⟨op, cc, 0, .reg w b⟩ = some ins →
      Reads syms name ⟨op, cc, 0, .reg w b⟩ := by
    intro f ins h1 hop hb hw h4 h5
    obtain ⟨t, ht, h2⟩ := op_gpr syms hb hw
    exact reads_one (spoken_rep (o := .reg w b) h1) (by simp only [opsText, ht, Option.map_some, if_neg hop]) h2 h4 h5 (ref_none rfl)
  rcases h with ⟨h1, rfl, hw, hr⟩ | ⟨h1, rfl, rfl, hr⟩ | ⟨rfl, hcc, rfl, hr⟩
  · obtain ⟨m, hm⟩ := Option.isSome_iff_exists.mp h1
    have hr := regsA_gprs hr
    refine one (say_unary_r op (unary_mem h1) w hw _ (repReg_gpr hr))
      ((show ∀ op ∈ [oDIV, oIDIV, oMUL, oNOT], op ≠ oCALL by decide) op (unary_mem h1)) hr hw
      (ins := ⟨m, [G b w], none, none⟩) ?_ ?_
    · simp only [Att.meaning, Att.width, List.all_nil, if_true, Option.map_some, mnOf_unary hm]; rfl
    · simp only [Encode.meaning, hm]
  · rcases h1 with rfl | rfl | rfl
    · obtain ⟨t, ht, h2⟩ := op_star syms hr (w := 8) (by decide)
      exact reads_one (t := chr% '*' :: t) (spoken_rep (o := .reg 8 b) (say_stack _ (repReg_gpr hr)).1)
        (by simp only [opsText, ht, Option.map_some, if_true]; rfl) h2 rfl rfl (ref_none rfl)
    · exact one (say_stack _ (repReg_gpr hr)).2.1 (by decide) hr (by decide) rfl rfl
    · exact one (say_stack _ (repReg_gpr hr)).2.2 (by decide) hr (by decide) rfl rfl
  · have hr := regsA_gprs hr
    exact one (say_set cc hcc _ (repReg_gpr hr)) (by decide) hr (by decide) rfl rfl

theorem x87_unary {op w : Nat} (h : (x87mem op w).isSome) : unary op = none ∧ op ≠ oJcc ∧ op ≠ oSETcc := by
  unfold x87mem at h
  split at h <;> first | decide | cases h

theorem good_mem {syms : Bytes → Option Nat} {name : Nat → Bytes} {op cc w : Nat} {a : Addr}
    (h : Good ⟨op, cc, 0, .mem w a⟩) (hp : Written syms name a) : Reads syms name ⟨op, cc, 0, .mem w a⟩ := by
  simp only [Good, true_and] at h
  obtain ⟨_, h⟩ := h
  have one : ∀ {f ins}, spoken ⟨op, 0, 0, .mem w noAddr⟩ f = true → op ≠ oJcc ∧ op ≠ oSETcc →
      Att.meaning f [.mem (memOf a) (refOf a)] = some ins → Encode.meaning ⟨op, cc, 0, .mem w a⟩ = some ins →
      Reads syms name ⟨op, cc, 0, .mem w a⟩ := by
    intro f ins h1 hcc h4 h5
    obtain ⟨t, ht, h2⟩ := op_addr hp
    exact reads_one (spoken_rep (o := .mem w a) (spoken_cc cc hcc.1 hcc.2 h1)) (by simp only [opsText, ht, Option.map_some]) h2 h4 h5
      (by cases hs : a.sym <;> simp [Instr.ref, Ops.address, refOf, hs])
  rcases h with ⟨h1, hw⟩ | h1 | ⟨h1, rfl⟩
  · obtain ⟨m, hm⟩ := Option.isSome_iff_exists.mp h1
    refine one (say_unary_m op (unary_mem h1) w hw) (unary_plain h1) (ins := ⟨m, [.mem w], memOf a, none⟩) ?_ ?_
    · simp only [Att.meaning, width_zero, Option.map_some, mnOf_unary hm]
    · simp only [Encode.meaning, hm]
  · obtain ⟨⟨m, n⟩, hm⟩ := Option.isSome_iff_exists.mp h1
    refine one (say_mem (op, w) (x87mem_mem h1)) (x87_unary h1).2 (ins := ⟨m, [.mem n], memOf a, none⟩) ?_ ?_
    · simp only [memForm, hm]; rfl
    · simp only [Encode.meaning, (x87_unary h1).1, hm]
  · rcases h1 with rfl | rfl
    · exact one (say_mem (oCALL, 8) (by decide)) (by decide) rfl rfl
    · exact one (say_mem (oPUSH, 8) (by decide)) (by decide) rfl rfl

theorem good_push {syms : Bytes → Option Nat} {name : Nat → Bytes} {op cc w : Nat} {q : Int}
    (h : Good ⟨op, cc, 0, .imm ⟨w, .int q⟩⟩) : Reads syms name ⟨op, cc, 0, .imm ⟨w, .int q⟩⟩ := by
  simp only [Good, true_and] at h
  obtain ⟨rfl, rfl, hq⟩ := h
  obtain ⟨t, ht, h2⟩ := op_imm syms name 8 q
  have hs : stored 8 q = immOf 8 q := stored_eq (by decide) q
  have hf := stored_fits (mn := .push) (b := false) (w := 8) (q := q) (by decide) fun _ => .inr hq
  refine reads_one (f := .stack .push) (spoken_rep (o := .imm ⟨8, .int q⟩)
      (spoken_cc cc (by decide) (by decide) (say_push _ (repInt_mem q) (by rw [repInt_range]; exact hq))))
    (by simp only [opsText, ht, Option.map_some]) h2 (ins := ⟨.push, [.imm 8], none, some (immOf 8 q)⟩) ?_ rfl
    (ref_none rfl)
  simp only [Att.meaning]
  rw [if_pos hf, hs]

theorem good_jump {syms : Bytes → Option Nat} {name : Nat → Bytes} {op cc w : Nat} {a : Addr}
    (h : Good ⟨op, cc, 0, .imm ⟨w, .addr a⟩⟩) (hp : Place syms name a) :
    Reads syms name ⟨op, cc, 0, .imm ⟨w, .addr a⟩⟩ := by
  simp only [Good, true_and] at h
  obtain ⟨rfl, h⟩ := h
  obtain ⟨t, l, ht, h2⟩ := op_place hp 8
  have hr : (⟨op, cc, 0, .imm ⟨8, .addr a⟩⟩ : Instr).ref = refOf a := by
    cases hs : a.sym <;> simp [Instr.ref, Ops.address, refOf, hs]
  have ho : opsText name ⟨op, cc, 0, .imm ⟨8, .addr a⟩⟩ = some (str% "\t" ++ t) := by
    simp only [opsText, ht, Option.map_some]
  rcases h with ⟨rfl, _⟩ | ⟨rfl | ⟨rfl, hcc⟩, _⟩
  · exact reads_one (f := .call) (spoken_rep (o := .imm ⟨8, .addr a⟩)
      (spoken_cc cc (by decide) (by decide) (say_jump 0 (by decide)).1)) ho h2 rfl rfl hr
  · exact reads_one (f := .jump .jmp) (spoken_rep (o := .imm ⟨8, .addr a⟩)
      (spoken_cc cc (by decide) (by decide) (say_jump 0 (by decide)).2.1)) ho h2 rfl rfl hr
  · exact reads_one (f := .jump (.jcc cc)) (spoken_rep (o := .imm ⟨8, .addr a⟩) (say_jump cc hcc).2.2) ho h2 rfl rfl hr

/-- `rep movs` and `fldz`. -/
theorem special_text (name : Nat → Bytes) :
    (∀ w ∈ widths, asmText name ⟨oMOV_STR, 0, 0xF3, .none w⟩ = some (str% "\trep movs" ++ (suffixText w ++ str% "\n")))
      ∧ asmText name ⟨oFLDZ, 0, 0, .none 0⟩ = some (str% "\tfldz\n") := by
  have h1 : ∀ w ∈ widths, mnemonicText ⟨oMOV_STR, 0, 0xF3, .none w⟩ = some (str% "movs" ++ suffixText w) := by decide +kernel
  have h2 : mnemonicText ⟨oFLDZ, 0, 0, .none 0⟩ = some (str% "fldz") := by decide +kernel
  constructor
  · intro w hw
    unfold asmText
    rw [h1 w hw]
    simp [opsText, prefixText]
  · unfold asmText; rw [h2]; rfl

theorem asmText_cc {op pfx : Nat} {o : Ops} (name : Nat → Bytes) (cc : Nat) (h1 : op ≠ oJcc) (h2 : op ≠ oSETcc) :
    asmText name ⟨op, cc, pfx, o⟩ = asmText name ⟨op, 0, pfx, o⟩ := by
  unfold asmText
  rw [mnemonic_cc cc h1 h2]
  rfl

theorem special_read (syms : Bytes → Option Nat) :
    (∀ w ∈ widths, instruction syms (str% "\trep movs" ++ (suffixText w ++ str% "\n")) = some (⟨.movs true w, [], none, none⟩, none))
      ∧ instruction syms (str% "\tfldz\n") = some (⟨.fldconst, [.st 6], none, none⟩, none) := by
  have h1 : ∀ w ∈ widths, splitLine (str% "\trep movs" ++ suffixText w) = (true, str% "movs" ++ suffixText w, [])
      ∧ Gas.meaning (str% "movs" ++ suffixText w) [] = some ⟨.movs false w, [], none, none⟩ := by decide +kernel
  have h2 : splitLine (str% "\tfldz") = (false, str% "fldz", [])
      ∧ Gas.meaning (str% "fldz") [] = some ⟨.fldconst, [.st 6], none, none⟩ := by decide +kernel
  constructor
  · intro w hw
    obtain ⟨h1, h3⟩ := h1 w hw
    rw [← List.append_assoc, line_end, h1]
    simp only [readAll, Option.bind_some, List.map_nil, h3]
    rfl
  · rw [show str% "\tfldz\n" = str% "\tfldz" ++ str% "\n" by rfl, line_end, h2.1]
    simp only [readAll, Option.bind_some, List.map_nil, h2.2]
    rfl

theorem good_none {syms : Bytes → Option Nat} {name : Nat → Bytes} {op cc pfx w : Nat}
    (h : Good ⟨op, cc, pfx, .none w⟩) : Reads syms name ⟨op, cc, pfx, .none w⟩ := by
  simp only [Good] at h
  obtain ⟨s1, s2, s3, s4, s5⟩ := say_none
  rcases h with ⟨rfl, rfl, rfl | rfl⟩ | ⟨rfl | rfl | rfl, rfl, rfl⟩ | ⟨rfl, rfl | rfl, hw⟩
  · exact reads_none (spoken_cc cc (by decide) (by decide) s1) rfl rfl
  · exact reads_none (spoken_cc cc (by decide) (by decide) s2) rfl rfl
  · exact reads_none (spoken_cc cc (by decide) (by decide) s3) rfl rfl
  · exact reads_none (spoken_cc cc (by decide) (by decide) s4) rfl rfl
  · exact ⟨_, _, by rw [asmText_cc name cc (by decide) (by decide)]; exact (special_text name).2, rfl, (special_read syms).2⟩
  · exact reads_none (spoken_cc cc (by decide) (by decide) (s5 w hw)) rfl rfl
  · exact ⟨_, _, by rw [asmText_cc name cc (by decide) (by decide)]; exact (special_text name).1 w hw, rfl,
      (special_read syms).1 w hw⟩

/-- Every good instruction is printed as the text of what it means. -/
theorem good_reads {syms : Bytes → Option Nat} {name : Nat → Bytes} {i : Instr} (h : Good i)
    (hp : Printable syms name i) : Reads syms name i := by
  obtain ⟨op, cc, pfx, o⟩ := i
  match o, h, hp with
  | .regReg ws a w b, h, _ => obtain rfl : pfx = 0 := h.1; exact good_regReg h
  | .memReg ws a w r, h, hp => obtain rfl : pfx = 0 := h.1; exact good_memReg h hp
  | .regMem ws r w a, h, hp => obtain rfl : pfx = 0 := h.1; exact good_regMem h hp
  | .immReg ⟨wi, .int q⟩ w r, h, _ => obtain rfl : pfx = 0 := h.1; exact good_immReg h
  | .immMem ⟨wi, .int q⟩ w a, h, hp => obtain rfl : pfx = 0 := h.1; exact good_immMem h hp
  | .reg w r, h, _ => obtain rfl : pfx = 0 := h.1; exact good_reg h
  | .mem w a, h, hp => obtain rfl : pfx = 0 := h.1; exact good_mem h hp
  | .imm ⟨w, .int q⟩, h, _ => obtain rfl : pfx = 0 := h.1; exact good_push h
  | .imm ⟨w, .addr a⟩, h, hp => obtain rfl : pfx = 0 := h.1; exact good_jump h hp
  | .none w, h, _ => exact good_none h
  | .immReg ⟨wi, .addr a⟩ w r, h, _ => exact h.elim
  | .immMem ⟨wi, .addr b⟩ w a, h, _ => exact h.elim

end Verif.Asm.Printed
