import Verif.Abi.CallLemmas

namespace Verif.Abi

theorem step_st (s : M) (w r a) : step s (.st w r a) = s.write (s.ea a) (le w (s.reg r)) := rfl

/-- Stores of slices at an offset from `%rbp`. -/
theorem storeSlices_spec (o : Int) (n : Nat) : ∀ (sl : List Slice) (t : M),
    (∀ e ∈ sl, e.1 < n ∧ e.2.1 ≤ 8) → sl.Pairwise (fun a b => a.1 < b.1 ∧ a.2.2.2 ≠ b.2.2.2) →
    (run t (storeSlices o sl)).reg = t.reg ∧
    (∀ x, x < t.reg BP + o ∨ t.reg BP + o + 8 * n ≤ x → (run t (storeSlices o sl)).mem x = t.mem x) ∧
    (∀ x : Int, (∀ e ∈ sl, x < t.reg BP + o + 8 * e.1 ∨ t.reg BP + o + 8 * e.1 + 8 ≤ x) →
      (run t (storeSlices o sl)).mem x = t.mem x) ∧
    ∀ e ∈ sl, ∀ j : Nat, j < e.2.1 →
      (run t (storeSlices o sl)).mem (t.reg BP + o + 8 * e.1 + j) = byteAt (t.reg e.2.2.2) j
  | [], t, _, _ => by simp [storeSlices]
  | (i, w, k, r) :: sl, t, hb, hpw => by
    obtain ⟨hpw1, hpw2⟩ := List.pairwise_cons.mp hpw
    have hi := hb _ (List.mem_cons_self ..)
    simp only at hi
    have e0 : storeSlices o ((i, w, k, r) :: sl) = .st w r (.base BP (o + (8 * i : Nat))) :: storeSlices o sl := rfl
    let t' := t.write (t.reg BP + (o + (8 * i : Nat))) (le w (t.reg r))
    have e1 : run t (storeSlices o ((i, w, k, r) :: sl)) = run t' (storeSlices o sl) := rfl
    obtain ⟨h1, h2, h3, h4⟩ := storeSlices_spec o n sl t' (fun e he => hb e (List.mem_cons_of_mem _ he)) hpw2
    have hreg : t'.reg = t.reg := rfl
    have hmem : t'.mem = wr t.mem (t.reg BP + (o + (8 * i : Nat))) (le w (t.reg r)) := rfl
    rw [hreg] at h1 h2 h3 h4
    rw [e1]
    refine ⟨h1, ?_, ?_, ?_⟩
    · intro x hx
      rw [h2 x hx, hmem, wr_out (by simp; omega)]
    · intro x hx
      rw [h3 x (fun e he => hx e (List.mem_cons_of_mem _ he)), hmem, wr_out ?_]
      have := hx _ (List.mem_cons_self ..)
      simp only at this
      simp; omega
    · intro e he j hj
      rcases List.mem_cons.mp he with rfl | he
      · simp only at hj ⊢
        rw [h3, hmem, show t.reg BP + o + 8 * (i : Int) + (j : Int) = t.reg BP + (o + (8 * i : Nat)) + (j : Int) by push_cast; omega,
          wr_le hj]
        intro e' he'
        have := (hpw1 e' he').1
        simp only at this
        have hij : (i : Int) < e'.1 := by omega
        omega
      · exact h4 e he j hj

/-- The parameters passed in registers are in their slots. -/
def RegParams (s0 : M) (m : Mem) (bp : Int) : List Arg → List (PC × Bool) → List Int → Prop
  | a :: as, (_, b) :: l, o :: os =>
    (b = true → ∀ j : Nat, j < a.ty.size → m (bp + o + j) = a.src.byte s0 j) ∧ RegParams s0 m bp as l os
  | _, _, _ => True

theorem RegParams.congr {s0 : M} {m m' : Mem} {bp : Int} {ro : Nat} : ∀ (as : List Arg) (l : List (PC × Bool)) (so mo : Int),
    (∀ x, x < bp + so - ro → m' x = m x) →
    RegParams s0 m bp as l (paramOffsets ro (as.map (·.ty)) l so mo).1 →
    RegParams s0 m' bp as l (paramOffsets ro (as.map (·.ty)) l so mo).1
  | [], _, _, _, _, _ => by simp [RegParams]
  | _ :: _, [], _, _, _, _ => by simp [RegParams]
  | a :: as, (pc, b) :: l, so, mo, h, hr => by
    have hn : a.ty.size ≤ 8 * eightbytes a.ty := by simp only [eightbytes]; omega
    cases b with
    | true =>
      simp only [List.map_cons, paramOffsets, if_true, RegParams, true_implies] at *
      refine ⟨fun j hj => ?_, RegParams.congr as l _ _ (fun x hx => h x (by omega)) hr.2⟩
      rw [h _ (by push_cast; omega)]
      exact hr.1 j hj
    | false =>
      simp only [List.map_cons, paramOffsets, Bool.false_eq_true, if_false, RegParams, false_implies, true_and] at *
      exact RegParams.congr as l _ _ h hr

theorem paramOffsets_le (ro : Nat) : ∀ (ts : List Ty) (l : List (PC × Bool)) (so mo : Int),
    (paramOffsets ro ts l so mo).2.1 ≤ so
  | [], _, _, _ => by simp [paramOffsets]
  | _ :: _, [], _, _ => by simp [paramOffsets]
  | t :: ts, (pc, b) :: l, so, mo => by
    cases b with
    | true =>
      simp only [paramOffsets, if_true]
      have := paramOffsets_le ro ts l (so - (8 * eightbytes t : Nat)) mo
      omega
    | false =>
      simp only [paramOffsets, Bool.false_eq_true, if_false]
      exact paramOffsets_le ro ts l so _

theorem storeAll_spec {s0 : M} {bp : Int} {ro : Nat} :
    ∀ (as : List Arg) (l : List (PC × Bool)) (so mo : Int) (i s : Nat) (code : List Ins) (t : M),
      (∀ a ∈ as, SysV.laidOut a.ty = true) → t.reg BP = bp →
      storeAll (as.map (·.ty)) l (paramOffsets ro (as.map (·.ty)) l so mo).1 i s = some code →
      RegsHold s0 t.reg as l i s →
      (run t code).reg = t.reg ∧
      (∀ x, x < bp + (paramOffsets ro (as.map (·.ty)) l so mo).2.1 - ro ∨ bp + so - ro ≤ x → (run t code).mem x = t.mem x) ∧
      RegParams s0 (run t code).mem bp as l (paramOffsets ro (as.map (·.ty)) l so mo).1
  | [], l, so, mo, i, s, code, t, _, _, hc, _ => by
    simp only [List.map_nil, storeAll, Option.some.injEq] at hc
    subst hc; simp [RegParams]
  | a :: as, [], so, mo, i, s, code, t, _, _, hc, _ => by
    simp only [List.map_cons, storeAll, Option.some.injEq] at hc
    subst hc; simp [RegParams]
  | a :: as, (pc, b) :: l, so, mo, i, s, code, t, hl, hbp, hc, hr => by
    have hl' : ∀ a ∈ as, SysV.laidOut a.ty = true := fun a ha => hl a (List.mem_cons_of_mem _ ha)
    cases b with
    | false =>
      simp only [List.map_cons, paramOffsets, Bool.false_eq_true, if_false, storeAll, RegParams, RegsHold, false_implies,
        true_and] at *
      exact storeAll_spec as l so _ i s code t hl' hbp hc hr
    | true =>
      simp only [List.map_cons, paramOffsets, if_true, storeAll, RegParams, RegsHold, true_implies] at *
      obtain ⟨sl, hsl, hc⟩ := Option.bind_eq_some_iff.mp hc
      obtain ⟨l2, h2, hc⟩ := Option.bind_eq_some_iff.mp hc
      simp only [Option.some.injEq] at hc
      subst hc
      have hmem := slices_mem _ _ _ _ _ hsl
      obtain ⟨hpw, hall⟩ := slices_distinct _ _ _ _ _ hsl (drops_nodup i s)
      have hla := hl a (List.mem_cons_self ..)
      have hsp : ∀ e ∈ sl, e.1 < eightbytes a.ty ∧ e.2.1 ≤ 8 ∧ need a.ty.size e.1 ≤ e.2.1 := by
        intro e he
        have h1 := hmem e he
        have h2 : e.1 < eightbytes a.ty := by omega
        have h3 := sliceType_spec h1.2.2.1 hla h2
        exact ⟨h2, h3.1, h3.2.1⟩
      obtain ⟨g1, g2, _, g4⟩ := storeSlices_spec (so - (8 * eightbytes a.ty : Nat) - ro) (eightbytes a.ty) sl t
        (fun e he => ⟨(hsp e he).1, (hsp e he).2.1⟩) hpw
      rw [hbp] at g2 g4
      obtain ⟨i1, i2, i3⟩ := storeAll_spec (s0 := s0) (bp := bp) (ro := ro) as l (so - (8 * eightbytes a.ty : Nat)) mo _ _ l2
        (run t (storeSlices (so - (8 * eightbytes a.ty : Nat) - ro) sl)) hl' (by rw [g1]; exact hbp) h2 (by rw [g1]; exact hr.2)
      have hle := paramOffsets_le ro (as.map (·.ty)) l (so - (8 * eightbytes a.ty : Nat)) mo
      refine ⟨?_, ?_, ?_, ?_⟩
      · rw [run_append, i1, g1]
      · intro x hx
        rw [run_append, i2 x (by push_cast at *; omega), g2 x (by push_cast at *; omega)]
      · intro j hj
        rw [run_append, i2 _ (by push_cast; omega)]
        have hjn : j / 8 < eightbytes a.ty := by simp only [eightbytes]; omega
        obtain ⟨e, he, hej⟩ := hall (j / 8) (by omega) (by omega)
        have hneed : j % 8 < need a.ty.size e.1 := by unfold need; omega
        have h4 := g4 e he (j % 8) (by have := (hsp e he).2.2; omega)
        rw [show bp + (so - (8 * eightbytes a.ty : Nat) - ro) + 8 * (e.1 : Int) + ((j % 8 : Nat) : Int) =
          bp + (so - (8 * eightbytes a.ty : Nat) - ro) + (j : Int) by omega] at h4
        rw [h4, hr.1 sl hsl e he _ hneed]
        congr 1
        omega
      · rw [run_append]; exact i3

/-- Pushing a list of registers. -/
theorem pushes_spec : ∀ (rs : List Nat) (s : M), SP ∉ rs →
    (run s (rs.map .push)).reg SP = s.reg SP - 8 * rs.length ∧
    (∀ r, r ≠ SP → (run s (rs.map .push)).reg r = s.reg r) ∧
    (∀ x, x < s.reg SP - 8 * rs.length ∨ s.reg SP ≤ x → (run s (rs.map .push)).mem x = s.mem x) ∧
    ∀ (i r : Nat), rs[i]? = some r → ∀ j : Nat, j < 8 →
      (run s (rs.map .push)).mem (s.reg SP - 8 * (i + 1) + j) = byteAt (s.reg r) j
  | [], s, _ => by simp
  | r :: rs, s, h => by
    simp only [List.mem_cons, not_or] at h
    obtain ⟨h1, h2, h3, h4⟩ := pushes_spec rs (step s (.push r)) h.2
    have e1 : (step s (.push r)).reg SP = s.reg SP - 8 := by rw [step_push, pushBytes_reg, if_pos rfl]
    have e2 : ∀ x, x ≠ SP → (step s (.push r)).reg x = s.reg x := by
      intro x hx; rw [step_push, pushBytes_reg, if_neg hx]
    have e3 : (step s (.push r)).mem = wr s.mem (s.reg SP - 8) (le 8 (s.reg r)) := rfl
    rw [e1] at h1 h3 h4
    simp only [List.map_cons, run_cons, List.length_cons]
    refine ⟨by rw [h1]; push_cast; omega, fun x hx => by rw [h2 x hx, e2 x hx], ?_, ?_⟩
    · intro x hx
      push_cast at hx
      rw [h3 x (by omega), e3, wr_out (by simp; omega)]
    · intro i q hi j hj
      cases i with
      | zero =>
        simp only [List.getElem?_cons_zero, Option.some.injEq] at hi
        subst hi
        rw [h3 _ (by omega), e3, show s.reg SP - 8 * (((0 : Nat) : Int) + 1) + (j : Int) = s.reg SP - 8 + j by simp,
          wr_le hj]
      | succ i =>
        simp only [List.getElem?_cons_succ] at hi
        have := h4 i q hi j hj
        rw [show s.reg SP - 8 - 8 * ((i : Int) + 1) + j = s.reg SP - 8 * (((i + 1 : Nat) : Int) + 1) + j by push_cast; omega] at this
        rw [this]
        rw [e2 q]
        rintro rfl
        exact h.2 (List.mem_of_getElem? hi)

theorem step_lea (s : M) (d a) : step s (.lea d a) = s.set d (s.ea a) := rfl

theorem tempInt_no_sp (k : Nat) : SP ∉ tempInt.take k := by
  intro h
  have := List.mem_of_mem_take h
  revert this
  decide

theorem tempInt_no_bp (k : Nat) : BP ∉ tempInt.take k := by
  intro h
  have := List.mem_of_mem_take h
  revert this
  decide

/-- State after the prologue. -/
structure Prologue (s : M) (f : Frame) (k : Nat) (resMem : Bool) (s' : M) : Prop where
  bp : s'.reg BP = s.reg SP - 8
  sp : s'.reg SP = s.reg SP - 8 - 8 * k + f.size
  reg : ∀ r, r ≠ SP → r ≠ BP → s'.reg r = s.reg r
  mem : ∀ x, x < s.reg SP - 8 - 8 * k + f.size ∨ s.reg SP ≤ x → s'.mem x = s.mem x
  saved : ∀ j : Nat, j < 8 → s'.mem (s.reg SP - 8 + j) = byteAt (s.reg BP) j
  temps : ∀ (i r : Nat), i < k → tempInt[i]? = some r → ∀ j : Nat, j < 8 →
    s'.mem (s.reg SP - 8 - 8 * (i + 1) + j) = byteAt (s.reg r) j
  ret : resMem = true → ∀ j : Nat, j < 8 → s'.mem (s.reg SP - 8 + f.retOffset + j) = byteAt (s.reg DI) j

theorem prologue_spec (s : M) (f : Frame) (k : Nat) (resMem : Bool) (hk : k ≤ 5) (hf : f.size ≤ 0)
    (hret : resMem = true → f.size < 0 ∧ f.retOffset + 8 ≤ -(8 * k : Int) ∧ -(8 * k : Int) + f.size ≤ f.retOffset)
    (h0 : 8 ≤ s.reg SP) (h64 : s.reg SP < 256 ^ 8) : Prologue s f k resMem (run s (prologue f k resMem)) := by
  let s1 := run s [.push BP, .mov 8 BP SP]
  have a1 : s1.reg SP = s.reg SP - 8 := rfl
  have a2 : s1.reg BP = s.reg SP - 8 := by
    simp only [s1, run_cons, run_nil, step]
    simp [merged]
    exact Int.emod_eq_of_lt (by omega) (by omega)
  have a3 : ∀ r, r ≠ SP → r ≠ BP → s1.reg r = s.reg r := by
    intro r h1 h2
    simp [s1, step, h1, h2]
  have a4 : s1.mem = wr s.mem (s.reg SP - 8) (le 8 (s.reg BP)) := rfl
  obtain ⟨b1, b2, b3, b4⟩ := pushes_spec (tempInt.take k) s1 (tempInt_no_sp k)
  have hlen : (tempInt.take k).length = k := by
    rw [List.length_take]; have : tempInt.length = 5 := rfl; omega
  rw [hlen] at b1 b3
  rw [a1] at b1 b3 b4
  generalize hs2 : run s1 ((tempInt.take k).map .push) = s2 at *
  have hrun : run s (prologue f k resMem) = run s2 (if f.size < 0 then [.addi SP f.size] ++
      (if resMem then [.st 8 DI (.base BP f.retOffset)] else []) else []) := by
    rw [← hs2]
    unfold prologue
    rw [run_append, run_append]
  have c1 : s2.reg BP = s.reg SP - 8 := by rw [b2 BP (by decide), a2]
  have c3 : ∀ r, r ≠ SP → r ≠ BP → s2.reg r = s.reg r := fun r h1 h2 => by rw [b2 r h1, a3 r h1 h2]
  have c4 : ∀ x, x < s.reg SP - 8 - 8 * k ∨ s.reg SP ≤ x → s2.mem x = s.mem x := by
    intro x hx
    rw [b3 x (by omega), a4, wr_out (by simp; omega)]
  have c5 : ∀ j : Nat, j < 8 → s2.mem (s.reg SP - 8 + j) = byteAt (s.reg BP) j := by
    intro j hj
    rw [b3 _ (by omega), a4, wr_le hj]
  have c6 : ∀ (i r : Nat), i < k → tempInt[i]? = some r → ∀ j : Nat, j < 8 →
      s2.mem (s.reg SP - 8 - 8 * (i + 1) + j) = byteAt (s.reg r) j := by
    intro i r hi hr j hj
    have hr' : (tempInt.take k)[i]? = some r := by rw [List.getElem?_take, if_pos hi]; exact hr
    rw [b4 i r hr' j hj, a3 r]
    · rintro rfl; exact tempInt_no_sp k (List.mem_of_getElem? hr')
    · rintro rfl; exact tempInt_no_bp k (List.mem_of_getElem? hr')
  rw [hrun]
  by_cases hneg : f.size < 0
  · rw [if_pos hneg]
    cases resMem with
    | false =>
      simp only [Bool.false_eq_true, if_false, List.append_nil, run_cons, run_nil, step_addi]
      refine ⟨?_, ?_, ?_, ?_, ?_, ?_, ?_⟩
      · rw [set_reg, if_neg (by decide)]; exact c1
      · rw [set_reg, if_pos rfl, b1]
      · intro r h1 h2; rw [set_reg, if_neg h1]; exact c3 r h1 h2
      · intro x hx; rw [set_mem]; exact c4 x (by omega)
      · exact c5
      · exact c6
      · simp
    | true =>
      obtain ⟨_, hr1, hr2⟩ := hret rfl
      simp only [if_true, List.singleton_append, run_cons, run_nil, step_addi, step_st]
      have hd : (s2.set SP (s2.reg SP + f.size)).reg DI = s.reg DI := by
        rw [set_reg, if_neg (by decide)]; exact c3 DI (by decide) (by decide)
      have hea : (s2.set SP (s2.reg SP + f.size)).ea (.base BP f.retOffset) = s.reg SP - 8 + f.retOffset := by
        show (s2.set SP (s2.reg SP + f.size)).reg BP + _ = _
        rw [set_reg, if_neg (by decide), c1]
      rw [hd, hea]
      refine ⟨?_, ?_, ?_, ?_, ?_, ?_, ?_⟩
      · rw [write_reg, set_reg, if_neg (by decide)]; exact c1
      · rw [write_reg, set_reg, if_pos rfl, b1]
      · intro r h1 h2; rw [write_reg, set_reg, if_neg h1]; exact c3 r h1 h2
      · intro x hx; rw [write_mem, set_mem, wr_out (by simp; omega)]; exact c4 x (by omega)
      · intro j hj; rw [write_mem, set_mem, wr_out (by simp; omega)]; exact c5 j hj
      · intro i r hi hr j hj
        rw [write_mem, set_mem, wr_out (by simp; omega)]; exact c6 i r hi hr j hj
      · intro _ j hj
        rw [write_mem, wr_le hj]
  · have hz : f.size = 0 := by omega
    rw [if_neg hneg, run_nil]
    refine ⟨c1, by rw [b1, hz]; omega, c3, fun x hx => c4 x (by omega), c5, c6, ?_⟩
    intro h; have := hret h; omega

/-- Stores at disjoint offsets from `%rbp`. -/
theorem saves_spec : ∀ (l : List (Nat × Nat × Int)) (s : M),
    l.Pairwise (fun a b => a.2.2 + (a.1 : Int) ≤ b.2.2 ∨ b.2.2 + (b.1 : Int) ≤ a.2.2) →
    (run s (l.map fun e => .st e.1 e.2.1 (.base BP e.2.2))).reg = s.reg ∧
    (∀ x, (∀ e ∈ l, x < s.reg BP + e.2.2 ∨ s.reg BP + e.2.2 + e.1 ≤ x) →
      (run s (l.map fun e => .st e.1 e.2.1 (.base BP e.2.2))).mem x = s.mem x) ∧
    ∀ e ∈ l, ∀ j : Nat, j < e.1 →
      (run s (l.map fun e => .st e.1 e.2.1 (.base BP e.2.2))).mem (s.reg BP + e.2.2 + j) = byteAt (s.reg e.2.1) j
  | [], s, _ => by simp
  | (w, r, o) :: l, s, hp => by
    obtain ⟨hp1, hp2⟩ := List.pairwise_cons.mp hp
    obtain ⟨h1, h2, h3⟩ := saves_spec l (s.write (s.reg BP + o) (le w (s.reg r))) hp2
    have e1 : (s.write (s.reg BP + o) (le w (s.reg r))).reg = s.reg := rfl
    have e2 : (s.write (s.reg BP + o) (le w (s.reg r))).mem = wr s.mem (s.reg BP + o) (le w (s.reg r)) := rfl
    rw [e1] at h1 h2 h3
    have e3 : run s (((w, r, o) :: l).map fun e => .st e.1 e.2.1 (.base BP e.2.2)) =
      run (s.write (s.reg BP + o) (le w (s.reg r))) (l.map fun e => .st e.1 e.2.1 (.base BP e.2.2)) := rfl
    rw [e3]
    refine ⟨h1, ?_, ?_⟩
    · intro x hx
      rw [h2 x (fun e he => hx e (List.mem_cons_of_mem _ he)), e2, wr_out ?_]
      have := hx _ (List.mem_cons_self ..)
      simp only at this
      simp; omega
    · intro e he j hj
      rcases List.mem_cons.mp he with rfl | he
      · simp only at hj ⊢
        rw [h2, e2, wr_le hj]
        intro e' he'
        have := hp1 e' he'
        simp only at this
        omega
      · exact h3 e he j hj

theorem saveSse_spec (s : M) : (run s saveSse).reg = s.reg ∧
    (∀ x, x < s.reg BP - 128 ∨ s.reg BP ≤ x → (run s saveSse).mem x = s.mem x) ∧
    ∀ i : Nat, i < 8 → ∀ j : Nat, j < 16 → (run s saveSse).mem (s.reg BP - 128 + 16 * i + j) = byteAt (s.reg (XMM i)) j := by
  have e : saveSse = ((List.range 8).map fun i : Nat => (16, XMM (7 - i), (-(16 * (i + 1) : Nat) : Int))).map
    fun e => .st e.1 e.2.1 (.base BP e.2.2) := by decide
  rw [e]
  obtain ⟨h1, h2, h3⟩ := saves_spec ((List.range 8).map fun i : Nat => (16, XMM (7 - i), (-(16 * (i + 1) : Nat) : Int))) s
    (by decide)
  refine ⟨h1, fun x hx => h2 x ?_, fun i hi j hj => ?_⟩
  · intro e he
    obtain ⟨i, hi, rfl⟩ := List.mem_map.mp he
    have := List.mem_range.mp hi
    simp only
    omega
  · have := h3 (16, XMM (7 - (7 - i)), (-(16 * ((7 - i) + 1) : Nat) : Int))
      (List.mem_map.mpr ⟨7 - i, List.mem_range.mpr (by omega), rfl⟩) j hj
    simp only [show 7 - (7 - i) = i by omega] at this
    rw [← this]
    congr 1
    omega

theorem saveInt_spec (s : M) : (run s saveInt).reg = s.reg ∧
    (∀ x, x < s.reg BP - 176 ∨ s.reg BP - 128 ≤ x → (run s saveInt).mem x = s.mem x) ∧
    ∀ (i r : Nat), paramInt[i]? = some r → ∀ j : Nat, j < 8 →
      (run s saveInt).mem (s.reg BP - 176 + 8 * i + j) = byteAt (s.reg r) j := by
  have e : saveInt = ((List.range 6).map fun i : Nat => (8, paramInt.getD (5 - i) 0, (-(128 + 8 * (i + 1) : Nat) : Int))).map
    fun e => .st e.1 e.2.1 (.base BP e.2.2) := by decide
  rw [e]
  obtain ⟨h1, h2, h3⟩ := saves_spec
    ((List.range 6).map fun i : Nat => (8, paramInt.getD (5 - i) 0, (-(128 + 8 * (i + 1) : Nat) : Int))) s (by decide)
  refine ⟨h1, fun x hx => h2 x ?_, fun i r hr j hj => ?_⟩
  · intro e he
    obtain ⟨i, hi, rfl⟩ := List.mem_map.mp he
    have := List.mem_range.mp hi
    simp only
    omega
  · have hi : i < 6 := by
      have := (List.getElem?_eq_some_iff.mp hr).1
      have : paramInt.length = 6 := rfl
      omega
    have := h3 (8, paramInt.getD (5 - (5 - i)) 0, (-(128 + 8 * ((5 - i) + 1) : Nat) : Int))
      (List.mem_map.mpr ⟨5 - i, List.mem_range.mpr (by omega), rfl⟩) j hj
    simp only [show 5 - (5 - i) = i by omega] at this
    rw [List.getD_eq_getElem?_getD, hr] at this
    rw [← show s.reg BP + -(128 + 8 * ((5 - i) + 1) : Nat) + (j : Int) = s.reg BP - 176 + 8 * (i : Int) + j by omega, this]
    rfl

theorem localOffsets_le (ro : Nat) : ∀ (ls : List Nat) (so : Int), (localOffsets ro ls so).2 ≤ so
  | [], so => by simp [localOffsets]
  | n :: ls, so => by
    simp only [localOffsets]
    have := localOffsets_le ro ls (so - ((n + 7) / 8 * 8 : Nat))
    omega

/-- Where a frame begins. -/
def start (resMem vararg : Bool) : Int := if vararg then -176 else if resMem then -8 else 0

theorem frame_spec {params : List Ty} {locals : List Nat} {k : Nat} {resMem vararg : Bool} {f : Frame}
    (h : frame params locals k resMem vararg = some f) :
    classifyAll params (if resMem then 1 else 0) 0 = some f.classes ∧
    f.params = (paramOffsets (8 * k) params f.classes (start resMem vararg) 16).1 ∧
    f.overflow = (paramOffsets (8 * k) params f.classes (start resMem vararg) 16).2.2 ∧
    f.locals = (localOffsets (8 * k) locals (paramOffsets (8 * k) params f.classes (start resMem vararg) 16).2.1).1 ∧
    f.size ≤ (localOffsets (8 * k) locals (paramOffsets (8 * k) params f.classes (start resMem vararg) 16).2.1).2 ∧
    (f.size - 8 * k) % 16 = 0 ∧
    f.retOffset = (if vararg then -176 - (8 * k : Int) else -8 - (8 * k : Int)) := by
  unfold frame at h
  obtain ⟨l, hl, h⟩ := Option.bind_eq_some_iff.mp h
  simp only [Option.some.injEq] at h
  have hs : (start resMem vararg : Int) = if vararg then -176 else if resMem then -8 else 0 := rfl
  rw [← hs] at h
  have h1 := paramOffsets_le (8 * k) params l (start resMem vararg) 16
  have h2 := localOffsets_le (8 * k) locals (paramOffsets (8 * k) params l (start resMem vararg) 16).2.1
  have h3 : start resMem vararg ≤ 0 := by unfold start; split_ifs <;> omega
  subst h
  refine ⟨hl, rfl, rfl, rfl, ?_, ?_, ?_⟩
  · simp only
    generalize paramOffsets (8 * k) params l (start resMem vararg) 16 = p at *
    generalize localOffsets (8 * k) locals p.2.1 = q at *
    split_ifs <;> omega
  · simp only
    generalize paramOffsets (8 * k) params l (start resMem vararg) 16 = p at *
    generalize localOffsets (8 * k) locals p.2.1 = q at *
    split_ifs <;> omega
  · simp only
    split_ifs <;> push_cast <;> rfl

/-- State after entering a function. -/
structure Entered (s0 s : M) (f : Frame) (k : Nat) (resMem vararg : Bool) (params : List Arg) (s' : M) : Prop where
  bp : s'.reg BP = s.reg SP - 8
  sp : s'.reg SP = s.reg SP - 8 - 8 * k + f.size
  reg : ∀ r, r ≠ SP → r ≠ BP → s'.reg r = s.reg r
  mem : ∀ x, x < s.reg SP - 8 - 8 * k + f.size ∨ s.reg SP ≤ x → s'.mem x = s.mem x
  saved : ∀ j : Nat, j < 8 → s'.mem (s.reg SP - 8 + j) = byteAt (s.reg BP) j
  temps : (vararg = true → s.reg AX % 256 = 0) → ∀ (i r : Nat), i < k → tempInt[i]? = some r → ∀ j : Nat, j < 8 →
    s'.mem (s.reg SP - 8 - 8 * (i + 1) + j) = byteAt (s.reg r) j
  ret : resMem = true → ∀ j : Nat, j < 8 → s'.mem (s.reg SP - 8 + f.retOffset + j) = byteAt (s.reg DI) j
  gp : vararg = true → ∀ (i r : Nat), paramInt[i]? = some r → ∀ j : Nat, j < 8 →
    s'.mem (s.reg SP - 8 - 176 + 8 * i + j) = byteAt (s.reg r) j
  fp : vararg = true → s.reg AX % 256 ≠ 0 → ∀ i : Nat, i < 8 → ∀ j : Nat, j < 16 →
    s'.mem (s.reg SP - 8 - 128 + 16 * i + j) = byteAt (s.reg (XMM i)) j
  params : RegParams s0 s'.mem (s.reg SP - 8) params f.classes f.params

theorem enter_spec {s0 s s' : M} {ps : List Arg} {locals : List Nat} {k : Nat} {resMem vararg : Bool} {f : Frame}
    (hf : frame (ps.map (·.ty)) locals k resMem vararg = some f)
    (he : enter (ps.map (·.ty)) locals k resMem vararg s = some s') (hk : k ≤ 5)
    (hl : ∀ a ∈ ps, SysV.laidOut a.ty = true) (h0 : 8 ≤ s.reg SP) (h64 : s.reg SP < 256 ^ 8)
    (hr : RegsHold s0 s.reg ps f.classes (if resMem then 1 else 0) 0) :
    Entered s0 s f k resMem vararg ps s' := by
  obtain ⟨_, f1, _, _, f2, _, f3⟩ := frame_spec hf
  unfold enter at he
  rw [hf] at he
  simp only [Option.bind_eq_bind, Option.bind_some] at he
  obtain ⟨stores, hst, he⟩ := Option.bind_eq_some_iff.mp he
  simp only [Option.some.injEq] at he
  have hso0 : start resMem vararg ≤ 0 := by unfold start; split_ifs <;> omega
  have h1 := paramOffsets_le (8 * k) (ps.map (·.ty)) f.classes (start resMem vararg) 16
  have h2 := localOffsets_le (8 * k) locals (paramOffsets (8 * k) (ps.map (·.ty)) f.classes (start resMem vararg) 16).2.1
  have hp := prologue_spec s f k resMem hk (by omega) (by
    intro hm
    subst hm
    have hs8 : start true vararg ≤ -8 := by cases vararg <;> decide
    have hs' : start true vararg = if vararg then -176 else -8 := by unfold start; simp
    rw [f3]
    split_ifs at hs' ⊢ <;> omega) h0 h64
  generalize run s (prologue f k resMem) = t at *
  -- the register save area
  obtain ⟨u, hu, ureg, umem, utemps, ugp, ufp⟩ : ∃ u, run u stores = s' ∧ u.reg = t.reg ∧
      (∀ x, (vararg = false ∨ x < s.reg SP - 8 - 176 ∨ s.reg SP - 8 ≤ x) → u.mem x = t.mem x) ∧
      ((vararg = true → s.reg AX % 256 = 0) → ∀ x, s.reg SP - 8 - 128 ≤ x → u.mem x = t.mem x) ∧
      (vararg = true → ∀ (i r : Nat), paramInt[i]? = some r → ∀ j : Nat, j < 8 →
        u.mem (s.reg SP - 8 - 176 + 8 * i + j) = byteAt (s.reg r) j) ∧
      (vararg = true → s.reg AX % 256 ≠ 0 → ∀ i : Nat, i < 8 → ∀ j : Nat, j < 16 →
        u.mem (s.reg SP - 8 - 128 + 16 * i + j) = byteAt (s.reg (XMM i)) j) := by
    have hax : t.reg AX = s.reg AX := hp.reg AX (by decide) (by decide)
    cases vararg with
    | false =>
      simp only [Bool.false_eq_true, if_false] at he
      exact ⟨t, he, rfl, fun _ _ => rfl, fun _ _ _ => rfl, by simp, by simp⟩
    | true =>
      simp only [if_true, hax] at he
      have hint : ∀ (i r : Nat), paramInt[i]? = some r → t.reg r = s.reg r := by
        intro i r hr
        have hm := List.mem_of_getElem? hr
        refine hp.reg r ?_ ?_ <;> rintro rfl <;> revert hm <;> decide
      by_cases ha : s.reg AX % 256 = 0
      · rw [if_pos ha] at he
        obtain ⟨g1, g2, g3⟩ := saveInt_spec t
        rw [hp.bp] at g2 g3
        refine ⟨_, he, g1, fun x hx => g2 x (by simp at hx; omega), fun _ x hx => g2 x (by omega), ?_, ?_⟩
        · intro _ i r hr j hj
          rw [g3 i r hr j hj, hint i r hr]
        · intro _ hne; exact absurd ha hne
      · rw [if_neg ha] at he
        obtain ⟨v1, v2, v3⟩ := saveSse_spec t
        obtain ⟨g1, g2, g3⟩ := saveInt_spec (run t saveSse)
        rw [v1, hp.bp] at g2 g3
        rw [hp.bp] at v2 v3
        refine ⟨_, he, by rw [g1, v1], fun x hx => ?_, fun h => absurd (h rfl) ha, ?_, ?_⟩
        · simp at hx
          rw [g2 x (by omega), v2 x (by omega)]
        · intro _ i r hr j hj
          rw [g3 i r hr j hj, hint i r hr]
        · intro _ _ i hi j hj
          rw [g2 _ (by omega), v3 i hi j hj, hp.reg]
          · simp only [XMM, SP]; omega
          · simp only [XMM, BP]; omega
  rw [f1] at hst
  have hint : ∀ x, x ∈ paramInt.drop (if resMem then 1 else 0) ∨ x ∈ paramSse.drop 0 → x ≠ SP ∧ x ≠ BP := by
    intro x hx
    have : x ∈ paramInt ∨ x ∈ paramSse := by
      rcases hx with hx | hx
      · exact .inl (List.mem_of_mem_drop hx)
      · exact .inr (List.mem_of_mem_drop hx)
    constructor <;> rintro rfl <;> revert this <;> decide
  obtain ⟨w1, w2, w3⟩ := storeAll_spec (s0 := s0) (bp := s.reg SP - 8) ps f.classes (start resMem vararg) 16 _ _ stores u hl
    (by rw [ureg, hp.bp]) hst (hr.congr fun x hx => by rw [ureg]; exact hp.reg x (hint x hx).1 (hint x hx).2)
  rw [hu] at w1 w2 w3
  push_cast at w2
  have hsv : vararg = true → start resMem vararg = -176 := by rintro rfl; rfl
  have hsr : resMem = true → start resMem vararg ≤ -8 := by rintro rfl; cases vararg <;> decide
  have hab : ∀ x, s.reg SP - 8 + start resMem vararg - 8 * (k : Int) ≤ x → s'.mem x = u.mem x := fun x hx => w2 x (.inr hx)
  refine ⟨by rw [w1, ureg, hp.bp], by rw [w1, ureg, hp.sp], fun r a b => by rw [w1, ureg, hp.reg r a b], ?_, ?_, ?_, ?_, ?_, ?_,
    by rw [f1]; exact w3⟩
  · intro x hx
    rw [w2 x (by omega), umem x ?_, hp.mem x hx]
    rcases Bool.eq_false_or_eq_true vararg with hv | hv
    · have := hsv hv
      right; omega
    · exact .inl hv
  · intro j hj
    rw [hab _ (by omega), umem _ (.inr (.inr (by omega))), hp.saved j hj]
  · intro hv i r hi hr j hj
    rw [hab _ (by omega), utemps hv _ (by omega), hp.temps i r hi hr j hj]
  · intro hm j hj
    have hrr : f.retOffset = start resMem vararg - 8 * k := by
      rw [f3]; subst hm; cases vararg <;> simp [start]
    rw [hab _ (by rw [hrr]; omega)]
    by_cases hz : vararg = true ∧ k = 0
    · obtain ⟨hv, rfl⟩ := hz
      have := ugp hv 0 DI rfl j hj
      rw [hrr, hsv hv]
      rw [← this]
      congr 1
      simp; omega
    · rw [umem, hp.ret hm j hj]
      rcases Bool.eq_false_or_eq_true vararg with hv | hv
      · have := hsv hv
        have : k ≠ 0 := fun h => hz ⟨hv, h⟩
        right; left; rw [hrr]; omega
      · exact .inl hv
  · intro hv i r hr j hj
    have := hsv hv
    rw [hab _ (by omega), ugp hv i r hr j hj]
  · intro hv hne i hi j hj
    have := hsv hv
    rw [hab _ (by omega), ufp hv hne i hi j hj]

end Verif.Abi
