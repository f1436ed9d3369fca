import Verif.Abi.VaWalk
import Verif.Abi.Arrive

namespace Verif.Abi

/-! ## The extra arguments of a call -/

theorem classifyAll_right : ∀ (as bs : List Ty) (i s : Nat) (l1 l2 : List (PC × Bool)), l1.length = as.length →
    classifyAll (as ++ bs) i s = some (l1 ++ l2) → classifyAll bs (i + intsUsed l1) (s + sseUsed l1) = some l2
  | [], bs, i, s, l1, l2, hl, h => by
    cases l1 with
    | nil => simpa [intsUsed, sseUsed] using h
    | cons _ _ => simp at hl
  | t :: as, bs, i, s, l1, l2, hl, h => by
    cases l1 with
    | nil => simp at hl
    | cons x l1 =>
      simp only [List.length_cons, Nat.add_right_cancel_iff] at hl
      simp only [List.cons_append, classifyAll] at h
      obtain ⟨pc, hpc, h⟩ := Option.bind_eq_some_iff.mp h
      by_cases q : alloc pc i s = true
      · simp only [if_pos q] at h
        obtain ⟨l', hl', h⟩ := Option.bind_eq_some_iff.mp h
        simp only [Option.some.injEq, List.cons.injEq] at h
        obtain ⟨rfl, rfl⟩ := h
        have := classifyAll_right as bs _ _ l1 l2 hl hl'
        simpa [intsUsed, sseUsed, Nat.add_assoc] using this
      · simp only [if_neg q] at h
        obtain ⟨l', hl', h⟩ := Option.bind_eq_some_iff.mp h
        simp only [Option.some.injEq, List.cons.injEq] at h
        obtain ⟨rfl, rfl⟩ := h
        have := classifyAll_right as bs _ _ l1 l2 hl hl'
        simpa [intsUsed, sseUsed] using this

theorem intsUsed_le : ∀ (ts : List Ty) (i s : Nat) (l : List (PC × Bool)), classifyAll ts i s = some l → i ≤ 6 →
    i + intsUsed l ≤ 6
  | [], i, s, l, h, hi => by
    simp only [classifyAll, Option.some.injEq] at h
    subst h; simpa [intsUsed] using hi
  | t :: ts, i, s, l, h, hi => by
    simp only [classifyAll] at h
    obtain ⟨pc, _, h⟩ := Option.bind_eq_some_iff.mp h
    by_cases q : alloc pc i s = true
    · simp only [if_pos q] at h
      obtain ⟨l', hl', h⟩ := Option.bind_eq_some_iff.mp h
      simp only [Option.some.injEq] at h
      subst h
      simp only [alloc, Bool.and_eq_true, decide_eq_true_eq] at q
      have := intsUsed_le ts _ _ l' hl' q.1.2
      simp only [intsUsed, if_true]; omega
    · simp only [if_neg q] at h
      obtain ⟨l', hl', h⟩ := Option.bind_eq_some_iff.mp h
      simp only [Option.some.injEq] at h
      subst h
      have := intsUsed_le ts _ _ l' hl' hi
      simpa [intsUsed] using this

theorem sseUsed_append : ∀ (l1 l2 : List (PC × Bool)), sseUsed (l1 ++ l2) = sseUsed l1 + sseUsed l2
  | [], l2 => by simp [sseUsed]
  | x :: l1, l2 => by simp [sseUsed, sseUsed_append l1 l2, Nat.add_assoc]

theorem memUsed_append : ∀ (as bs : List Ty) (l1 l2 : List (PC × Bool)), l1.length = as.length →
    memUsed (as ++ bs) (l1 ++ l2) = memUsed as l1 + memUsed bs l2
  | [], bs, l1, l2, h => by
    cases l1 with
    | nil => simp [memUsed]
    | cons _ _ => simp at h
  | a :: as, bs, l1, l2, h => by
    cases l1 with
    | nil => simp at h
    | cons x l1 =>
      simp only [List.length_cons, Nat.add_right_cancel_iff] at h
      simp [memUsed, memUsed_append as bs l1 l2 h, Nat.add_assoc]

theorem StackHolds.right {s0 : M} {m : Mem} : ∀ {as bs : List Arg} {l1 l2 : List (PC × Bool)} {sp : Int},
    l1.length = as.length → StackHolds s0 m sp (as ++ bs) (l1 ++ l2) →
      StackHolds s0 m (sp + memUsed (as.map (·.ty)) l1) bs l2
  | [], bs, l1, l2, sp, h, hs => by
    cases l1 with
    | nil => simpa [memUsed] using hs
    | cons _ _ => simp at h
  | a :: as, bs, [], l2, sp, h, hs => by simp at h
  | a :: as, bs, (pc, b) :: l1, l2, sp, h, hs => by
    simp only [List.length_cons, Nat.add_right_cancel_iff] at h
    cases b with
    | true =>
      simp only [List.cons_append, StackHolds, if_true] at hs
      simpa [memUsed] using StackHolds.right h hs
    | false =>
      simp only [List.cons_append, StackHolds, Bool.false_eq_true, if_false] at hs
      have := StackHolds.right h hs.2
      simp only [List.map_cons, memUsed, Bool.false_eq_true, if_false]
      convert this using 1
      push_cast; omega

theorem RegsHold.right {s0 : M} {reg : Nat → Int} : ∀ {as bs : List Arg} {l1 l2 : List (PC × Bool)} {i s : Nat},
    l1.length = as.length → RegsHold s0 reg (as ++ bs) (l1 ++ l2) i s →
      RegsHold s0 reg bs l2 (i + intsUsed l1) (s + sseUsed l1)
  | [], bs, l1, l2, i, s, h, hs => by
    cases l1 with
    | nil => simpa [intsUsed, sseUsed] using hs
    | cons _ _ => simp at h
  | a :: as, bs, [], l2, i, s, h, hs => by simp at h
  | a :: as, bs, (pc, b) :: l1, l2, i, s, h, hs => by
    simp only [List.length_cons, Nat.add_right_cancel_iff] at h
    cases b with
    | true =>
      simp only [List.cons_append, RegsHold, if_true] at hs
      simpa [intsUsed, sseUsed, Nat.add_assoc] using RegsHold.right h hs.2
    | false =>
      simp only [List.cons_append, RegsHold, Bool.false_eq_true, if_false] at hs
      simpa [intsUsed, sseUsed] using RegsHold.right h hs

theorem loadAll_right : ∀ (as bs : List Arg) (l1 l2 : List (PC × Bool)) (i s : Nat), l1.length = as.length →
    (∃ c, loadAll (as ++ bs) (l1 ++ l2) i s = some c) → ∃ c, loadAll bs l2 (i + intsUsed l1) (s + sseUsed l1) = some c
  | [], bs, l1, l2, i, s, h, hc => by
    cases l1 with
    | nil => simpa [intsUsed, sseUsed] using hc
    | cons _ _ => simp at h
  | a :: as, bs, [], l2, i, s, h, _ => by simp at h
  | a :: as, bs, (pc, b) :: l1, l2, i, s, h, hc => by
    simp only [List.length_cons, Nat.add_right_cancel_iff] at h
    obtain ⟨c, hc⟩ := hc
    cases b with
    | true =>
      simp only [List.cons_append, loadAll, if_true] at hc
      obtain ⟨_, _, hc⟩ := Option.bind_eq_some_iff.mp hc
      obtain ⟨_, _, hc⟩ := Option.bind_eq_some_iff.mp hc
      obtain ⟨c', hc', _⟩ := Option.bind_eq_some_iff.mp hc
      simpa [intsUsed, sseUsed, Nat.add_assoc] using loadAll_right as bs l1 l2 _ _ h ⟨c', hc'⟩
    | false =>
      simp only [List.cons_append, loadAll, Bool.false_eq_true, if_false] at hc
      simpa [intsUsed, sseUsed] using loadAll_right as bs l1 l2 _ _ h ⟨c, hc⟩

theorem paramOffsets_mem (ro : Nat) : ∀ (ts : List Ty) (l : List (PC × Bool)) (so mo : Int),
    (paramOffsets ro ts l so mo).2.2 = mo + memUsed ts l
  | [], l, so, mo => by simp [paramOffsets, memUsed]
  | _ :: _, [], so, mo => by simp [paramOffsets, memUsed]
  | t :: ts, (pc, b) :: l, so, mo => by
    cases b with
    | true => simp only [paramOffsets, if_true, memUsed, paramOffsets_mem ro ts l]; simp
    | false =>
      simp only [paramOffsets, Bool.false_eq_true, if_false, memUsed, paramOffsets_mem ro ts l]
      push_cast; omega

theorem frame_overflow {ts : List Ty} {locals : List Nat} {k : Nat} {resMem vararg : Bool} {f : Frame}
    (h : frame ts locals k resMem vararg = some f) :
    classifyAll ts (if resMem then 1 else 0) 0 = some f.classes ∧ f.overflow = 16 + memUsed ts f.classes := by
  unfold frame at h
  obtain ⟨l, hl, h⟩ := Option.bind_eq_some_iff.mp h
  simp only [Option.some.injEq] at h
  subst h
  exact ⟨hl, paramOffsets_mem _ _ _ _ _⟩

/-! ## `va_start` -/

theorem storeConst_spec {W E} {t : M} {O : Int} {dst : Src} (hs : dst.Fixed W E t O) (hE : ¬ E BP) {v : Int}
    {code : List Ins} (h : storeConst v dst = some code) :
    (run t code).mem = wr t.mem O (le 4 v) ∧ ∀ x, x ≠ AX → x ≠ R11 → (run t code).reg x = t.reg x := by
  cases dst with
  | imm _ => exact hs.elim
  | addr _ => exact hs.elim
  | place p =>
    simp only [storeConst] at h
    obtain ⟨a, ha, h⟩ := Option.bind_eq_some_iff.mp h
    simp only [Option.some.injEq] at h
    subst h
    rw [run_cons, run_nil]
    simp only [step]
    rw [ea_place ha, hs.2]
    exact ⟨rfl, fun _ _ _ => rfl⟩
  | deref p o =>
    simp only [storeConst] at h
    obtain ⟨c, hc, h⟩ := Option.bind_eq_some_iff.mp h
    simp only [Option.some.injEq] at h
    subst h
    have hn : Near W E t (step t (.movi 4 AX v)) := by
      refine ⟨fun _ _ => rfl, fun r hr _ => ?_⟩
      simp only [step]
      rw [set_reg, if_neg]
      rintro rfl; exact hr (by decide)
    have hAX : le 4 ((step t (.movi 4 AX v)).reg AX) = le 4 v := by
      simp only [step]
      rw [set_reg, if_pos rfl, le_merged]
    rw [run_cons]
    have hs' : (Src.deref p o).Fixed W E (step t (.movi 4 AX v)) O := Fixed.near hn hE hs
    obtain ⟨h1, h2⟩ := store_mem hs' (by decide) hc
    rw [hAX] at h1
    refine ⟨h1, fun x hx hx' => ?_⟩
    rw [h2 x hx']
    simp only [step]
    rw [set_reg, if_neg hx]

/-- The object which `va_start` initialises. -/
def Ap.start : Ap → Src
  | .object p o => .place (p.shift o)
  | .pointer p => .deref p 0

theorem vaStart_spec {f : Frame} {resMem : Bool} {ap : Ap} {t : M} {L : Int} {code : List Ins}
    (h : vaStart f resMem ap = some code)
    (hs : ap.start.Fixed (fun x => L ≤ x ∧ x < L + 24) (fun _ => False) t L) 
    (hi : (if resMem then 1 else 0) + intsUsed f.classes ≤ 6) (hss : sseUsed f.classes ≤ 8)
    (h0 : 176 ≤ t.reg BP) (h1 : 0 ≤ f.overflow) (h2 : t.reg BP + f.overflow < 256 ^ 8) :
    Near (fun x => L ≤ x ∧ x < L + 24) (fun _ => False) t (run t code) ∧
    val (rd (run t code).mem L 4) = 8 * ((if resMem then 1 else 0) + intsUsed f.classes : Nat) ∧
    val (rd (run t code).mem (L + 4) 4) = 48 + 16 * sseUsed f.classes ∧
    val (rd (run t code).mem (L + 8) 8) = t.reg BP + f.overflow ∧
    val (rd (run t code).mem (L + 16) 8) = t.reg BP - 176 := by
  have h' : (do
      some ((← storeConst (8 * ((if resMem then 1 else 0) + intsUsed f.classes) : Nat) ap.start) ++
        (← storeConst (48 + 16 * sseUsed f.classes : Nat) (ap.start.shift 4)) ++
        [.lea AX (.base BP f.overflow)] ++ (← store 8 false AX (ap.start.shift 8)) ++
        [.lea AX (.base BP (-176))] ++ (← store 8 false AX (ap.start.shift 16)))) = some code := by
    rw [← h]; cases ap <;> rfl
  clear h
  obtain ⟨c1, hc1, h'⟩ := Option.bind_eq_some_iff.mp h'
  obtain ⟨c2, hc2, h'⟩ := Option.bind_eq_some_iff.mp h'
  obtain ⟨c3, hc3, h'⟩ := Option.bind_eq_some_iff.mp h'
  obtain ⟨c4, hc4, h'⟩ := Option.bind_eq_some_iff.mp h'
  simp only [Option.some.injEq] at h'
  subst h'
  have hF : ¬ (fun _ : Nat => False) BP := fun h => h
  simp only [run_append, run_cons, run_nil, step_lea]
  obtain ⟨a1, a2⟩ := storeConst_spec hs hF hc1
  have n1 : Near (fun x => L ≤ x ∧ x < L + 24) (fun _ => False) t (run t c1) := by
    refine ⟨fun x hx => ?_, fun r hr _ => a2 r ?_ ?_⟩
    · rw [a1, wr_out]
      simp only [le, List.length_map, List.length_range]
      by_contra hcon
      exact hx ⟨by omega, by omega⟩
    · rintro rfl; exact hr (by decide)
    · rintro rfl; exact hr (by decide)
  generalize run t c1 = t1 at *
  obtain ⟨b1, b2⟩ := storeConst_spec (Fixed.shift 4 (Fixed.near n1 hF hs)) hF hc2
  have n2 : Near (fun x => L ≤ x ∧ x < L + 24) (fun _ => False) t1 (run t1 c2) := by
    refine ⟨fun x hx => ?_, fun r hr _ => b2 r ?_ ?_⟩
    · rw [b1, wr_out]
      simp only [le, List.length_map, List.length_range]
      by_contra hcon
      exact hx ⟨by omega, by omega⟩
    · rintro rfl; exact hr (by decide)
    · rintro rfl; exact hr (by decide)
  generalize run t1 c2 = t2 at *
  have n12 := n1.trans n2
  generalize ht3 : t2.set AX (t2.ea (.base BP f.overflow)) = t3
  have n3 : Near (fun x => L ≤ x ∧ x < L + 24) (fun _ => False) t2 t3 := by
    subst ht3
    refine ⟨fun _ _ => rfl, fun r hr _ => ?_⟩
    rw [set_reg, if_neg]
    rintro rfl; exact hr (by decide)
  have m3 : t3.mem = t2.mem := by subst ht3; rfl
  have r3 : t3.reg AX = t.reg BP + f.overflow := by
    subst ht3
    rw [set_reg, if_pos rfl]
    show t2.reg BP + f.overflow = _
    rw [n12.reg BP (by decide) (fun h => h)]
  clear ht3
  have n13 := n12.trans n3
  obtain ⟨d1, d2⟩ := store_mem (Fixed.shift 8 (Fixed.near n13 hF hs)) (by decide) hc3
  have n4 : Near (fun x => L ≤ x ∧ x < L + 24) (fun _ => False) t3 (run t3 c3) := by
    refine ⟨fun x hx => ?_, fun r hr _ => d2 r ?_⟩
    · rw [d1, wr_out]
      simp only [le, List.length_map, List.length_range]
      by_contra hcon
      exact hx ⟨by omega, by omega⟩
    · rintro rfl; exact hr (by decide)
  generalize run t3 c3 = t4 at *
  have n14 := n13.trans n4
  generalize ht5 : t4.set AX (t4.ea (.base BP (-176))) = t5
  have n5 : Near (fun x => L ≤ x ∧ x < L + 24) (fun _ => False) t4 t5 := by
    subst ht5
    refine ⟨fun _ _ => rfl, fun r hr _ => ?_⟩
    rw [set_reg, if_neg]
    rintro rfl; exact hr (by decide)
  have m5 : t5.mem = t4.mem := by subst ht5; rfl
  have r5 : t5.reg AX = t.reg BP - 176 := by
    subst ht5
    rw [set_reg, if_pos rfl]
    show t4.reg BP + -176 = _
    rw [n14.reg BP (by decide) (fun h => h)]; omega
  clear ht5
  have n15 := n14.trans n5
  obtain ⟨e1, e2⟩ := store_mem (Fixed.shift 16 (Fixed.near n15 hF hs)) (by decide) hc4
  have n6 : Near (fun x => L ≤ x ∧ x < L + 24) (fun _ => False) t5 (run t5 c4) := by
    refine ⟨fun x hx => ?_, fun r hr _ => e2 r ?_⟩
    · rw [e1, wr_out]
      simp only [le, List.length_map, List.length_range]
      by_contra hcon
      exact hx ⟨by omega, by omega⟩
    · rintro rfl; exact hr (by decide)
  generalize run t5 c4 = t6 at *
  have out : ∀ (m m' : Mem) (a : Int) (n : Nat) (v : Int) (b : Int) (k : Nat), m' = wr m a (le n v) →
      (b + k ≤ a ∨ a + n ≤ b) → val (rd m' b k) = val (rd m b k) := by
    intro m m' a n v b k e hd
    subst e
    refine val_rd_congr fun x h1 h2 => wr_out ?_
    simp only [le, List.length_map, List.length_range]
    omega
  refine ⟨n15.trans n6, ?_, ?_, ?_, ?_⟩
  · rw [out _ _ _ _ _ L 4 e1 (by omega), m5, out _ _ _ _ _ L 4 d1 (by omega), m3, out _ _ _ _ _ L 4 b1 (by omega), a1,
      val_wr (by omega) (by omega)]
    push_cast; rfl
  · rw [out _ _ _ _ _ (L + 4) 4 e1 (by omega), m5, out _ _ _ _ _ (L + 4) 4 d1 (by omega), m3, b1]
    rw [show (L + 4 : Int) = L + ((4 : Nat) : Int) from rfl, val_wr (by omega) (by omega)]
    push_cast; rfl
  · rw [out _ _ _ _ _ (L + 8) 8 e1 (by omega), m5, d1, r3]
    rw [show (L + 8 : Int) = L + ((8 : Nat) : Int) from rfl, val_wr (by omega) (by omega)]
  · rw [e1, r5]
    rw [show (L + 16 : Int) = L + ((16 : Nat) : Int) from rfl, val_wr (by omega) (by omega)]

/-! ## Between reads -/

theorem Pending.congr {s0 t u : M} {reg : Nat → Int} {L R A : Int} {rest : List Arg} {l : List (PC × Bool)} {i s : Nat}
    (h : Pending s0 t reg L R A rest l i s) (hL : ∀ x, L ≤ x → x < L + 24 → u.mem x = t.mem x)
    (hR : ∀ x, R ≤ x → x < R + 176 → u.mem x = t.mem x)
    (hA : ∀ x, A ≤ x → x < A + memUsed (rest.map (·.ty)) l → u.mem x = t.mem x) :
    Pending s0 u reg L R A rest l i s := by
  have hs : s + sseUsed l ≤ 8 := sseUsed_le _ _ _ _ h.classes h.s8
  refine ⟨?_, ?_, ?_, ?_, h.i6, h.s8, h.classes, h.loads, h.stack.congr hA, ⟨?_, ?_⟩, h.regs, h.laid, h.fits⟩
  · rw [← h.gp]; exact val_rd_congr fun x h1 h2 => hL x (by omega) (by omega)
  · rw [← h.fp]; exact val_rd_congr fun x h1 h2 => hL x (by omega) (by omega)
  · rw [← h.ov]; exact val_rd_congr fun x h1 h2 => hL x (by omega) (by omega)
  · rw [← h.area]; exact val_rd_congr fun x h1 h2 => hL x (by omega) (by omega)
  · intro m r h1 h2 j hj
    rw [← h.saved.gp m r h1 h2 j hj]
    have := paramInt_lt h2
    exact hR _ (by omega) (by omega)
  · intro m h1 h2 j hj
    rw [← h.saved.fp m h1 h2 j hj]
    exact hR _ (by omega) (by omega)

theorem Usable.mono {t L R A A' Z Z' ty res ap} (h : Usable t L R A Z ty res ap) (hA : A ≤ A') (hZ : Z' ≤ Z) :
    Usable t L R A' Z' ty res ap :=
  ⟨h.list, h.dst, h.list_res, h.area_res, fun hr => by have := h.over_res hr; unfold Away at *; omega, h.area_list, by
    have := h.over_list; unfold Away at *; omega⟩

end Verif.Abi
