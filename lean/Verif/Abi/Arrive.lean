import Verif.Abi.Locate

namespace Verif.Abi

theorem params_hold {s0 : M} {m : Mem} {bp : Int} {ro : Nat} : ∀ (as : List Arg) (l : List (PC × Bool)) (so mo : Int),
    RegParams s0 m bp as l (paramOffsets ro (as.map (·.ty)) l so mo).1 → StackHolds s0 m (bp + mo) as l →
    ∀ (n : Nat) (a : Arg) (o : Int), as[n]? = some a → (paramOffsets ro (as.map (·.ty)) l so mo).1[n]? = some o →
      ∀ j : Nat, j < a.ty.size → m (bp + o + j) = a.src.byte s0 j
  | [], _, _, _, _, _, n, a, o, ha, _ => by simp at ha
  | _ :: _, [], _, _, _, _, n, a, o, _, ho => by simp [paramOffsets] at ho
  | x :: as, (pc, b) :: l, so, mo, hr, hs, n, a, o, ha, ho => by
    cases b with
    | true =>
      simp only [List.map_cons, paramOffsets, if_true, RegParams, true_implies, StackHolds] at *
      cases n with
      | zero =>
        simp only [List.getElem?_cons_zero, Option.some.injEq] at ha ho
        subst ha; subst ho
        exact hr.1
      | succ n =>
        simp only [List.getElem?_cons_succ] at ha ho
        exact params_hold as l _ _ hr.2 hs n a o ha ho
    | false =>
      simp only [List.map_cons, paramOffsets, Bool.false_eq_true, if_false, RegParams, false_implies, true_and,
        StackHolds] at *
      cases n with
      | zero =>
        simp only [List.getElem?_cons_zero, Option.some.injEq] at ha ho
        subst ha; subst ho
        exact hs.1
      | succ n =>
        simp only [List.getElem?_cons_succ] at ha ho
        refine params_hold as l _ _ hr ?_ n a o ha ho
        have := hs.2
        rw [show bp + mo + 8 * (eightbytes x.ty : Int) = bp + (mo + (8 * eightbytes x.ty : Nat)) by push_cast; omega] at this
        exact this

theorem classifyAll_append : ∀ (as bs : List Ty) (i s : Nat) (l : List (PC × Bool)), classifyAll (as ++ bs) i s = some l →
    ∃ l1 l2, l = l1 ++ l2 ∧ classifyAll as i s = some l1 ∧ l1.length = as.length
  | [], bs, i, s, l, h => ⟨[], l, rfl, rfl, rfl⟩
  | t :: as, bs, i, s, l, h => by
    simp only [List.cons_append, classifyAll] at h ⊢
    obtain ⟨pc, hpc, h⟩ := Option.bind_eq_some_iff.mp h
    rw [hpc]
    by_cases q : alloc pc i s = true
    · simp only [if_pos q] at h
      obtain ⟨l', hl', h⟩ := Option.bind_eq_some_iff.mp h
      simp only [Option.some.injEq] at h
      subst h
      obtain ⟨l1, l2, rfl, h1, h2⟩ := classifyAll_append as bs _ _ l' hl'
      exact ⟨(pc, true) :: l1, l2, rfl, by simp [q, h1], by simp [h2]⟩
    · simp only [if_neg q] at h
      obtain ⟨l', hl', h⟩ := Option.bind_eq_some_iff.mp h
      simp only [Option.some.injEq] at h
      subst h
      obtain ⟨l1, l2, rfl, h1, h2⟩ := classifyAll_append as bs _ _ l' hl'
      exact ⟨(pc, false) :: l1, l2, rfl, by simp [q, h1], by simp [h2]⟩

theorem StackHolds.left {s0 : M} {m : Mem} : ∀ {as bs : List Arg} {l1 l2 : List (PC × Bool)} {sp : Int},
    l1.length = as.length → StackHolds s0 m sp (as ++ bs) (l1 ++ l2) → StackHolds s0 m sp as l1
  | [], _, _, _, _, _, _ => by simp [StackHolds]
  | _ :: _, _, [], _, _, h, _ => by simp at h
  | a :: as, bs, (pc, b) :: l1, l2, sp, h, hs => by
    simp only [List.length_cons, Nat.add_right_cancel_iff] at h
    cases b with
    | true =>
      simp only [List.cons_append, StackHolds, if_true] at hs ⊢
      exact StackHolds.left h hs
    | false =>
      simp only [List.cons_append, StackHolds, Bool.false_eq_true, if_false] at hs ⊢
      exact ⟨hs.1, StackHolds.left h hs.2⟩

theorem RegsHold.left {s0 : M} {reg : Nat → Int} : ∀ {as bs : List Arg} {l1 l2 : List (PC × Bool)} {i s : Nat},
    l1.length = as.length → RegsHold s0 reg (as ++ bs) (l1 ++ l2) i s → RegsHold s0 reg as l1 i s
  | [], _, _, _, _, _, _, _ => by simp [RegsHold]
  | _ :: _, _, [], _, _, _, h, _ => by simp at h
  | a :: as, bs, (pc, b) :: l1, l2, i, s, h, hs => by
    simp only [List.length_cons, Nat.add_right_cancel_iff] at h
    cases b with
    | true =>
      simp only [List.cons_append, RegsHold, if_true] at hs ⊢
      exact ⟨hs.1, RegsHold.left h hs.2⟩
    | false =>
      simp only [List.cons_append, RegsHold, Bool.false_eq_true, if_false] at hs ⊢
      exact RegsHold.left h hs

/-- Popping a list of registers. -/
theorem pops_spec : ∀ (rs : List Nat) (s : M), SP ∉ rs → rs.Nodup →
    (run s (rs.map .pop)).reg SP = s.reg SP + 8 * rs.length ∧
    (∀ r, r ≠ SP → r ∉ rs → (run s (rs.map .pop)).reg r = s.reg r) ∧
    (run s (rs.map .pop)).mem = s.mem ∧
    ∀ (i r : Nat), rs[i]? = some r → (run s (rs.map .pop)).reg r = val (rd s.mem (s.reg SP + 8 * i) 8)
  | [], s, _, _ => by simp
  | r :: rs, s, h, hn => by
    simp only [List.mem_cons, not_or] at h
    simp only [List.nodup_cons] at hn
    obtain ⟨h1, h2, h3, h4⟩ := pops_spec rs (step s (.pop r)) h.2 hn.2
    have e1 : (step s (.pop r)).reg SP = s.reg SP + 8 := by simp [step, h.1]
    have e2 : ∀ x, x ≠ SP → x ≠ r → (step s (.pop r)).reg x = s.reg x := by
      intro x hx hr; simp [step, hx, hr]
    have e3 : (step s (.pop r)).mem = s.mem := rfl
    have e4 : (step s (.pop r)).reg r = val (rd s.mem (s.reg SP) 8) := by simp [step]
    rw [e1] at h1 h4
    rw [e3] at h3 h4
    simp only [List.map_cons, run_cons, List.length_cons]
    refine ⟨by rw [h1]; push_cast; omega, fun x hx hr => ?_, h3, ?_⟩
    · simp only [List.mem_cons, not_or] at hr
      rw [h2 x hx hr.2, e2 x hx hr.1]
    · intro i q hi
      cases i with
      | zero =>
        simp only [List.getElem?_cons_zero, Option.some.injEq] at hi
        subst hi
        rw [h2 _ (Ne.symm h.1) hn.1, e4]
        simp
      | succ i =>
        simp only [List.getElem?_cons_succ] at hi
        rw [h4 i q hi]
        congr 2
        push_cast; omega

/-- Leaving a function. -/
structure Left (u : M) (k : Nat) (v : M) : Prop where
  sp : v.reg SP = u.reg BP + 16
  bp : v.reg BP = val (rd u.mem (u.reg BP) 8)
  ip : v.reg IP = val (rd u.mem (u.reg BP + 8) 8)
  mem : v.mem = u.mem
  temps : ∀ (i r : Nat), i < k → tempInt[i]? = some r → v.reg r = val (rd u.mem (u.reg BP - 8 * (i + 1)) 8)
  other : ∀ r, r ≠ SP → r ≠ BP → r ≠ IP → r ∉ tempInt.take k → v.reg r = u.reg r

theorem tempInt_nodup : tempInt.Nodup := by decide

theorem leave_ret (w : M) :
    let v := run w [.leave, .ret]
    v.reg SP = w.reg BP + 16 ∧ v.reg BP = val (rd w.mem (w.reg BP) 8) ∧ v.reg IP = val (rd w.mem (w.reg BP + 8) 8) ∧
      v.mem = w.mem ∧ ∀ r, r ≠ SP → r ≠ BP → r ≠ IP → v.reg r = w.reg r := by
  refine ⟨?_, ?_, ?_, rfl, ?_⟩
  · simp [step, IP, SP, BP]; omega
  · simp [step, IP, SP, BP]
  · simp [step, IP, SP, BP]
  · intro r h1 h2 h3
    simp [step, h1, h2, h3]

theorem epilogue_spec (u : M) (k : Nat) (hk : k ≤ 5) : Left u k (run u (epilogue k)) := by
  unfold epilogue
  rw [run_append]
  by_cases hz : k = 0
  · subst hz
    rw [if_pos rfl, run_nil]
    obtain ⟨h1, h2, h3, h4, h5⟩ := leave_ret u
    exact ⟨h1, h2, h3, h4, by simp, fun r a b c _ => h5 r a b c⟩
  · rw [if_neg hz, run_cons (i := .lea SP (.base BP (-(8 * k : Nat)))), step_lea]
    generalize hu1 : u.set SP (u.ea (.base BP (-(8 * k : Nat)))) = u1
    have a1 : u1.reg SP = u.reg BP - 8 * k := by
      subst hu1
      rw [set_reg, if_pos rfl]
      show u.reg BP + _ = _
      push_cast; omega
    have a2 : ∀ r, r ≠ SP → u1.reg r = u.reg r := by intro r hr; subst hu1; rw [set_reg, if_neg hr]
    have a3 : u1.mem = u.mem := by subst hu1; rfl
    obtain ⟨b1, b2, b3, b4⟩ := pops_spec (tempInt.take k).reverse u1 (by rw [List.mem_reverse]; exact tempInt_no_sp k)
      (List.pairwise_reverse.mpr ((tempInt_nodup.sublist (List.take_sublist ..)).imp Ne.symm))
    generalize run u1 ((tempInt.take k).reverse.map .pop) = w at *
    have hlen : (tempInt.take k).length = k := by
      rw [List.length_take]; have : tempInt.length = 5 := rfl; omega
    obtain ⟨h1, h2, h3, h4, h5⟩ := leave_ret w
    have hbp : w.reg BP = u.reg BP := by
      rw [b2 BP (by decide) (by rw [List.mem_reverse]; exact tempInt_no_bp k), a2 BP (by decide)]
    have hm : w.mem = u.mem := by rw [b3, a3]
    rw [hbp] at h1 h2 h3
    rw [hm] at h2 h3 h4
    refine ⟨h1, h2, h3, h4, ?_, ?_⟩
    · intro i r hi hr
      have hr' : (tempInt.take k)[i]? = some r := by rw [List.getElem?_take, if_pos hi]; exact hr
      have hmem := List.mem_of_getElem? hr'
      have hne : r ≠ SP ∧ r ≠ BP ∧ r ≠ IP := by
        have := List.mem_of_mem_take hmem
        refine ⟨?_, ?_, ?_⟩ <;> rintro rfl <;> revert this <;> decide
      have hrev : (tempInt.take k).reverse[k - 1 - i]? = some r := by
        rw [List.getElem?_reverse (by omega), hlen, show k - 1 - (k - 1 - i) = i by omega]
        exact hr'
      rw [h5 r hne.1 hne.2.1 hne.2.2, b4 _ r hrev, a3, a1]
      congr 2
      omega
    · intro r c1 c2 c3 c4
      rw [h5 r c1 c2 c3, b2 r c1 (by rw [List.mem_reverse]; exact c4), a2 r c1]

/-- After a call: arguments are dropped and the vector registers restored. -/
theorem loadTemps_spec : ∀ (m : Nat) (s : M),
    (run s (loadTemps m)).reg SP = s.reg SP + 16 * m ∧
    (run s (loadTemps m)).mem = s.mem ∧
    (∀ r, r ≠ SP → (∀ i, i < m → r ≠ XMM (8 + i)) → (run s (loadTemps m)).reg r = s.reg r) ∧
    ∀ i, i < m → (run s (loadTemps m)).reg (XMM (8 + i)) = val (rd s.mem (s.reg SP + 16 * (m - 1 - i : Nat)) 8)
  | 0, s => by simp [loadTemps]
  | m + 1, s => by
    have hx : ∀ n, XMM n ≠ SP := by intro n; simp only [XMM, SP]; omega
    have hinj : ∀ i j, XMM (8 + i) = XMM (8 + j) → i = j := by intro i j h; simp only [XMM] at h; omega
    generalize hs1 : (step (step s (.ld 8 (XMM (8 + m)) (.base SP 0))) (.addi SP 16)) = s1
    have e : run s (loadTemps (m + 1)) = run s1 (loadTemps m) := by
      subst hs1
      simp only [loadTemps, run_append, run_cons, run_nil]
    have a1 : s1.reg SP = s.reg SP + 16 := by
      subst hs1
      rw [step_addi, set_reg, if_pos rfl]
      simp only [step]
      rw [set_reg, if_neg (Ne.symm (hx _))]
    have a2 : s1.mem = s.mem := by subst hs1; rfl
    have a3 : ∀ r, r ≠ SP → r ≠ XMM (8 + m) → s1.reg r = s.reg r := by
      intro r h1 h2; subst hs1; rw [step_addi, set_reg, if_neg h1]; simp only [step]; rw [set_reg, if_neg h2]
    have a4 : s1.reg (XMM (8 + m)) = val (rd s.mem (s.reg SP) 8) := by
      subst hs1; rw [step_addi, set_reg, if_neg (hx _)]
      simp only [step]
      rw [set_reg, if_pos rfl]
      simp only [merged, show decide (8 < 4) = false from rfl, Bool.false_eq_true, if_false]
      rw [show s.ea (.base SP 0) = s.reg SP from by show s.reg SP + 0 = _; omega]
      exact val_rd_emod ..
    obtain ⟨h1, h2, h3, h4⟩ := loadTemps_spec m s1
    rw [e]
    rw [a1] at h1 h4
    rw [a2] at h2 h4
    refine ⟨by rw [h1]; push_cast; omega, h2, ?_, ?_⟩
    · intro r hr hn
      rw [h3 r hr (fun i hi => hn i (by omega)), a3 r hr (hn m (by omega))]
    · intro i hi
      by_cases q : i = m
      · subst q
        rw [h3 _ (hx _) (fun j hj heq => by have := hinj _ _ heq; omega), a4]
        simp
      · rw [h4 i (by omega)]
        congr 2
        omega

theorem val_rd_byteAt {m : Mem} {a : Int} {v : Int} (h : ∀ j : Nat, j < 8 → m (a + j) = byteAt v j) :
    val (rd m a 8) = v % 256 ^ 8 := by
  have : rd m a 8 = le 8 v := by
    simp only [rd, le]
    apply List.map_congr_left
    intro j hj
    exact h j (List.mem_range.mp hj)
  rw [this, val_le_emod]

theorem assign_perm : ∀ (cs : List Cls) (g v rs g' v' : List Nat), SysV.assign cs g v = some (rs, g', v') →
    List.Perm (g ++ v) (rs ++ (g' ++ v'))
  | [], g, v, rs, g', v', h => by
    simp only [SysV.assign, Option.some.injEq, Prod.mk.injEq] at h
    obtain ⟨rfl, rfl, rfl⟩ := h
    exact List.Perm.refl _
  | c :: cs, g, v, rs, g', v', h => by
    cases c with
    | integer =>
      cases g with
      | nil => simp [SysV.assign] at h
      | cons r g =>
        simp only [SysV.assign, Option.map_eq_some_iff] at h
        obtain ⟨⟨a, b, d⟩, hy, e⟩ := h
        simp only [Prod.mk.injEq] at e
        obtain ⟨rfl, rfl, rfl⟩ := e
        exact (assign_perm cs g v a b d hy).cons r
    | sse =>
      cases v with
      | nil => simp [SysV.assign] at h
      | cons r v =>
        simp only [SysV.assign, Option.map_eq_some_iff] at h
        obtain ⟨⟨a, b, d⟩, hy, e⟩ := h
        simp only [Prod.mk.injEq] at e
        obtain ⟨rfl, rfl, rfl⟩ := e
        exact List.perm_middle.trans ((assign_perm cs g v a b d hy).cons r)
    | _ => simp [SysV.assign] at h

theorem assigned {cs : List Cls} {g v rs g' v' : List Nat} (h : SysV.assign cs g v = some (rs, g', v'))
    (hn : (g ++ v).Nodup) : rs.Nodup ∧ (g' ++ v').Nodup ∧ (∀ x ∈ rs, x ∉ g' ++ v') ∧ (∀ x ∈ rs, x ∈ g ++ v) ∧
      ∀ x ∈ g' ++ v', x ∈ g ++ v := by
  have hp := assign_perm _ _ _ _ _ _ h
  have hn' := hp.nodup_iff.mp hn
  obtain ⟨h1, h2, h3⟩ := List.nodup_append.mp hn'
  refine ⟨h1, h2, fun x hx hx' => h3 x hx x hx' rfl, fun x hx => hp.mem_iff.mpr (List.mem_append_left _ hx),
    fun x hx => hp.mem_iff.mpr (List.mem_append_right _ hx)⟩

end Verif.Abi
