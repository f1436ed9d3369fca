import Verif.Abi.VaMain

namespace Verif.Abi

theorem vaLoad_spec {W E} {t : M} {O : Int} {src : Src} (hs : src.Fixed W E t O) {n r : Nat} {code : List Ins}
    (h : vaLoad n src r = some code) (hr : VaReg r) :
    Near (fun _ => False) E t (run t code) ∧ (∀ x, x ≠ r → x ≠ R11 → (run t code).reg x = t.reg x) ∧
      (n ≠ 0 → (run t code).reg r = val (rd t.mem O 4)) := by
  unfold vaLoad at h
  split_ifs at h with h0
  · simp only [Option.some.injEq] at h
    subst h
    exact ⟨.refl, fun _ _ _ => rfl, fun h => absurd h0 h⟩
  · obtain ⟨h1, h2, h3⟩ := load_word hs (.inl rfl) h
    refine ⟨⟨fun x _ => by rw [h1], fun x hx _ => h2 x ?_ ?_⟩, h2, fun _ => h3⟩
    · rintro rfl; exact hx hr
    · rintro rfl; exact hx (by simp [VaReg])

/-- One `va_arg` reads the next argument, and leaves the `va_list` with the remaining
ones. -/
theorem va_step {s0 t t' : M} {reg : Nat → Int} {L R A : Int} {a : Arg} {rest : List Arg} {l : List (PC × Bool)} {i s : Nat}
    {res : Src} {ap : Ap} (hp : Pending s0 t reg L R A (a :: rest) l i s)
    (hu : Usable t L R A (A + memUsed ((a :: rest).map (·.ty)) l) a.ty res ap) (hv : vaArg a.ty res ap t = some t')
    (hreal : ∀ r, res = .place (.temp r) → 17 ≤ r → l.head?.map (·.2) = some true) :
    (∀ j : Nat, j < a.ty.size → res.byte t' j = a.src.byte s0 j) ∧
    Near (vaW L res (res.object t) (eightbytes a.ty)) (resE res) t t' ∧
    ∃ A' l' i' s', Pending s0 t' reg L R A' rest l' i' s' ∧ A ≤ A' ∧
      A' + memUsed (rest.map (·.ty)) l' = A + memUsed ((a :: rest).map (·.ty)) l ∧ l' = l.tail := by
  obtain ⟨src, hsrc, hfix⟩ := hu.list
  have hBP := hu.notBP
  have hdst := hu.dst
  have hlr := hu.list_res
  have har := hu.area_res
  have hor := hu.over_res
  have hal := hu.area_list
  have hol := hu.over_list
  clear hu
  generalize hO : res.object t = O at *
  have hcl := hp.classes
  simp only [List.map_cons, classifyAll] at hcl
  obtain ⟨pc, hpc, hcl⟩ := Option.bind_eq_some_iff.mp hcl
  have hlaid := hp.laid a (List.mem_cons_self ..)
  have hlaid' : ∀ x ∈ rest, SysV.laidOut x.ty = true := fun x hx => hp.laid x (List.mem_cons_of_mem _ hx)
  have hA0 : 0 ≤ A := by rw [← hp.ov]; exact val_nonneg _
  have hR0 : 0 ≤ R := by rw [← hp.area]; exact val_nonneg _
  -- the compiled code
  simp only [vaArg, hsrc, hpc, Option.bind_eq_bind, Option.bind_some] at hv
  have hv : (if pc.head? = some .integer ∨ pc.head? = some .sse then
      (vaCode a.ty pc res src).bind fun c => some (c.run pc t)
      else (vaStack a.ty res src).bind fun c => some (run t c)) = some t' := by
    cases ap with
    | object p o => exact hv
    | pointer p =>
      cases res with
      | deref p o => simp at hv
      | place p => exact hv
      | imm v => exact hv
      | addr p => exact hv
  have hRW : ∀ x, R ≤ x → x < R + 176 → ¬ vaW L res O (eightbytes a.ty) x := by
    rintro x h1 h2 (⟨h3, h4, h5⟩ | ⟨h3, h4⟩)
    · have := har h3; unfold Away at this; omega
    · unfold Away at hal; omega
  have hLres : ∀ x, L ≤ x → x < L + 24 → ¬ resW res O (eightbytes a.ty) x := by
    rintro x h1 h2 ⟨h3, h4, h5⟩
    have := hlr h3; unfold Away at this; omega
  -- the argument is on the stack
  have stackCase : ∀ (u : M) (c : List Ins) (l' : List (PC × Bool)), Near (fun _ => False) (resE res) t u →
      vaStack a.ty res src = some c → t' = run u c → l = (pc, false) :: l' → classifyAll (rest.map (·.ty)) i s = some l' →
      (∀ j : Nat, j < a.ty.size → res.byte t' j = a.src.byte s0 j) ∧
      Near (vaW L res O (eightbytes a.ty)) (resE res) t t' ∧
      ∃ A' l' i' s', Pending s0 t' reg L R A' rest l' i' s' ∧ A ≤ A' ∧
        A' + memUsed (rest.map (·.ty)) l' = A + memUsed ((a :: rest).map (·.ty)) l ∧ l' = l.tail := by
    intro u c l' hn hc ht hl hcl'
    subst hl
    have hum : u.mem = t.mem := funext fun x => hn.mem x (fun h => h)
    have hnW : ∀ W', Near W' (resE res) t u := fun W' => hn.mono (fun _ h => h.elim) (fun _ h => h)
    have hmu : memUsed ((a :: rest).map (·.ty)) ((pc, false) :: l') = 8 * eightbytes a.ty + memUsed (rest.map (·.ty)) l' := by
      simp [memUsed]
    have hfits := hp.fits
    rw [hmu] at hor hol hfits ⊢
    have hsz : a.ty.size ≤ 8 * eightbytes a.ty := by unfold eightbytes; omega
    obtain ⟨k1, k2, k3⟩ := vaStack_spec (A := A) hc hlaid (Fixed.near (hnW _) hBP hfix) (hdst.imp id (Fixed.near (hnW _) hBP))
      (by
        intro r hr
        by_contra h17
        have := hreal r hr (by omega)
        simp at this)
      hlr (fun h => by have := hor h; unfold Away at this ⊢; omega)
      (by rw [hum]; exact hp.ov) (by omega)
    rw [← ht] at k1 k2 k3
    have k1 := (hnW _).trans k1
    have hst := hp.stack
    simp only [StackHolds, Bool.false_eq_true, if_false] at hst
    refine ⟨fun j hj => by rw [k3 j hj, hum]; exact hst.1 j hj, k1.mono (fun x hx => hx.imp id (fun h => by omega)) (fun _ h => h),
      A + 8 * eightbytes a.ty, l', i, s, ?_, by omega, by push_cast; omega, rfl⟩
    have same : ∀ x, L ≤ x → x < L + 24 → (x < L + 8 ∨ L + 16 ≤ x) → t'.mem x = t.mem x := by
      intro x h1 h2 h3
      refine k1.mem x ?_
      rintro (h | h)
      · exact hLres x h1 h2 h
      · omega
    refine ⟨?_, ?_, k2, ?_, hp.i6, hp.s8, hcl', ?_, ?_, ?_, ?_, hlaid', by omega⟩
    · rw [← hp.gp]; exact val_rd_congr fun x h1 h2 => same x (by omega) (by omega) (by omega)
    · rw [← hp.fp]; exact val_rd_congr fun x h1 h2 => same x (by omega) (by omega) (by omega)
    · rw [← hp.area]; exact val_rd_congr fun x h1 h2 => same x (by omega) (by omega) (by omega)
    · obtain ⟨q, hq⟩ := hp.loads
      exact ⟨q, by simpa [loadAll] using hq⟩
    · refine hst.2.congr fun x h1 h2 => k1.mem x ?_
      rintro (⟨h3, h4, h5⟩ | h)
      · have := hor h3; unfold Away at this; omega
      · unfold Away at hol; omega
    · have := hp.saved
      simp only [sseUsed, Bool.false_eq_true, if_false, Nat.zero_add] at this
      refine this.near k1 (fun x h1 h2 => ?_) (sseUsed_le _ _ _ _ hcl' hp.s8)
      rintro (h | h)
      · exact hRW x h1 h2 (.inl h)
      · exact hRW x h1 h2 (.inr (by omega))
    · have := hp.regs
      simpa [RegsHold] using this
  by_cases hh : pc.head? = some .integer ∨ pc.head? = some .sse
  case neg =>
    rw [if_neg hh] at hv
    obtain ⟨c, hc, hv⟩ := Option.bind_eq_some_iff.mp hv
    simp only [Option.some.injEq] at hv
    have hq : ¬ alloc pc i s = true := by
      simp only [alloc, Bool.and_eq_true, Bool.or_eq_true, beq_iff_eq, not_and]
      intro h; exact absurd h.1 hh
    simp only [if_neg hq] at hcl
    obtain ⟨l', hl', hcl⟩ := Option.bind_eq_some_iff.mp hcl
    simp only [Option.some.injEq] at hcl
    exact stackCase t c l' .refl hc hv.symm hcl.symm hl'
  rw [if_pos hh] at hv
  obtain ⟨c, hc, hv⟩ := Option.bind_eq_some_iff.mp hv
  simp only [Option.some.injEq] at hv
  unfold vaCode at hc
  obtain ⟨gp, hgp, hc⟩ := Option.bind_eq_some_iff.mp hc
  obtain ⟨fp, hfp, hc⟩ := Option.bind_eq_some_iff.mp hc
  obtain ⟨area, harea, hc⟩ := Option.bind_eq_some_iff.mp hc
  obtain ⟨body, hbody, hc⟩ := Option.bind_eq_some_iff.mp hc
  obtain ⟨a1, ha1, hc⟩ := Option.bind_eq_some_iff.mp hc
  obtain ⟨a2, ha2, hc⟩ := Option.bind_eq_some_iff.mp hc
  obtain ⟨st, hst, hc⟩ := Option.bind_eq_some_iff.mp hc
  simp only [Option.some.injEq] at hc
  subst hc
  simp only [VaCode.run] at hv
  obtain ⟨g1, g2, g3⟩ := vaLoad_spec hfix hgp (by decide)
  generalize run t gp = t1 at *
  have g1W : ∀ W', Near W' (resE res) t t1 := fun W' => g1.mono (fun _ h => h.elim) (fun _ h => h)
  have hm1 : t1.mem = t.mem := funext fun x => g1.mem x (fun h => h)
  obtain ⟨f1, f2, f3⟩ := vaLoad_spec (Fixed.shift 4 (Fixed.near (g1W _) hBP hfix)) hfp (by decide)
  generalize run t1 fp = t2 at *
  have f1W : ∀ W', Near W' (resE res) t t2 := fun W' => (g1W W').trans (f1.mono (fun _ h => h.elim) (fun _ h => h))
  have hm2 : t2.mem = t.mem := funext fun x => (f1W (fun _ => False)).mem x (fun h => h)
  have hcx : ints pc ≠ 0 → t1.reg CX % 256 ^ 4 = 8 * i := by
    intro h
    rw [g3 h, val_rd_emod]; exact hp.gp
  have hdx : sses pc ≠ 0 → t2.reg DX % 256 ^ 4 = 48 + 16 * s := by
    intro h
    rw [f3 h, val_rd_emod, hm1]; exact hp.fp
  have hi6 := hp.i6
  have hs8 := hp.s8
  by_cases hq : alloc pc i s = true
  case neg =>
    simp only [if_neg hq] at hcl
    obtain ⟨l', hl', hcl⟩ := Option.bind_eq_some_iff.mp hcl
    simp only [Option.some.injEq] at hcl
    by_cases c1 : ints pc ≠ 0 ∧ t1.reg CX % 256 ^ 4 > 48 - 8 * ints pc
    · rw [if_pos c1] at hv
      exact stackCase t1 st l' g1 hst hv.symm hcl.symm hl'
    · rw [if_neg c1] at hv
      by_cases c2 : sses pc ≠ 0 ∧ t2.reg DX % 256 ^ 4 > 176 - 16 * sses pc
      · rw [if_pos c2] at hv
        exact stackCase t2 st l' (f1W _) hst hv.symm hcl.symm hl'
      · exfalso
        apply hq
        have h1 : i + ints pc ≤ 6 := by
          by_cases h0 : ints pc = 0
          · omega
          · have := hcx h0
            have c1 := fun h => c1 ⟨h0, h⟩
            omega
        have h2 : s + sses pc ≤ 8 := by
          by_cases h0 : sses pc = 0
          · omega
          · have := hdx h0
            have c2 := fun h => c2 ⟨h0, h⟩
            omega
        simp only [alloc, Bool.and_eq_true, Bool.or_eq_true, beq_iff_eq, decide_eq_true_eq]
        exact ⟨⟨hh, h1⟩, h2⟩
  simp only [if_pos hq] at hcl
  obtain ⟨l', hl', hcl⟩ := Option.bind_eq_some_iff.mp hcl
  simp only [Option.some.injEq] at hcl
  subst hcl
  have hq' : i + ints pc ≤ 6 ∧ s + sses pc ≤ 8 := by
    simp only [alloc, Bool.and_eq_true, decide_eq_true_eq] at hq
    exact ⟨hq.1.2, hq.2⟩
  rw [if_neg (by rintro ⟨h0, h⟩; have := hcx h0; omega), if_neg (by rintro ⟨h0, h⟩; have := hdx h0; omega)] at hv
  rw [run_append, run_append, run_append] at hv
  obtain ⟨r1, r2, r3⟩ := load_word (Fixed.shift 16 (Fixed.near (f1W _) hBP hfix)) (.inr rfl) harea
  have n3 : ∀ W', Near W' (resE res) t (run t2 area) := fun W' => (f1W W').trans
    ⟨fun x _ => by rw [r1], fun r hr _ => r2 r (fun e => hr (by simp [VaReg, e])) (fun e => hr (by simp [VaReg, e]))⟩
  generalize run t2 area = t3 at *
  have hm3 : t3.mem = t.mem := by rw [r1, hm2]
  have hmu : memUsed ((a :: rest).map (·.ty)) ((pc, true) :: l') = memUsed (rest.map (·.ty)) l' := by simp [memUsed]
  have hfits := hp.fits
  rw [hmu] at hor hol hfits ⊢
  obtain ⟨cl, hcl⟩ := hp.loads
  simp only [loadAll, if_true] at hcl
  obtain ⟨sl, hsl, hcl⟩ := Option.bind_eq_some_iff.mp hcl
  obtain ⟨_, _, hcl⟩ := Option.bind_eq_some_iff.mp hcl
  obtain ⟨cl', hcl', _⟩ := Option.bind_eq_some_iff.mp hcl
  have hrg := hp.regs
  simp only [RegsHold, if_true] at hrg
  have hsaved := hp.saved
  simp only [sseUsed, if_true] at hsaved
  have hused : s + sses pc + sseUsed l' ≤ 8 := sseUsed_le _ _ _ _ hl' hq'.2
  obtain ⟨b1, b2⟩ := vaBody_spec (a := a) (s0 := s0) hbody hlaid hpc (hdst.imp id (Fixed.near (n3 _) hBP)) hRW hq'.2 hsl
    (Saved.near (W := fun _ => False) ⟨hsaved.gp, fun m h1 h2 => hsaved.fp m h1 (by omega)⟩ (n3 _) (fun _ _ _ h => h) hq'.2)
    (by rw [r3, hm2]; exact hp.area)
    (fun h => by
      rw [r2 CX (by decide) (by decide), f2 CX (by decide) (by decide), g3 h]; exact hp.gp)
    (fun h => by rw [r2 DX (by decide) (by decide), f3 h, hm1]; exact hp.fp)
    (hrg.1 sl hsl)
  generalize run t3 body = t4 at *
  have n4 : Near (resW res O (eightbytes a.ty)) (resE res) t t4 := (n3 _).trans b1
  have n4W : Near (vaW L res O (eightbytes a.ty)) (resE res) t t4 := n4.mono (fun x hx => .inl hx) (fun _ h => h)
  have e4 : ∀ x, L ≤ x → x < L + 24 → t4.mem x = t.mem x := fun x h1 h2 => n4.mem x (hLres x h1 h2)
  have gp4 : val (rd t4.mem L 4) = 8 * i := by
    rw [← hp.gp]; exact val_rd_congr fun x h1 h2 => e4 x (by omega) (by omega)
  obtain ⟨x1, x2, x3⟩ := vaAdd_spec (Fixed.near n4W hBP hfix) hBP ha1 (by rw [gp4]; omega)
  have n5 : Near (fun x => L ≤ x ∧ x < L + 8) (resE res) t4 (run t4 a1) :=
    ⟨fun x hx => x2 x (by by_contra hcon; exact hx ⟨by omega, by omega⟩),
      fun r hr _ => x3 r (fun e => hr (by simp [VaReg, e])) (fun e => hr (by simp [VaReg, e]))⟩
  generalize run t4 a1 = t5 at *
  have n5W : Near (vaW L res O (eightbytes a.ty)) (resE res) t t5 :=
    n4W.trans (n5.mono (fun x hx => .inr (by omega)) (fun _ h => h))
  have fp5 : val (rd t5.mem (L + ((4 : Nat) : Int)) 4) = 48 + 16 * s := by
    rw [← hp.fp]
    exact val_rd_congr fun x h1 h2 => by rw [x2 x (by omega), e4 x (by omega) (by omega)]
  obtain ⟨y1, y2, y3⟩ := vaAdd_spec (Fixed.shift 4 (Fixed.near n5W hBP hfix)) hBP ha2 (by rw [fp5]; omega)
  have n6 : Near (fun x => L ≤ x ∧ x < L + 8) (resE res) t5 (run t5 a2) :=
    ⟨fun x hx => y2 x (by by_contra hcon; exact hx ⟨by omega, by omega⟩),
      fun r hr _ => y3 r (fun e => hr (by simp [VaReg, e])) (fun e => hr (by simp [VaReg, e]))⟩
  rw [hv] at y1 y2 y3 n6
  have n45 : Near (fun x => L ≤ x ∧ x < L + 8) (resE res) t4 t' := n5.trans n6
  have n7 : Near (fun x => resW res O (eightbytes a.ty) x ∨ (L ≤ x ∧ x < L + 8)) (resE res) t t' :=
    (n4.mono (fun x hx => .inl hx) (fun _ h => h)).trans (n45.mono (fun x hx => .inr hx) (fun _ h => h))
  have n7W : Near (vaW L res O (eightbytes a.ty)) (resE res) t t' :=
    n7.mono (fun x hx => hx.imp id (fun h => by omega)) (fun _ h => h)
  refine ⟨?_, n7W, A, l', i + ints pc, s + sses pc, ?_, by omega, rfl, rfl⟩
  · intro j hj
    rw [← b2 j hj]
    rcases hdst with ⟨r, sz, k, rfl, hk, hr⟩ | hf
    · simp only [Src.byte, Place.byte]
      have hra : r ≠ AX := by rintro rfl; split_ifs at hr <;> exact absurd hr (by decide)
      have hrb : r ≠ R11 := by rintro rfl; split_ifs at hr <;> exact absurd hr (by decide)
      rw [y3 r hra hrb, x3 r hra hrb]
    · rw [Fixed.byte (Fixed.near n7W hBP hf), Fixed.byte (Fixed.near n4W hBP hf)]
      refine n45.mem _ ?_
      rintro ⟨h1, h2⟩
      have := hlr (fixed_not_temp hf)
      unfold Away at this
      have : a.ty.size ≤ 8 * eightbytes a.ty := by unfold eightbytes; omega
      omega
  · have e7 : ∀ x, L + 8 ≤ x → x < L + 24 → t'.mem x = t.mem x := by
      intro x h1 h2
      refine n7.mem x ?_
      rintro (h | h)
      · exact hLres x (by omega) h2 h
      · omega
    refine ⟨?_, ?_, ?_, ?_, hq'.1, hq'.2, hl', ⟨cl', hcl'⟩, ?_, ?_, hrg.2, hlaid', hfits⟩
    · have : val (rd t'.mem L 4) = val (rd t5.mem L 4) := val_rd_congr fun x h1 h2 => y2 x (by omega)
      rw [this, x1, gp4]; push_cast; omega
    · have := y1
      rw [fp5] at this
      rw [show L + 4 = L + ((4 : Nat) : Int) from rfl, this]; push_cast; omega
    · rw [← hp.ov]; exact val_rd_congr fun x h1 h2 => e7 x (by omega) (by omega)
    · rw [← hp.area]; exact val_rd_congr fun x h1 h2 => e7 x (by omega) (by omega)
    · have hst' := hp.stack
      simp only [StackHolds, if_true] at hst'
      refine hst'.congr fun x h1 h2 => n7.mem x ?_
      rintro (⟨h3, h4, h5⟩ | h)
      · have := hor h3; unfold Away at this; omega
      · unfold Away at hol; omega
    · refine Saved.near (W := vaW L res O (eightbytes a.ty)) ⟨fun m r h1 h2 => hsaved.gp m r (by omega) h2,
        fun m h1 h2 => hsaved.fp m (by omega) (by omega)⟩ n7W hRW (by omega)

end Verif.Abi
