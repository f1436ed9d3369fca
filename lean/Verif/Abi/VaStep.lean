import Verif.Abi.VaLemmas

namespace Verif.Abi

theorem sliceType_full {t : Ty} {pc : PC} {i w : Nat} {k : Kind} (h : sliceType t pc i = some (w, k))
    (hl : SysV.laidOut t = true) (hi : i + 1 < eightbytes t) : w = 8 := by
  obtain ⟨h1, h2, h3⟩ := sliceType_spec h hl (by omega)
  simp only [need, eightbytes] at h2 hi
  omega

theorem drop_head {l : List Nat} {n r : Nat} (h : (l.drop n).head? = some r) : l[n]? = some r := by
  rw [List.head?_drop] at h
  exact h

theorem paramSse_get {n r : Nat} (h : paramSse[n]? = some r) : n < 8 ∧ r = XMM n := by
  have h8 : n < 8 := by
    have := (List.getElem?_eq_some_iff.mp h).1
    simpa [paramSse] using this
  refine ⟨h8, ?_⟩
  simp only [paramSse, List.getElem?_map, List.getElem?_range h8, Option.map_some, Option.some.injEq] at h
  exact h.symm

theorem count_drop {pc : PC} {q : Nat} {c : Cls} (h : pc[q]? = some c) :
    (pc.drop q).count c = (pc.drop (q + 1)).count c + 1 := by
  obtain ⟨hq, e⟩ := List.getElem?_eq_some_iff.mp h
  rw [List.drop_eq_getElem_cons hq, e, List.count_cons_self]

theorem count_drop_le (pc : PC) (q : Nat) (c : Cls) : (pc.drop (q + 1)).count c ≤ (pc.drop q).count c := by
  rw [← List.drop_drop]
  exact List.Sublist.count_le _ (List.drop_sublist _ _)

/-- Registers which an argument is read from in the save area. -/
structure Saved (t : M) (reg : Nat → Int) (R : Int) (i s n : Nat) : Prop where
  gp : ∀ (m r : Nat), i ≤ m → paramInt[m]? = some r → ∀ j : Nat, j < 8 → t.mem (R + 8 * m + j) = byteAt (reg r) j
  fp : ∀ m : Nat, s ≤ m → m < s + n → ∀ j : Nat, j < 8 → t.mem (R + 48 + 16 * m + j) = byteAt (reg (XMM m)) j

theorem paramInt_lt {m r : Nat} (h : paramInt[m]? = some r) : m < 6 := (List.getElem?_eq_some_iff.mp h).1

theorem Saved.near {W E} {t t' : M} {reg R i s n} (h : Saved t reg R i s n) (hn : Near W E t t')
    (hR : ∀ x, R ≤ x → x < R + 176 → ¬ W x) (hs : s + n ≤ 8) : Saved t' reg R i s n := by
  refine ⟨fun m r hm hr j hj => ?_, fun m hm hm' j hj => ?_⟩
  · have := paramInt_lt hr
    rw [hn.mem _ (hR _ (by omega) (by omega)), h.gp m r hm hr j hj]
  · rw [hn.mem _ (hR _ (by omega) (by omega)), h.fp m hm hm' j hj]

/-- The loop of `va_arg` with an object in memory as the result. -/
theorem vaSlices_spec {W : Int → Prop} {E : Nat → Prop} {ty : Ty} {pc : PC} {res : Src} {O R : Int} {reg : Nat → Int} {i s : Nat}
    (hE : ¬ E BP) (hl : SysV.laidOut ty = true) (hR : ∀ x, R ≤ x → x < R + 176 → ¬ W x)
    (hs8 : s + sses pc ≤ 8) (hO : ∀ x, O ≤ x → x < O + 8 * eightbytes ty → W x) :
    ∀ (n q ni ns off : Nat) (code : List Ins) (sl : List Slice) (t : M),
    slices ty pc n q (paramInt.drop (i + ni)) (paramSse.drop (s + ns)) = some sl →
    vaSlices ty pc res n q ni ns off = some code → (0 < n → off = 8 * q) → q + n = eightbytes ty →
    ns + (pc.drop q).count .sse ≤ sses pc →
    res.Fixed W E t O → Saved t reg R i s (sses pc) → t.reg SI = R → (ints pc ≠ 0 → t.reg CX = 8 * i) →
    (sses pc ≠ 0 → t.reg DX = 48 + 16 * s) → ints pc ≥ (pc.drop q).count .integer →
    (∀ x, x < O + 8 * q ∨ O + 8 * (q + n : Nat) ≤ x → (run t code).mem x = t.mem x) ∧
    (∀ r, r ≠ AX → r ≠ XMM 0 → r ≠ R11 → (run t code).reg r = t.reg r) ∧
    ∀ e ∈ sl, ∀ j : Nat, j < need ty.size e.1 → (run t code).mem (O + 8 * e.1 + j) = byteAt (reg e.2.2.2) j
  | 0, q, ni, ns, off, code, sl, t, hsl, hc, _, _, _, _, _, _, _, _, _ => by
    simp only [slices, vaSlices, Option.some.injEq] at hsl hc
    subst hsl; subst hc
    simp
  | n + 1, q, ni, ns, off, code, sl, t, hsl, hc, hoff, hq, hns, hf, hsv, hSI, hCX, hDX, hni => by
    have hoff := hoff (by omega)
    subst hoff
    simp only [slices] at hsl
    obtain ⟨⟨w, k⟩, hst, hsl⟩ := Option.bind_eq_some_iff.mp hsl
    obtain ⟨w8, wneed, _⟩ := sliceType_spec hst hl (by omega)
    simp only [vaSlices] at hc
    -- one eightbyte stored
    have key : ∀ (d : Nat) (x : Ea) (real : Bool) (w' r : Nat) (c rest : List Ins) (sl' : List Slice)
        (ni' ns' : Nat), (d = AX ∨ d = XMM 0) → 
        store w' real d (res.shift (8 * q)) = some c → vaSlices ty pc res n (q + 1) ni' ns' (8 * q + w') = some rest →
        code = .ld w' d x :: c ++ rest → slices ty pc n (q + 1) (paramInt.drop (i + ni')) (paramSse.drop (s + ns')) = some sl' →
        sl = (q, w, k, r) :: sl' → ns' + (pc.drop (q + 1)).count .sse ≤ sses pc →
        w' ≤ 8 → need ty.size q ≤ w' → (0 < n → w' = 8) →
        (∀ j : Nat, j < w' → t.mem (t.ea x + j) = byteAt (reg r) j) →
        (∀ x, x < O + 8 * q ∨ O + 8 * (q + (n + 1) : Nat) ≤ x → (run t code).mem x = t.mem x) ∧
        (∀ r, r ≠ AX → r ≠ XMM 0 → r ≠ R11 → (run t code).reg r = t.reg r) ∧
        ∀ e ∈ sl, ∀ j : Nat, j < need ty.size e.1 → (run t code).mem (O + 8 * e.1 + j) = byteAt (reg e.2.2.2) j := by
      intro d x real w' r c rest sl' ni' ns' hd hcs hrest hcode hsl' hsl hns' hw' hneed hn8 hbytes
      subst hcode; subst hsl
      rw [List.cons_append, run_cons, run_append]
      obtain ⟨u, hu⟩ : ∃ u, step t (.ld w' d x) = u := ⟨_, rfl⟩
      have hdr : d ≠ R11 := by rcases hd with rfl | rfl <;> decide
      have u1 : u.mem = t.mem := by subst hu; rfl
      have u2 : ∀ r, r ≠ AX → r ≠ XMM 0 → u.reg r = t.reg r := by
        intro r h1 h2
        subst hu
        rw [step_ld, set_reg, if_neg (by rcases hd with rfl | rfl <;> assumption)]
      have u3 : ∀ j : Nat, j < w' → byteAt (u.reg d) j = byteAt (reg r) j := by
        intro j hj
        subst hu
        rw [step_ld, set_reg, if_pos rfl, byteAt_merged _ _ _ _ hj, byteAt_val_rd hj, hbytes j hj]
      rw [hu]
      have n1 : Near W E t u := ⟨fun y _ => by rw [u1], fun r hr _ => u2 r (fun e => hr (by simp [VaReg, e]))
        (fun e => hr (by simp [VaReg, e]))⟩
      obtain ⟨v1, v2⟩ := store_mem (Fixed.shift (8 * q) (Fixed.near n1 hE hf)) hdr hcs
      generalize run u c = v at *
      rw [u1] at v1
      have vout : ∀ x, x < O + 8 * q ∨ O + 8 * q + 8 ≤ x → v.mem x = t.mem x := by
        intro x hx
        rw [v1, wr_out (by simp; omega)]
      have n2 : Near W E t v := by
        refine ⟨fun y hy => vout y ?_, fun r hr _ => ?_⟩
        · by_contra hcon
          exact hy (hO y (by omega) (by omega))
        · rw [v2 r (fun e => hr (by simp [VaReg, e])), u2 r (fun e => hr (by simp [VaReg, e]))
            (fun e => hr (by simp [VaReg, e]))]
      obtain ⟨k1, k2, k3⟩ := vaSlices_spec hE hl hR hs8 hO n (q + 1) ni' ns' (8 * q + w') rest sl' v hsl' hrest
        (fun h => by have := hn8 h; omega) (by omega) hns' (Fixed.near n2 hE hf) (hsv.near n2 hR hs8)
        (by rw [v2 SI (by decide), u2 SI (by decide) (by decide)]; exact hSI)
        (fun h => by rw [v2 CX (by decide), u2 CX (by decide) (by decide)]; exact hCX h)
        (fun h => by rw [v2 DX (by decide), u2 DX (by decide) (by decide)]; exact hDX h)
        (Nat.le_trans (count_drop_le _ _ _) hni)
      refine ⟨fun x hx => ?_, fun r h1 h2 h3 => ?_, fun e he j hj => ?_⟩
      · rw [k1 x (by push_cast at hx ⊢; omega), vout x (by push_cast at hx; omega)]
      · rw [k2 r h1 h2 h3, v2 r h3, u2 r h1 h2]
      · rcases List.mem_cons.mp he with rfl | he
        · simp only at hj ⊢
          have : need ty.size q ≤ 8 := by unfold need; omega
          rw [k1 _ (by push_cast; omega), v1]
          rw [show O + 8 * (q : Int) + (j : Int) = O + ((8 * q : Nat) : Int) + (j : Int) by push_cast; omega,
            wr_le (show j < w' by omega), u3 j (by omega)]
        · exact k3 e he j hj
    by_cases hi : pc[q]? = some .integer
    · simp only [if_pos hi] at hc hsl
      rw [hst] at hc
      simp only [Option.bind_eq_bind, Option.bind_some] at hc
      obtain ⟨c, hc1, hc⟩ := Option.bind_eq_some_iff.mp hc
      obtain ⟨rest, hrest, hc⟩ := Option.bind_eq_some_iff.mp hc
      simp only [Option.some.injEq] at hc
      obtain ⟨r, hr, hsl⟩ := Option.bind_eq_some_iff.mp hsl
      obtain ⟨sl', hsl', hsl⟩ := Option.bind_eq_some_iff.mp hsl
      simp only [Option.some.injEq] at hsl
      have hr := drop_head hr
      have hr6 := paramInt_lt hr
      refine key AX (.index SI CX (8 * ni : Nat)) false w r c rest sl' (ni + 1) ns (.inl rfl) hc1 hrest hc.symm
        (by rw [List.tail_drop, Nat.add_assoc] at hsl'; exact hsl') hsl.symm
        (Nat.le_trans (Nat.add_le_add_left (count_drop_le _ _ _) _) hns) w8 wneed
        (fun h => sliceType_full hst hl (by omega)) ?_
      intro j hj
      have hne : ints pc ≠ 0 := by
        have := count_drop hi
        omega
      have : t.ea (.index SI CX (8 * ni : Nat)) = R + 8 * (i + ni : Nat) := by
        show t.reg SI + t.reg CX + ((8 * ni : Nat) : Int) = _
        rw [hSI, hCX hne]; push_cast; omega
      rw [this]
      exact hsv.gp _ _ (by omega) hr j (by omega)
    · have hi' : pc[q]? = some .sse := by
        by_contra hns
        simp only [sliceType, hi, hns, or_self, if_false, reduceCtorEq] at hst
      simp only [if_neg hi, if_pos hi'] at hc hsl
      obtain ⟨c, hc1, hc⟩ := Option.bind_eq_some_iff.mp hc
      obtain ⟨rest, hrest, hc⟩ := Option.bind_eq_some_iff.mp hc
      simp only [Option.some.injEq] at hc
      obtain ⟨r, hr, hsl⟩ := Option.bind_eq_some_iff.mp hsl
      obtain ⟨sl', hsl', hsl⟩ := Option.bind_eq_some_iff.mp hsl
      simp only [Option.some.injEq] at hsl
      obtain ⟨hr8, rfl⟩ := paramSse_get (drop_head hr)
      have hcd := count_drop hi'
      refine key (XMM 0) (.index SI DX (16 * ns : Nat)) true 8 (XMM (s + ns)) c rest sl' ni (ns + 1) (.inr rfl) hc1 hrest hc.symm
        (by rw [List.tail_drop, Nat.add_assoc] at hsl'; exact hsl') hsl.symm
        (by omega) (by omega) (by unfold need; omega) (fun _ => rfl) ?_
      intro j hj
      have : t.ea (.index SI DX (16 * ns : Nat)) = R + 48 + 16 * (s + ns : Nat) := by
        show t.reg SI + t.reg DX + ((16 * ns : Nat) : Int) = _
        rw [hSI, hDX (by omega)]; push_cast; omega
      rw [this]
      exact hsv.fp _ (by omega) (by omega) j hj

end Verif.Abi
