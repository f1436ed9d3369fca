import Verif.Abi.VaStep

namespace Verif.Abi

/-- The bytes which storing the result may write: whole eightbytes. -/
def resW (res : Src) (O : Int) (n : Nat) (x : Int) : Prop :=
  (∀ r, res ≠ .place (.temp r)) ∧ O ≤ x ∧ x < O + 8 * n

/-- What `va_arg` may write. -/
def vaW (L : Int) (res : Src) (O : Int) (n : Nat) (x : Int) : Prop :=
  resW res O n x ∨ (L ≤ x ∧ x < L + 24)

/-- The register of the result. -/
def resE (res : Src) (r : Nat) : Prop := res = .place (.temp r)

/-- Two ranges of addresses have nothing in common. -/
def Away (a n b m : Int) : Prop := a + n ≤ b ∨ b + m ≤ a

/-- A `va_list` at `L` from which the arguments `rest` are still to be read; `i` and `s`
registers are used up, the next argument on the stack is at `A`, and `reg` are the registers
at the call, which are saved from `R` on. -/
structure Pending (s0 t : M) (reg : Nat → Int) (L R A : Int) (rest : List Arg) (l : List (PC × Bool)) (i s : Nat) :
    Prop where
  gp : val (rd t.mem L 4) = 8 * i
  fp : val (rd t.mem (L + 4) 4) = 48 + 16 * s
  ov : val (rd t.mem (L + 8) 8) = A
  area : val (rd t.mem (L + 16) 8) = R
  i6 : i ≤ 6
  s8 : s ≤ 8
  classes : classifyAll (rest.map (·.ty)) i s = some l
  loads : ∃ c, loadAll rest l i s = some c
  stack : StackHolds s0 t.mem A rest l
  saved : Saved t reg R i s (sseUsed l)
  regs : RegsHold s0 reg rest l i s
  laid : ∀ a ∈ rest, SysV.laidOut a.ty = true
  fits : A + memUsed (rest.map (·.ty)) l < 256 ^ 8

/-- What `va_arg` needs to be used with: a `va_list` at `L`, and a result which is a register
for temporaries, or an object apart from the `va_list`, from the save area at `R` and from
the arguments on the stack, from `A` to `Z`. -/
structure Usable (t : M) (L R A Z : Int) (ty : Ty) (res : Src) (ap : Ap) : Prop where
  list : ∃ src, ap.list = some src ∧ src.Fixed (vaW L res (res.object t) (eightbytes ty)) (resE res) t L
  dst : (∃ r sz k, res = .place (.temp r) ∧ ty.scalar = some (sz, k) ∧ if k = .real then isTempSse r else isTempInt r) ∨
    res.Fixed (vaW L res (res.object t) (eightbytes ty)) (resE res) t (res.object t)
  list_res : (∀ r, res ≠ .place (.temp r)) → Away L 24 (res.object t) (8 * eightbytes ty)
  area_res : (∀ r, res ≠ .place (.temp r)) → Away R 176 (res.object t) (8 * eightbytes ty)
  over_res : (∀ r, res ≠ .place (.temp r)) → Away A (Z - A) (res.object t) (8 * eightbytes ty)
  area_list : Away R 176 L 24
  over_list : Away A (Z - A) L 24

theorem Fixed.byte {W E} {t : M} {O : Int} {src : Src} (hs : src.Fixed W E t O) (j : Nat) : src.byte t j = t.mem (O + j) := by
  cases src with
  | place p =>
    obtain ⟨a, ha⟩ := ea_of_not_temp hs.1
    simp only [Src.byte]
    rw [byte_place ha, hs.2]
  | deref p o => simp only [Src.byte]; rw [hs.2]
  | imm _ => exact hs.elim
  | addr _ => exact hs.elim

theorem resE_BP {res : Src} {ty : Ty} {W E t O}
    (h : (∃ r sz k, res = .place (.temp r) ∧ ty.scalar = some (sz, k) ∧ if k = .real then isTempSse r else isTempInt r) ∨
      res.Fixed W E t O) : ¬ resE res BP := by
  intro hE
  unfold resE at hE
  rcases h with ⟨r, sz, k, rfl, _, hr⟩ | h
  · injection hE with hE
    injection hE with hE
    subst hE
    split_ifs at hr
    · exact absurd hr (by decide)
    · exact absurd hr (by decide)
  · subst hE
    exact h.1 BP rfl

theorem Usable.notBP {t L R A Z ty res ap} (h : Usable t L R A Z ty res ap) : ¬ resE res BP := resE_BP h.dst

theorem resW_temp {r : Nat} {O : Int} {n : Nat} {x : Int} : ¬ resW (.place (.temp r)) O n x := fun h => h.1 r rfl

theorem fixed_not_temp {W E t O} {res : Src} (h : res.Fixed W E t O) : ∀ r, res ≠ .place (.temp r) := by
  rintro r rfl
  exact h.1 r rfl

/-- Reading an argument from the stack. -/
theorem vaRead_spec {ty : Ty} {res : Src} {c : List Ins} {u : M} {W : Int → Prop} {A O : Int} (h : vaRead ty res = some c)
    (hSI : u.reg SI = A)
    (hres : (∃ r sz k, res = .place (.temp r) ∧ ty.scalar = some (sz, k) ∧ if k = .real then isTempSse r else isTempInt r) ∨
      res.Fixed W (resE res) u O)
    (hreal : ∀ r, res = .place (.temp r) → r < 17) (hl : SysV.laidOut ty = true)
    (hW : ∀ x, resW res O (eightbytes ty) x → W x)
    (hA : (∀ r, res ≠ .place (.temp r)) → Away A ty.size O (8 * eightbytes ty)) :
    Near (resW res O (eightbytes ty)) (resE res) u (run u c) ∧
      ∀ j : Nat, j < ty.size → res.byte (run u c) j = u.mem (A + j) := by
  have hsz : ty.size ≤ 8 * eightbytes ty := by unfold eightbytes; omega
  have hBP := resE_BP hres
  by_cases ht : ∃ r, res = .place (.temp r)
  · obtain ⟨r, rfl⟩ := ht
    have hr := hreal r rfl
    rcases hres with ⟨r', sz, k, e, hk, _⟩ | hf
    · have hstd : standard ty.size = true := by
        rw [scalar_size hk]
        have := scalar_bounds hk hl
        unfold standard
        simp only [Bool.or_eq_true, beq_iff_eq]
        omega
      simp only [vaRead, hstd, if_neg (show ¬ 17 ≤ r by omega), Option.some.injEq] at h
      subst h
      rw [run_cons, run_nil, step_ld]
      refine ⟨⟨fun _ _ => rfl, fun x _ hx => ?_⟩, fun j hj => ?_⟩
      · rw [set_reg, if_neg]
        rintro rfl
        exact hx rfl
      · simp only [Src.byte, Place.byte]
        rw [set_reg, if_pos rfl, byteAt_merged _ _ _ _ hj, byteAt_val_rd hj]
        show u.mem (u.reg SI + 0 + j) = _
        rw [hSI]; simp
    · exact absurd rfl (fixed_not_temp hf r)
  · have ht' : ∀ r, res ≠ .place (.temp r) := fun r e => ht ⟨r, e⟩
    have hf : res.Fixed W (resE res) u O := by
      rcases hres with ⟨r, _, _, e, _⟩ | hf
      · exact absurd e (ht' r)
      · exact hf
    have hA := hA ht'
    unfold Away at hA
    -- a state reached by writing the bytes of the argument
    have fin : ∀ v : M, (∀ r, ¬ VaReg r → v.reg r = u.reg r) →
        (∀ x, x < O ∨ O + ty.size ≤ x → v.mem x = u.mem x) →
        (∀ j : Nat, j < ty.size → v.mem (O + j) = u.mem (A + j)) →
        Near (resW res O (eightbytes ty)) (resE res) u v ∧ ∀ j : Nat, j < ty.size → res.byte v j = u.mem (A + j) := by
      intro v v1 v2 v3
      have hn : Near (resW res O (eightbytes ty)) (resE res) u v := by
        refine ⟨fun x hx => v2 x ?_, fun r hr _ => v1 r hr⟩
        by_contra hcon
        exact hx ⟨ht', by omega, by omega⟩
      refine ⟨hn, fun j hj => ?_⟩
      rw [Fixed.byte (Fixed.near (hn.mono hW (fun _ h => h)) hBP hf) j, v3 j hj]
    have hcopy : ∀ d, loadAddress res DI = some d → c = d ++ copyCode ty.size →
        Near (resW res O (eightbytes ty)) (resE res) u (run u c) ∧
          ∀ j : Nat, j < ty.size → res.byte (run u c) j = u.mem (A + j) := by
      intro d hd hc
      subst hc
      obtain ⟨d1, d2, d3⟩ := loadAddress_spec (s := u) hd (by decide) (by
        rintro p o rfl ⟨x, rfl⟩
        have := hf.1
        exact ⟨x, rfl, by have := this.1; simp only [isTempInt, BX, R12, R13, R14, R15] at this; omega, this.2.2⟩)
      rw [Fixed.object hf] at d3
      rw [run_append]
      generalize run u d = v at *
      have vSI : v.reg SI = A := by rw [d2 SI (by decide) (by decide), hSI]
      obtain ⟨k1, k2, k3⟩ := copyCode_spec ty.size v (by rw [vSI, d3]; omega)
      rw [d3] at k2 k3
      rw [vSI] at k3
      refine fin _ (fun r hr => ?_) (fun x hx => ?_) (fun j hj => ?_)
      · rw [k1 r (fun e => hr (by simp [VaReg, e])), d2 r (fun e => hr (by simp [VaReg, e]))
          (fun e => hr (by simp [VaReg, e]))]
      · rw [k2 x hx, d1]
      · rw [k3 j hj, d1]
    by_cases hstd : standard ty.size = true ∧ ∃ p, res = .place p
    · obtain ⟨hstd, p, rfl⟩ := hstd
      obtain ⟨a, ha⟩ := ea_of_not_temp hf.1
      have h' : some [.ld ty.size AX (.base SI 0), .st ty.size AX a] = some c := by
        rw [← h]
        cases p with
        | temp r => exact absurd rfl (ht' r)
        | frame o => simp_all [vaRead, Place.ea]
        | global o => simp_all [vaRead, Place.ea]
      simp only [Option.some.injEq] at h'
      subst h'
      rw [run_cons, run_cons, run_nil, step_ld, step_st]
      have e1 : (u.set AX (merged (decide (ty.size < 4)) ty.size (u.reg AX) (val (rd u.mem (u.ea (.base SI 0)) ty.size)))).ea a = O := by
        rw [ea_place ha, ← hf.2]
        exact address_near (W := fun _ => False) (E := resE (.place p))
          ⟨fun _ _ => rfl, fun r hr _ => by rw [set_reg, if_neg (fun e => hr (by simp [VaReg, e]))]⟩ hBP p
      rw [e1]
      refine fin _ (fun r hr => ?_) (fun x hx => ?_) (fun j hj => ?_)
      · rw [write_reg, set_reg, if_neg (fun e => hr (by simp [VaReg, e]))]
      · rw [write_mem, wr_out (by simp; omega)]; rfl
      · rw [write_mem, wr_le hj, set_reg, if_pos rfl, byteAt_merged _ _ _ _ hj, byteAt_val_rd hj]
        show u.mem (u.reg SI + 0 + j) = _
        rw [hSI]; simp
    · have h' : (if ty.size ≤ 64 then do some ((← loadAddress res DI) ++ copyCode ty.size) else none) = some c := by
        rw [← h]
        cases hb : standard ty.size with
        | false => simp only [vaRead, hb]
        | true =>
          cases res with
          | place p => exact absurd ⟨hb, p, rfl⟩ hstd
          | deref p o => simp only [vaRead, hb]
          | imm v => exact hf.elim
          | addr p => exact hf.elim
      split_ifs at h' with h64
      obtain ⟨d, hd, h'⟩ := Option.bind_eq_some_iff.mp h'
      simp only [Option.some.injEq] at h'
      exact hcopy d hd h'.symm

/-- Memory outside of the members of a `va_list` which are updated. -/
theorem val_rd_congr {m m' : Mem} {a : Int} {n : Nat} (h : ∀ x, a ≤ x → x < a + n → m' x = m x) :
    val (rd m' a n) = val (rd m a n) := by
  congr 1
  exact rd_ext fun j hj => h _ (by omega) (by omega)

theorem val_wr {m : Mem} {a v : Int} {n : Nat} (h0 : 0 ≤ v) (h1 : v < 256 ^ n) : val (rd (wr m a (le n v)) a n) = v := by
  rw [val_rd_le (v := v) (fun j hj => wr_le hj), Int.emod_eq_of_lt h0 h1]

theorem vaRead_size {ty : Ty} {res : Src} {c : List Ins} (h : vaRead ty res = some c) : ty.size ≤ 64 := by
  by_contra hn
  have hb : standard ty.size = false := by
    simp only [standard, Bool.or_eq_false_iff, beq_eq_false_iff_ne]
    omega
  unfold vaRead at h
  simp only [hb, if_neg hn] at h
  cases h

/-- The argument is on the stack. -/
theorem vaStack_spec {ty : Ty} {res src : Src} {c : List Ins} {t : M} {L A O : Int}
    (h : vaStack ty res src = some c) (hl : SysV.laidOut ty = true)
    (hs : src.Fixed (vaW L res O (eightbytes ty)) (resE res) t L)
    (hres : (∃ r sz k, res = .place (.temp r) ∧ ty.scalar = some (sz, k) ∧ if k = .real then isTempSse r else isTempInt r) ∨
      res.Fixed (vaW L res O (eightbytes ty)) (resE res) t O)
    (hreal : ∀ r, res = .place (.temp r) → r < 17)
    (hLO : (∀ r, res ≠ .place (.temp r)) → Away L 24 O (8 * eightbytes ty))
    (hAO : (∀ r, res ≠ .place (.temp r)) → Away A ty.size O (8 * eightbytes ty))
    (hov : val (rd t.mem (L + 8) 8) = A) (hfit : A + 8 * eightbytes ty < 256 ^ 8) :
    Near (fun x => resW res O (eightbytes ty) x ∨ (L + 8 ≤ x ∧ x < L + 16)) (resE res) t (run t c) ∧
    val (rd (run t c).mem (L + 8) 8) = A + 8 * eightbytes ty ∧
    ∀ j : Nat, j < ty.size → res.byte (run t c) j = t.mem (A + j) := by
  have hBP := resE_BP hres
  unfold vaStack at h
  obtain ⟨c1, h1, h⟩ := Option.bind_eq_some_iff.mp h
  obtain ⟨c2, h2, h⟩ := Option.bind_eq_some_iff.mp h
  obtain ⟨c3, h3, h⟩ := Option.bind_eq_some_iff.mp h
  simp only [Option.some.injEq] at h
  subst h
  rw [run_append, run_append]
  obtain ⟨a1, a2, a3⟩ := load_word (Fixed.shift 8 hs) (.inr rfl) h1
  have n1 : ∀ W', Near W' (resE res) t (run t c1) := fun W' =>
    ⟨fun x _ => by rw [a1], fun r hr _ => a2 r (fun e => hr (by simp [VaReg, e])) (fun e => hr (by simp [VaReg, e]))⟩
  generalize run t c1 = u at *
  have hu : u.reg SI = A := by rw [a3]; exact hov
  obtain ⟨b1, b2⟩ := vaRead_spec h2 hu (hres.imp id (Fixed.near (n1 _) hBP)) hreal hl (fun x hx => .inl hx) hAO
  generalize run u c2 = v at *
  have n2 : Near (resW res O (eightbytes ty)) (resE res) t v := (n1 _).trans b1
  have n2' : Near (vaW L res O (eightbytes ty)) (resE res) t v := n2.mono (fun x hx => .inl hx) (fun _ h => h)
  obtain ⟨d1, d2⟩ := addTo_spec (Fixed.shift 8 (Fixed.near n2' hBP hs)) hBP (.inr rfl)
    (fun _ => by have := vaRead_size h2; unfold eightbytes; omega) h3
  have hLres : ∀ x, L ≤ x → x < L + 24 → ¬ resW res O (eightbytes ty) x := by
    intro x h1 h2 ⟨h3, h4, h5⟩
    have := hLO h3
    unfold Away at this
    omega
  have hov' : val (rd v.mem (L + ((8 : Nat) : Int)) 8) = A := by
    rw [← hov]
    exact val_rd_congr fun x hx hx' => n2.mem x (hLres x (by omega) (by omega))
  rw [hov'] at d1
  have hA0 : 0 ≤ A := by rw [← hov]; exact val_nonneg _
  generalize run v c3 = w at *
  have n3 : Near (fun x => resW res O (eightbytes ty) x ∨ (L + 8 ≤ x ∧ x < L + 16)) (resE res) v w := by
    refine ⟨fun x hx => ?_, fun r hr _ => d2 r (fun e => hr (by simp [VaReg, e])) (fun e => hr (by simp [VaReg, e]))⟩
    rw [d1, wr_out]
    simp only [le_length]
    by_contra hcon
    exact hx (.inr (by omega))
  refine ⟨(n2.mono (fun x hx => .inl hx) (fun _ h => h)).trans n3, ?_, ?_⟩
  · rw [d1, show L + 8 = L + ((8 : Nat) : Int) from rfl, val_wr]
    · push_cast; omega
    · omega
    · push_cast; omega
  · intro j hj
    have hmem : ∀ x, x < L ∨ L + 24 ≤ x → w.mem x = v.mem x := by
      intro x hx
      rw [d1, wr_out (by simp only [le_length]; omega)]
    have : res.byte w j = res.byte v j := by
      rcases hres with ⟨r, sz, k, rfl, hk, hr⟩ | hf
      · simp only [Src.byte, Place.byte]
        rw [d2 r]
        · rintro rfl; split_ifs at hr <;> exact absurd hr (by decide)
        · rintro rfl; split_ifs at hr <;> exact absurd hr (by decide)
      · have hvf := Fixed.near n2' hBP hf
        have hwf := Fixed.near (n3.mono (W' := vaW L res O (eightbytes ty)) (fun x hx => hx.imp id (fun h => by omega)) (fun _ h => h)) hBP hvf
        rw [Fixed.byte hvf, Fixed.byte hwf, hmem]
        have := hLO (fixed_not_temp hf)
        unfold Away at this
        have : ty.size ≤ 8 * eightbytes ty := by unfold eightbytes; omega
        omega
    rw [this, b2 j hj, a1]

theorem vaAdd_spec {W E} {t : M} {O : Int} {dst : Src} (hs : dst.Fixed W E t O) (hE : ¬ E BP) {n k : Nat}
    {code : List Ins} (h : vaAdd n k dst = some code) (hb : val (rd t.mem O 4) + (k * n : Nat) < 256 ^ 4) :
    val (rd (run t code).mem O 4) = val (rd t.mem O 4) + (k * n : Nat) ∧
    (∀ x, x < O ∨ O + 4 ≤ x → (run t code).mem x = t.mem x) ∧
    ∀ x, x ≠ AX → x ≠ R11 → (run t code).reg x = t.reg x := by
  unfold vaAdd at h
  split_ifs at h with h0
  · subst h0
    simp only [Option.some.injEq] at h
    subst h
    simp
  · obtain ⟨h1, h2⟩ := addTo_spec hs hE (.inl rfl) (fun e => by omega) h
    have := val_nonneg (rd t.mem O 4)
    refine ⟨by rw [h1, val_wr (by omega) (by omega)], fun x hx => ?_, h2⟩
    rw [h1, wr_out (by simp only [le_length]; omega)]

theorem scalar_class {ty : Ty} {sz : Nat} {k : Kind} {pc : PC} (h : ty.scalar = some (sz, k)) (hc : classify ty = some pc) :
    pc = if k = .real then [.sse, .no, .no, .no] else [.integer, .no, .no, .no] := by
  cases ty with
  | bool => simp only [Ty.scalar, classify, Option.some.injEq, Prod.mk.injEq] at h hc; obtain ⟨_, rfl⟩ := h; exact hc.symm
  | int n s =>
    simp only [Ty.scalar, classify, Option.some.injEq, Prod.mk.injEq] at h hc
    obtain ⟨_, rfl⟩ := h
    rw [← hc]
    cases s <;> rfl
  | ptr => simp only [Ty.scalar, classify, Option.some.injEq, Prod.mk.injEq] at h hc; obtain ⟨_, rfl⟩ := h; exact hc.symm
  | float => simp only [Ty.scalar, classify, Option.some.injEq, Prod.mk.injEq] at h hc; obtain ⟨_, rfl⟩ := h; exact hc.symm
  | double => simp only [Ty.scalar, classify, Option.some.injEq, Prod.mk.injEq] at h hc; obtain ⟨_, rfl⟩ := h; exact hc.symm
  | ldouble => simp [Ty.scalar] at h
  | array n t => simp [Ty.scalar] at h
  | agg a b c d => simp [Ty.scalar] at h

/-- The eightbytes of an argument which was passed in registers are stored to the result. -/
theorem vaBody_spec {ty : Ty} {pc : PC} {res : Src} {c : List Ins} {t s0 : M} {L R O : Int} {reg : Nat → Int} {i s : Nat}
    {a : Arg} {sl : List Slice}
    (h : vaSlices ty pc res (eightbytes ty) 0 0 0 0 = some c) (hl : SysV.laidOut ty = true) (hpc : classify ty = some pc)
    (hres : (∃ r sz k, res = .place (.temp r) ∧ ty.scalar = some (sz, k) ∧ if k = .real then isTempSse r else isTempInt r) ∨
      res.Fixed (vaW L res O (eightbytes ty)) (resE res) t O)
    (hR : ∀ x, R ≤ x → x < R + 176 → ¬ vaW L res O (eightbytes ty) x)
    (hs8 : s + sses pc ≤ 8) (hsl : slices ty pc (eightbytes ty) 0 (paramInt.drop i) (paramSse.drop s) = some sl)
    (hsv : Saved t reg R i s (sses pc)) (hSI : t.reg SI = R) (hCX : ints pc ≠ 0 → t.reg CX = 8 * i)
    (hDX : sses pc ≠ 0 → t.reg DX = 48 + 16 * s)
    (hregs : ∀ e ∈ sl, ∀ j, j < need ty.size e.1 → byteAt (reg e.2.2.2) j = a.src.byte s0 (8 * e.1 + j)) :
    Near (resW res O (eightbytes ty)) (resE res) t (run t c) ∧
    ∀ j : Nat, j < ty.size → res.byte (run t c) j = a.src.byte s0 j := by
  have hBP := resE_BP hres
  obtain ⟨_, hall⟩ := slices_distinct _ _ _ _ _ hsl (by
    have : (paramInt ++ paramSse).Nodup := by decide
    exact this.sublist ((List.drop_sublist _ _).append (List.drop_sublist _ _)))
  rcases hres with ⟨r, sz, k, rfl, hk, hr⟩ | hf
  · have hb := scalar_bounds hk hl
    have hz := scalar_size hk
    have he : eightbytes ty = 1 := by unfold eightbytes; omega
    have hpc' := scalar_class hk hpc
    rw [he] at h hsl hall
    obtain ⟨e, he1, he2⟩ := hall 0 (by omega) (by omega)
    -- the single eightbyte
    have fin : ∀ (d w : Nat) (x : Ea) (real : Bool), c = [.ld w d x, .mov w r d] → d ≠ r → (d = AX ∨ d = XMM 0) → ty.size ≤ w →
        (∀ j : Nat, j < w → t.mem (t.ea x + j) = byteAt (reg e.2.2.2) j) →
        Near (resW (.place (.temp r)) O (eightbytes ty)) (resE (.place (.temp r))) t (run t c) ∧
        ∀ j : Nat, j < ty.size → (Src.place (.temp r)).byte (run t c) j = a.src.byte s0 j := by
      intro d w x real hc hd hd' hw hbytes
      subst hc
      rw [run_cons, run_cons, run_nil]
      refine ⟨⟨fun y _ => rfl, fun q hq hq' => ?_⟩, fun j hj => ?_⟩
      · have h1 : q ≠ r := by rintro rfl; exact hq' rfl
        have h2 : q ≠ d := by rintro rfl; exact hq (by rcases hd' with rfl | rfl <;> decide)
        simp [step, h1, h2]
      · have := hregs e he1 j (by rw [he2]; unfold need; omega)
        rw [he2] at this
        simp only [Nat.mul_zero, Nat.zero_add] at this
        rw [← this, ← hbytes j (by omega)]
        simp only [Src.byte, Place.byte, step, set_reg, if_true]
        rw [byteAt_merged _ _ _ _ (by omega), byteAt_merged _ _ _ _ (by omega), byteAt_val_rd (by omega)]
    simp only [slices] at hsl
    obtain ⟨⟨w, k'⟩, hst, hsl⟩ := Option.bind_eq_some_iff.mp hsl
    obtain ⟨w8, wneed, hsc⟩ := sliceType_spec hst hl (by omega)
    simp only [vaSlices] at h
    by_cases hkr : k = .real
    · rw [if_pos hkr] at hpc' hr
      subst hpc'
      simp only [List.getElem?_cons_zero, Option.some.injEq, reduceCtorEq, if_false, if_true] at h hsl
      obtain ⟨r1, hr1, hsl⟩ := Option.bind_eq_some_iff.mp hsl
      simp only [Option.bind_eq_bind, Option.bind_some, Option.some.injEq] at hsl
      subst hsl
      simp only [List.mem_singleton] at he1
      subst he1
      simp only [Src.shift, Place.shift, store, if_true, Op.fromReg, Option.bind_eq_bind, Option.bind_some, Option.some.injEq] at h
      refine fin (XMM 0) 8 (.index SI DX (16 * 0 : Nat)) true h.symm ?_ (.inr rfl) (by omega) ?_
      · rintro rfl; exact absurd hr (by decide)
      · intro j hj
        obtain ⟨hs, rfl⟩ := paramSse_get (drop_head hr1)
        have : t.ea (.index SI DX (16 * 0 : Nat)) = R + 48 + 16 * s := by
          show t.reg SI + t.reg DX + ((16 * 0 : Nat) : Int) = _
          rw [hSI, hDX (by decide)]; push_cast; omega
        rw [this]
        exact hsv.fp s (by omega) (by simp [sses]) j hj
    · rw [if_neg hkr] at hpc' hr
      subst hpc'
      simp only [List.getElem?_cons_zero, if_true] at h hsl
      obtain ⟨r1, hr1, hsl⟩ := Option.bind_eq_some_iff.mp hsl
      simp only [Option.bind_eq_bind, Option.bind_some, Option.some.injEq] at hsl
      subst hsl
      simp only [List.mem_singleton] at he1
      subst he1
      rw [hst] at h
      simp only [Src.shift, Place.shift, store, Bool.false_eq_true, if_false, Op.fromReg, Option.bind_eq_bind, Option.bind_some,
        Option.some.injEq, show ¬ 17 ≤ AX by decide] at h
      refine fin AX w (.index SI CX (8 * 0 : Nat)) false h.symm ?_ (.inl rfl) (by simp only [need] at wneed; omega) ?_
      · rintro rfl; exact absurd hr (by decide)
      · intro j hj
        have : t.ea (.index SI CX (8 * 0 : Nat)) = R + 8 * i := by
          show t.reg SI + t.reg CX + ((8 * 0 : Nat) : Int) = _
          rw [hSI, hCX (by decide)]; push_cast; omega
        rw [this]
        exact hsv.gp i r1 (by omega) (drop_head hr1) j (by omega)
  · have ht := fixed_not_temp hf
    obtain ⟨k1, k2, k3⟩ := vaSlices_spec (W := vaW L res O (eightbytes ty)) (E := resE res) (O := O) (reg := reg) (i := i) (s := s)
      hBP hl hR hs8 (fun x h1 h2 => .inl ⟨ht, h1, h2⟩) (eightbytes ty) 0 0 0 0 c sl t (by simpa using hsl) h (fun _ => rfl)
      (by omega) (by simp [sses]) hf hsv hSI hCX hDX (by simp [ints])
    have hn : Near (resW res O (eightbytes ty)) (resE res) t (run t c) := by
      refine ⟨fun x hx => k1 x ?_, fun r hr _ => k2 r (fun e => hr (by simp [VaReg, e])) (fun e => hr (by simp [VaReg, e]))
        (fun e => hr (by simp [VaReg, e]))⟩
      by_contra hcon
      push_cast at hcon
      exact hx ⟨ht, by omega, by omega⟩
    refine ⟨hn, fun j hj => ?_⟩
    rw [Fixed.byte (Fixed.near (hn.mono (fun x hx => .inl hx) (fun _ h => h)) hBP hf)]
    obtain ⟨e, he1, he2⟩ := hall (j / 8) (by omega) (by unfold eightbytes; omega)
    have hj8 : j % 8 < need ty.size e.1 := by rw [he2]; unfold need; omega
    have h1 := k3 e he1 (j % 8) hj8
    have h2 := hregs e he1 (j % 8) hj8
    rw [he2] at h1 h2
    rw [show O + 8 * ((j / 8 : Nat) : Int) + ((j % 8 : Nat) : Int) = O + j by omega] at h1
    rw [show 8 * (j / 8) + j % 8 = j by omega] at h2
    rw [h1, h2]

end Verif.Abi
