import Verif.Abi.VaArg
import Verif.Abi.Arrive

namespace Verif.Abi

/-- Registers `va_start` and `va_arg` use. -/
def VaReg (r : Nat) : Prop := r = AX ∨ r = CX ∨ r = DX ∨ r = SI ∨ r = DI ∨ r = R11 ∨ r = XMM 0

instance (r : Nat) : Decidable (VaReg r) := by unfold VaReg; infer_instance

/-- Two states which differ only in the memory `W`, scratch registers and registers `E`. -/
structure Near (W : Int → Prop) (E : Nat → Prop) (t t' : M) : Prop where
  mem : ∀ x, ¬ W x → t'.mem x = t.mem x
  reg : ∀ r, ¬ VaReg r → ¬ E r → t'.reg r = t.reg r

theorem Near.refl {W E t} : Near W E t t := ⟨fun _ _ => rfl, fun _ _ _ => rfl⟩

theorem Near.trans {W E} {t t' t'' : M} (h : Near W E t t') (h' : Near W E t' t'') : Near W E t t'' :=
  ⟨fun x hx => by rw [h'.mem x hx, h.mem x hx], fun r hr he => by rw [h'.reg r hr he, h.reg r hr he]⟩

theorem Near.mono {W W' : Int → Prop} {E E' : Nat → Prop} {t t' : M} (h : Near W E t t') (hw : ∀ x, W x → W' x)
    (he : ∀ x, E x → E' x) : Near W' E' t t' :=
  ⟨fun x hx => h.mem x (fun hh => hx (hw x hh)), fun r hr hh => h.reg r hr (fun hq => hh (he r hq))⟩

/-- A pointer variable which is not among what is written. -/
def Place.Steady (W : Int → Prop) (E : Nat → Prop) (t : M) : Place → Prop
  | .temp r => isTempInt r ∧ ¬ E r ∧ 0 ≤ t.reg r ∧ t.reg r < 256 ^ 8
  | p => ∀ j : Nat, j < 8 → ¬ W (p.address t + j)

/-- An operand in memory denotes the object at `O`, and keeps to do so when `W` and `E` are
written. -/
def Src.Fixed (W : Int → Prop) (E : Nat → Prop) (t : M) (O : Int) : Src → Prop
  | .place p => (∀ r, p ≠ .temp r) ∧ p.address t = O
  | .deref p o => p.Steady W E t ∧ p.word t + o = O
  | _ => False

theorem not_vaReg {r : Nat} (h : r = BP ∨ isTempInt r ∨ isTempSse r) : ¬ VaReg r := by
  rintro (h1 | h1 | h1 | h1 | h1 | h1 | h1) <;> subst h1 <;> revert h <;> decide

theorem address_near {W E} {t t' : M} (h : Near W E t t') (hE : ¬ E BP) (p : Place) : p.address t' = p.address t := by
  cases p with
  | frame o => simp only [Place.address]; rw [h.reg BP (by decide) hE]
  | global a => rfl
  | temp r => rfl

theorem word_near {W E} {t t' : M} (h : Near W E t t') (hE : ¬ E BP) {p : Place} (hp : p.Steady W E t) :
    p.word t' = p.word t := by
  have key : (∀ j : Nat, j < 8 → p.byte t' j = p.byte t j) → p.word t' = p.word t := by
    intro hb
    unfold Place.word
    congr 1
    apply List.map_congr_left
    intro j hj
    exact hb j (List.mem_range.mp hj)
  apply key
  intro j hj
  cases p with
  | temp r =>
    simp only [Place.byte]
    rw [h.reg r (not_vaReg (.inr (.inl hp.1))) hp.2.1]
  | frame o =>
    simp only [Place.byte, Place.address, Place.Steady] at *
    rw [h.reg BP (by decide) hE, h.mem _ (hp j hj)]
  | global a =>
    simp only [Place.byte, Place.address, Place.Steady] at *
    rw [h.mem _ (hp j hj)]

theorem Steady.near {W E} {t t' : M} (h : Near W E t t') (hE : ¬ E BP) {p : Place} (hp : p.Steady W E t) :
    p.Steady W E t' := by
  cases p with
  | temp r =>
    simp only [Place.Steady] at *
    rw [h.reg r (not_vaReg (.inr (.inl hp.1))) hp.2.1]
    exact hp
  | frame o =>
    simp only [Place.Steady] at *
    rw [address_near h hE]; exact hp
  | global a => exact hp

theorem Fixed.near {W E} {t t' : M} (h : Near W E t t') (hE : ¬ E BP) {O : Int} {src : Src} (hs : src.Fixed W E t O) :
    src.Fixed W E t' O := by
  cases src with
  | place p => exact ⟨hs.1, by rw [address_near h hE]; exact hs.2⟩
  | deref p o => exact ⟨Steady.near h hE hs.1, by rw [word_near h hE hs.1]; exact hs.2⟩
  | imm _ => exact hs
  | addr _ => exact hs

theorem Fixed.shift {W E} {t : M} {O : Int} {src : Src} (n : Nat) (hs : src.Fixed W E t O) :
    (src.shift n).Fixed W E t (O + n) := by
  cases src with
  | place p =>
    obtain ⟨h1, h2⟩ := hs
    cases p with
    | temp r => exact absurd rfl (h1 r)
    | frame o =>
      refine ⟨fun r => by simp [Place.shift], ?_⟩
      simp only [Place.shift, Place.address] at *
      omega
    | global a =>
      refine ⟨fun r => by simp [Place.shift], ?_⟩
      simp only [Place.shift, Place.address] at *
      omega
  | deref p o =>
    refine ⟨hs.1, ?_⟩
    have := hs.2
    push_cast
    omega
  | imm _ => exact hs
  | addr _ => exact hs

theorem Fixed.object {W E} {t : M} {O : Int} {src : Src} (hs : src.Fixed W E t O) : src.object t = O := by
  cases src with
  | place p => exact hs.2
  | deref p o => exact hs.2
  | imm _ => exact hs.elim
  | addr _ => exact hs.elim

theorem ea_of_not_temp {p : Place} (h : ∀ r, p ≠ .temp r) : ∃ a, p.ea = some a := by
  cases p with
  | temp r => exact absurd rfl (h r)
  | frame o => exact ⟨_, rfl⟩
  | global a => exact ⟨_, rfl⟩

theorem step_ld (s : M) (w d a) : step s (.ld w d a) =
    s.set d (merged (decide (w < 4)) w (s.reg d) (val (rd s.mem (s.ea a) w))) := rfl

theorem ld_full {w : Nat} (h : 4 ≤ w) (s : M) (d a) : step s (.ld w d a) = s.set d (val (rd s.mem (s.ea a) w)) := by
  rw [step_ld, merged, if_neg (by simp; omega), val_rd_emod]

/-- Loading a pointer for an access. -/
theorem pointer_load {W E} {t : M} {p : Place} (hp : p.Steady W E t) {r : Nat} {code : List Ins}
    (h : loadInt 8 false (.place p) r 8 = some code) (hr : r < 17) :
    (run t code).mem = t.mem ∧ (∀ x, x ≠ r → (run t code).reg x = t.reg x) ∧ (run t code).reg r = p.word t := by
  simp only [loadInt, show ¬ (8 < 8) by omega, if_false, show ¬ (8 > 8) by omega, false_and] at h
  by_cases ht : ∃ x, p = .temp x
  · obtain ⟨x, rfl⟩ := ht
    obtain ⟨h1, _, h2, h3⟩ := hp
    have hx : ¬ 17 ≤ x := by
      simp only [isTempInt, BX, R12, R13, R14, R15] at h1; omega
    simp only [emitLoad, Option.some.injEq] at h
    subst h
    simp only [Op.fromReg, if_neg hx, run_cons, run_nil]
    refine ⟨rfl, fun y hy => by simp [step, hy], ?_⟩
    simp only [step, set_reg, if_true, merged]
    rw [word_temp h2 h3, if_neg (by simp; omega)]
    exact Int.emod_eq_of_lt h2 h3
  · obtain ⟨a, ha⟩ := ea_of_not_temp (fun r e => ht ⟨r, e⟩)
    have h' : some [.ld 8 r a] = some code := by
      rw [← h]
      cases p <;> simp_all [emitLoad, Place.ea, Op.fromMem]
    simp only [Option.some.injEq] at h'
    subst h'
    rw [run_cons, run_nil, ld_full (by omega)]
    refine ⟨rfl, fun y hy => by simp [hy], ?_⟩
    rw [set_reg, if_pos rfl, word_place ha, ea_place ha]

/-- Loading a member of 4 or 8 bytes. -/
theorem load_word {W E} {t : M} {O : Int} {src : Src} (hs : src.Fixed W E t O) {sz r : Nat} (hz : sz = 4 ∨ sz = 8)
    {code : List Ins} (h : load sz .unsigned src r = some code) :
    (run t code).mem = t.mem ∧ (∀ x, x ≠ r → x ≠ R11 → (run t code).reg x = t.reg x) ∧
      (run t code).reg r = val (rd t.mem O sz) := by
  have he : emitLoad (.mov sz) src r = some code := by
    rcases hz with rfl | rfl <;> cases src <;>
      first
      | exact hs.elim
      | simpa [load, loadInt] using h
  cases src with
  | imm _ => exact hs.elim
  | addr _ => exact hs.elim
  | place p =>
    obtain ⟨a, ha⟩ := ea_of_not_temp hs.1
    have h' : some [.ld sz r a] = some code := by
      rw [← he]
      cases p <;> simp_all [emitLoad, Place.ea, Op.fromMem]
    simp only [Option.some.injEq] at h'
    subst h'
    rw [run_cons, run_nil, ld_full (by omega)]
    refine ⟨rfl, fun x hx _ => by simp [hx], ?_⟩
    rw [set_reg, if_pos rfl, ea_place ha, hs.2]
  | deref p o =>
    obtain ⟨hp, hO⟩ := hs
    by_cases ht : ∃ x, p = .temp x
    · obtain ⟨x, rfl⟩ := ht
      simp only [emitLoad, Option.some.injEq, Op.fromMem] at he
      subst he
      rw [run_cons, run_nil, ld_full (by omega)]
      refine ⟨rfl, fun y hy _ => by simp [hy], ?_⟩
      rw [set_reg, if_pos rfl]
      have : t.ea (.base x o) = O := by
        rw [← hO, word_temp hp.2.2.1 hp.2.2.2]; rfl
      rw [this]
    · obtain ⟨a, ha⟩ := ea_of_not_temp (fun r e => ht ⟨r, e⟩)
      have h' : some [.ld 8 R11 a, .ld sz r (.base R11 o)] = some code := by
        rw [← he]
        cases p <;> simp_all [emitLoad, Place.ea, Op.fromMem]
      simp only [Option.some.injEq] at h'
      subst h'
      rw [run_cons, run_cons, run_nil, ld_full (show 4 ≤ 8 by omega), ld_full (show 4 ≤ sz by omega)]
      refine ⟨rfl, fun y hy hy' => by simp [hy, hy'], ?_⟩
      rw [set_reg, if_pos rfl, set_mem]
      have : (t.set R11 (val (rd t.mem (t.ea a) 8))).ea (.base R11 o) = O := by
        show (t.set R11 (val (rd t.mem (t.ea a) 8))).reg R11 + o = O
        rw [set_reg, if_pos rfl, ea_place ha, ← word_place ha, hO]
      rw [this]

/-- Storing to an object in memory. -/
theorem store_mem {W E} {t : M} {O : Int} {dst : Src} (hs : dst.Fixed W E t O) {w r : Nat} {real : Bool} (hr : r ≠ R11)
    {code : List Ins} (h : store w real r dst = some code) :
    (run t code).mem = wr t.mem O (le w (t.reg r)) ∧ ∀ x, x ≠ R11 → (run t code).reg x = t.reg x := by
  cases dst with
  | imm _ => exact hs.elim
  | addr _ => exact hs.elim
  | place p =>
    obtain ⟨a, ha⟩ := ea_of_not_temp hs.1
    have h' : some [.st w r a] = some code := by
      rw [← h]
      cases p <;> simp_all [store, Place.ea]
    simp only [Option.some.injEq] at h'
    subst h'
    rw [run_cons, run_nil, step_st, ea_place ha, hs.2]
    exact ⟨rfl, fun _ _ => rfl⟩
  | deref p o =>
    simp only [store] at h
    obtain ⟨c, hc, h⟩ := Option.bind_eq_some_iff.mp h
    simp only [Option.some.injEq] at h
    subst h
    obtain ⟨h1, h2, h3⟩ := pointer_load hs.1 hc (by decide)
    rw [run_append, run_cons, run_nil, step_st]
    generalize run t c = u at *
    have : u.ea (.base R11 o) = O := by
      show u.reg R11 + o = O
      rw [h3, hs.2]
    rw [this, write_mem, h1, h2 r hr]
    exact ⟨rfl, fun x hx => by rw [write_reg, h2 x hx]⟩

theorem le_merged (keep : Bool) (w : Nat) (old v : Int) : le w (merged keep w old v) = le w v := by
  unfold le
  apply List.map_congr_left
  intro j hj
  exact byteAt_merged _ _ _ _ (List.mem_range.mp hj)

/-- Adding to a member. -/
theorem addTo_spec {W E} {t : M} {O : Int} {dst : Src} (hs : dst.Fixed W E t O) (hE : ¬ E BP) {w : Nat} (hw : w = 4 ∨ w = 8)
    {v : Int} (hv : w = 8 → -2147483648 ≤ v ∧ v ≤ 2147483647)
    {code : List Ins} (h : addTo w v dst = some code) :
    (run t code).mem = wr t.mem O (le w (val (rd t.mem O w) + v)) ∧
      ∀ x, x ≠ AX → x ≠ R11 → (run t code).reg x = t.reg x := by
  by_cases hp : ∃ p, dst = .place p
  · obtain ⟨p, rfl⟩ := hp
    simp only [addTo] at h
    obtain ⟨a, ha, h⟩ := Option.bind_eq_some_iff.mp h
    simp only [Option.some.injEq] at h
    subst h
    rw [run_cons, run_nil]
    simp only [step]
    rw [ea_place ha, hs.2, encoded_of hv]
    exact ⟨rfl, fun _ _ _ => rfl⟩
  · have h' : (do some ((← load w .unsigned dst AX) ++ .addw w AX v :: (← store w false AX dst))) = some code := by
      rw [← h]
      cases dst with
      | place p => exact absurd ⟨p, rfl⟩ hp
      | deref p o => rfl
      | imm _ => rfl
      | addr _ => rfl
    obtain ⟨c1, hc1, h'⟩ := Option.bind_eq_some_iff.mp h'
    obtain ⟨c2, hc2, h'⟩ := Option.bind_eq_some_iff.mp h'
    simp only [Option.some.injEq] at h'
    subst h'
    obtain ⟨g1, g2, g3⟩ := load_word hs hw hc1
    rw [run_append, run_cons]
    generalize run t c1 = u at *
    obtain ⟨x, hx⟩ : ∃ x, step u (.addw w AX v) = x := ⟨_, rfl⟩
    rw [hx]
    have x1 : x.mem = t.mem := by subst hx; exact g1
    have x2 : ∀ r, r ≠ AX → r ≠ R11 → x.reg r = t.reg r := by
      intro r hr hr'
      subst hx
      simp only [step, set_reg, if_neg hr]
      exact g2 r hr hr'
    have x3 : x.reg AX = merged (decide (w < 4)) w (u.reg AX) (val (rd t.mem O w) + v) := by
      subst hx
      simp only [step, set_reg, if_true]
      rw [g3, encoded_of hv]
    have hn : Near W E t x := ⟨fun y _ => by rw [x1], fun r hr he => x2 r (fun e => hr (.inl e))
      (fun e => hr (by simp [VaReg, e]))⟩
    obtain ⟨k1, k2⟩ := store_mem (Fixed.near hn hE hs) (by decide) hc2
    refine ⟨by rw [k1, x1, x3, le_merged], fun y hy hy' => by rw [k2 y hy', x2 y hy hy']⟩

end Verif.Abi
