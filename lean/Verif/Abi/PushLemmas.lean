import Verif.Abi.PassLemmas

namespace Verif.Abi

/-- Registers which stay the same while arguments are passed. -/
def Kept (r : Nat) : Prop := r = BP ∨ isTempInt r ∨ isTempSse r

/-- `s` has the variables of `s0`: only the stack from `lo` to `hi` is different. -/
structure Same (s0 : M) (lo hi : Int) (s : M) : Prop where
  reg : ∀ r, Kept r → s.reg r = s0.reg r
  mem : ∀ x, x < lo ∨ hi ≤ x → s.mem x = s0.mem x

theorem Same.refl (s : M) (lo hi : Int) : Same s lo hi s := ⟨fun _ _ => rfl, fun _ _ => rfl⟩

theorem kept_bp : Kept BP := Or.inl rfl

theorem Same.address {s0 lo hi s} (h : Same s0 lo hi s) (p : Place) : p.address s = p.address s0 := by
  cases p <;> simp only [Place.address]
  rw [h.reg BP kept_bp]

theorem Same.word {s0 lo hi s} (h : Same s0 lo hi s) {p : Place} (hp : p.Pointer s0 lo hi) :
    p.word s = p.word s0 := by
  unfold Place.word
  congr 1
  apply List.map_congr_left
  intro j hj
  have hj := List.mem_range.mp hj
  cases p with
  | temp r => simp only [Place.byte]; rw [h.reg r (Or.inr (Or.inl hp.1))]
  | frame o =>
    simp only [Place.byte, h.address]
    simp only [Place.Pointer, Clear] at hp
    exact h.mem _ (by omega)
  | global a =>
    simp only [Place.byte, h.address]
    simp only [Place.Pointer, Clear] at hp
    exact h.mem _ (by omega)

theorem Same.byte {s0 lo hi s} (h : Same s0 lo hi s) {t : Ty} {src : Src} (ok : src.Ok s0 lo hi t) {j : Nat}
    (hj : j < t.size) : src.byte s j = src.byte s0 j := by
  cases src with
  | place p =>
    cases p with
    | temp r =>
      obtain ⟨sz, k, _, hk⟩ := ok
      simp only [Src.byte, Place.byte]
      rw [h.reg r]
      split_ifs at hk
      · exact Or.inr (Or.inr hk)
      · exact Or.inr (Or.inl hk)
    | frame o =>
      simp only [Src.byte, Place.byte, h.address]
      simp only [Src.Ok, Clear] at ok
      exact h.mem _ (by omega)
    | global a =>
      simp only [Src.byte, Place.byte, h.address]
      simp only [Src.Ok, Clear] at ok
      exact h.mem _ (by omega)
  | deref p o =>
    obtain ⟨hp, hc⟩ := ok
    simp only [Src.byte]
    rw [h.word hp]
    simp only [Clear] at hc
    exact h.mem _ (by omega)
  | imm v => rfl
  | addr p => simp only [Src.byte, h.address]

theorem tempInt_lt {r} (h : isTempInt r) : r < 17 := by
  simp only [isTempInt, BX, R12, R13, R14, R15] at h; omega

theorem Same.sound {s0 lo hi s} (h : Same s0 lo hi s) {t : Ty} {src : Src} (ok : src.Ok s0 lo hi t) {sz : Nat}
    {k : Kind} (ht : t.scalar = some (sz, k)) : src.Sound s (decide (k = .real)) := by
  cases src with
  | place p =>
    cases p with
    | temp r =>
      obtain ⟨sz', k', e, hk⟩ := ok
      rw [ht] at e
      simp only [Option.some.injEq, Prod.mk.injEq] at e
      obtain ⟨_, rfl⟩ := e
      intro hr
      simp only [decide_eq_false_iff_not] at hr
      rw [if_neg hr] at hk
      exact tempInt_lt hk
    | _ => trivial
  | deref p o =>
    cases p with
    | temp r =>
      obtain ⟨hp, _⟩ := ok
      simp only [Src.Sound]
      rw [h.reg r (Or.inr (Or.inl hp.1))]
      exact hp.2
    | _ => trivial
  | imm v => trivial
  | addr p => exact ok.2

/-- Soundness for objects which are no scalars. -/
theorem Same.sound' {s0 lo hi s} (h : Same s0 lo hi s) {t : Ty} {src : Src} (ok : src.Ok s0 lo hi t)
    (ht : t.scalar = none) (b : Bool) : src.Sound s b := by
  cases src with
  | place p =>
    cases p with
    | temp r => obtain ⟨sz', k', e, hk⟩ := ok; rw [ht] at e; simp at e
    | _ => trivial
  | deref p o =>
    cases p with
    | temp r =>
      obtain ⟨hp, _⟩ := ok
      simp only [Src.Sound]
      rw [h.reg r (Or.inr (Or.inl hp.1))]
      exact hp.2
    | _ => trivial
  | imm v => trivial
  | addr p => exact ok.2

theorem Same.object {s0 lo hi s} (h : Same s0 lo hi s) {t : Ty} {src : Src} (ok : src.Ok s0 lo hi t) :
    src.object s = src.object s0 := by
  cases src with
  | place p => exact h.address p
  | deref p o => simp only [Src.object]; rw [h.word ok.1]
  | _ => rfl

theorem byte_object {s : M} {src : Src} {t : Ty} {lo hi s0} (ok : src.Ok s0 lo hi t) (ht : t.scalar = none) (j : Nat) :
    src.byte s j = s.mem (src.object s + j) := by
  cases src with
  | place p =>
    cases p with
    | temp r => obtain ⟨sz', k', e, hk⟩ := ok; rw [ht] at e; simp at e
    | _ => rfl
  | deref p o => rfl
  | imm v => obtain ⟨sz', k', e, hk⟩ := ok; rw [ht] at e; simp at e
  | addr p => obtain ⟨rfl, _⟩ := ok; simp [Ty.scalar] at ht

theorem object_clear {src : Src} {t : Ty} {lo hi s0} (ok : src.Ok s0 lo hi t) (ht : t.scalar = none) :
    Clear lo hi (src.object s0) t.size := by
  cases src with
  | place p =>
    cases p with
    | temp r => obtain ⟨sz', k', e, hk⟩ := ok; rw [ht] at e; simp at e
    | _ => exact ok
  | deref p o => exact ok.2
  | imm v => obtain ⟨sz', k', e, hk⟩ := ok; rw [ht] at e; simp at e
  | addr p => obtain ⟨rfl, _⟩ := ok; simp [Ty.scalar] at ht

theorem loadAddress_ok {s0 lo hi s} (h : Same s0 lo hi s) {t : Ty} {src : Src} (ok : src.Ok s0 lo hi t)
    (ht : t.scalar = none) {r : Nat} {code : List Ins} (hr : r < 17) (hc : loadAddress src r = some code) :
    (run s code).mem = s.mem ∧ (∀ x, x ≠ r → x ≠ R11 → (run s code).reg x = s.reg x) ∧
      (run s code).reg r = src.object s := by
  refine loadAddress_spec hc hr ?_
  rintro p o rfl ⟨x, rfl⟩
  have hk : s.reg x = s0.reg x := h.reg x (Or.inr (Or.inl ok.1.1))
  exact ⟨x, rfl, tempInt_lt ok.1.1, by rw [hk]; exact ok.1.2.1, by rw [hk]; exact ok.1.2.2⟩

/-- Registers the code for pushing uses. -/
def Scratch (r : Nat) : Prop := r = AX ∨ r = CX ∨ r = SI ∨ r = DI ∨ r = R11 ∨ r = SP

theorem Scratch.not_kept {r} (h : Scratch r) : ¬ Kept r := by
  simp only [Scratch, Kept, isTempInt, isTempSse, AX, CX, SI, DI, R11, SP, BP, BX, R12, R13, R14, R15] at *
  omega

/-- Effect of pushing an argument of `n` bytes. -/
structure Pushed (s0 : M) (s : M) (code : List Ins) (a : Arg) : Prop where
  sp : (run s code).reg SP = s.reg SP - 8 * eightbytes a.ty
  reg : ∀ r, ¬ Scratch r → (run s code).reg r = s.reg r
  mem : ∀ x, x < (run s code).reg SP ∨ s.reg SP ≤ x → (run s code).mem x = s.mem x
  byte : ∀ j : Nat, j < a.ty.size → (run s code).mem ((run s code).reg SP + j) = a.src.byte s0 j

theorem scalar_size {t : Ty} {sz k} (h : t.scalar = some (sz, k)) : t.size = sz := by
  cases t <;> simp_all [Ty.scalar, Ty.size]

theorem scalar_bounds {t : Ty} {sz k} (h : t.scalar = some (sz, k)) (hl : SysV.laidOut t = true) :
    sz = 1 ∨ sz = 2 ∨ sz = 4 ∨ sz = 8 := by
  cases t <;> simp_all [Ty.scalar, SysV.laidOut] <;> omega

theorem step_push (s : M) (r) : step s (.push r) = s.pushBytes (le 8 (s.reg r)) := rfl
theorem step_pushm (s : M) (a) : step s (.pushm a) = s.pushBytes (rd s.mem (s.ea a) 8) := rfl
theorem step_pushi (s : M) {v : Int} (h : -2147483648 ≤ v ∧ v ≤ 2147483647) : step s (.pushi v) = s.pushBytes (le 8 v) := by
  show s.pushBytes (le 8 (encoded 8 v)) = _
  rw [encoded_of fun _ => h]

/-- A scalar in a register is pushed. -/
theorem pushed_reg {s0 lo hi s} (h : Same s0 lo hi s) {a : Arg} {sz k} (ht : a.ty.scalar = some (sz, k))
    (hl : SysV.laidOut a.ty = true) (ok : a.src.Ok s0 lo hi a.ty) {l : List Ins}
    (hc : loadInt sz (k == .signed) a.src AX 8 = some l) (hs : a.src.Sound s false) :
    Pushed s0 s (l ++ [.push AX]) a := by
  have hz := scalar_bounds ht hl
  have hsz := scalar_size ht
  have hb := loadInt_loads (s := s) hc hs (by omega)
  have heb : eightbytes a.ty = 1 := by simp only [eightbytes]; omega
  have hsp : (run s l).reg SP = s.reg SP := hb.reg SP (by decide) (by decide)
  refine ⟨?_, ?_, ?_, ?_⟩
  · rw [run_append, run_cons, run_nil, step_push, pushBytes_reg, if_pos rfl, hsp, heb]; omega
  · intro r hr
    rw [run_append, run_cons, run_nil, step_push, pushBytes_reg, if_neg (by rintro rfl; exact hr (by simp [Scratch]))]
    exact hb.reg r (by rintro rfl; exact hr (by simp [Scratch])) (by rintro rfl; exact hr (by simp [Scratch]))
  · intro x hx
    rw [run_append, run_cons, run_nil, step_push, pushBytes_reg, if_pos rfl, hsp] at hx
    rw [run_append, run_cons, run_nil, step_push, pushBytes_mem, hsp, wr_out (by simp; omega), hb.mem]
  · intro j hj
    rw [run_append, run_cons, run_nil, step_push, pushBytes_reg, if_pos rfl, pushBytes_mem, wr_le (by omega),
      hb.byte j (by omega)]
    exact h.byte ok hj

theorem push_pushed {s0 lo hi s} (h : Same s0 lo hi s) {a : Arg} (hl : SysV.laidOut a.ty = true)
    (ok : a.src.Ok s0 lo hi a.ty) (hsize : a.ty.size < 2 ^ 31) {code : List Ins} (hc : push a = some code)
    (hreal : ∀ r, a.src = .place (.temp r) → ¬ isTempSse r)
    (hlo : lo ≤ s.reg SP - 8 * eightbytes a.ty) (hhi : s.reg SP ≤ hi)
    (h0 : 0 ≤ lo) (h64 : hi < 256 ^ 8) : Pushed s0 s code a := by
  have hne : ∀ {sz k}, a.ty.scalar = some (sz, k) → a.src.Sound s false := by
    intro sz k ht
    have := h.sound ok ht
    by_cases hk : k = .real
    · cases hsrc : a.src with
      | place p =>
        cases p with
        | temp r =>
          rw [hsrc] at ok
          obtain ⟨sz', k', e, hk'⟩ := ok
          rw [ht] at e
          simp only [Option.some.injEq, Prod.mk.injEq] at e
          obtain ⟨_, rfl⟩ := e
          rw [if_pos hk] at hk'
          exact absurd hk' (hreal r hsrc)
        | _ => trivial
      | deref p o => rw [hsrc] at this; cases p <;> exact this
      | imm v => trivial
      | addr p => rw [hsrc] at ok; exact ok.2
    · rwa [show decide (k = .real) = false by simpa using hk] at this
  obtain ⟨ty, src⟩ := a
  simp only at *
  by_cases hld : ty = .ldouble
  · subst hld
    have ht : Ty.scalar .ldouble = none := rfl
    have hobj := h.object ok
    have hclear := object_clear ok ht
    simp only [Clear, Ty.size] at hclear
    simp only [eightbytes, Ty.size] at hlo
    -- the common part
    have key : ∀ (t : M) (a b : Ea), t.mem = s.mem → t.reg SP = s.reg SP → (∀ r, ¬ Scratch r → t.reg r = s.reg r) →
        t.ea a = src.object s0 + 8 → (∀ t' : M, t'.reg SI = t.reg SI → t'.reg BP = t.reg BP → t'.ea b = src.object s0) →
        (run t [.pushm a, .pushm b]).reg SP = s.reg SP - 16 ∧
        (∀ r, ¬ Scratch r → (run t [.pushm a, .pushm b]).reg r = s.reg r) ∧
        (∀ x, x < s.reg SP - 16 ∨ s.reg SP ≤ x → (run t [.pushm a, .pushm b]).mem x = s.mem x) ∧
        ∀ j : Nat, j < 16 → (run t [.pushm a, .pushm b]).mem (s.reg SP - 16 + j) = src.byte s0 j := by
      intro t a b hm hsp hr ha hb
      have hb' := hb (step t (.pushm a)) (by simp [step_pushm, SI, SP]) (by simp [step_pushm, BP, SP])
      refine ⟨?_, ?_, ?_, ?_⟩
      · simp only [run_cons, run_nil, step_pushm, pushBytes_reg, if_true]; rw [hsp]; omega
      · intro r hr'
        have : r ≠ SP := by rintro rfl; exact hr' (by simp [Scratch])
        simp only [run_cons, run_nil, step_pushm, pushBytes_reg, if_neg this]
        exact hr r hr'
      · intro x hx
        simp only [run_cons, run_nil, step_pushm, pushBytes_reg, pushBytes_mem, if_true]
        rw [wr_out (by simp; omega), wr_out (by simp; omega), hm]
      · intro j hj
        rw [run_cons, run_cons, run_nil, step_pushm (step t _), hb']
        simp only [step_pushm, pushBytes_reg, pushBytes_mem, if_true, ha]
        rw [byte_object ok ht]
        by_cases hj8 : j < 8
        · rw [show s.reg SP - 16 + (j : Int) = t.reg SP - 8 - 8 + j by omega, wr_rd hj8, wr_out (by simp; omega), hm]
          exact h.mem _ (by omega)
        · rw [show s.reg SP - 16 + (j : Int) = t.reg SP - 8 + ((j - 8 : Nat) : Int) by omega,
            wr_out (by simp), wr_rd (by omega), hm,
            show src.object s0 + 8 + ((j - 8 : Nat) : Int) = src.object s0 + j by omega]
          exact h.mem _ (by omega)
    have fin : ∀ (pre : List Ins) (a b : Ea), code = pre ++ [.pushm a, .pushm b] →
        (run s pre).mem = s.mem → (run s pre).reg SP = s.reg SP →
        (∀ r, ¬ Scratch r → (run s pre).reg r = s.reg r) → (run s pre).ea a = src.object s0 + 8 →
        (∀ t' : M, t'.reg SI = (run s pre).reg SI → t'.reg BP = (run s pre).reg BP → t'.ea b = src.object s0) →
        Pushed s0 s code ⟨.ldouble, src⟩ := by
      intro pre a b hcode h1 h2 h3 h4 h5
      obtain ⟨k1, k2, k3, k4⟩ := key (run s pre) a b h1 h2 h3 h4 h5
      rw [hcode]
      refine ⟨?_, ?_, ?_, ?_⟩
      · rw [run_append, k1]; simp only [eightbytes, Ty.size]; omega
      · intro r hr; rw [run_append]; exact k2 r hr
      · intro x hx; rw [run_append] at hx ⊢; rw [k1] at hx; exact k3 x hx
      · intro j hj; rw [run_append, k1]; exact k4 j hj
    by_cases hp : ∃ p, src = .place p
    · obtain ⟨p, rfl⟩ := hp
      simp only [push] at hc
      obtain ⟨ea8, h8, hc⟩ := Option.bind_eq_some_iff.mp hc
      obtain ⟨ea0, h0, hc⟩ := Option.bind_eq_some_iff.mp hc
      simp only [Option.some.injEq] at hc
      refine fin [] ea8 ea0 hc.symm rfl rfl (fun _ _ => rfl) ?_ ?_
      · have : (run s []).ea ea8 = (p.shift 8).address s := ea_place h8
        rw [this, ← hobj]
        cases p with
        | temp r => simp [Place.shift, Place.ea] at h8
        | _ => simp only [Place.shift, Place.address, Src.object]; omega
      · intro t' _ hbp
        rw [ea_place h0, ← hobj]
        cases p <;> simp only [Place.address, Src.object]
        rw [hbp]; rfl
    · have hc' : (do some ((← loadAddress src SI) ++ [.pushm (.base SI 8), .pushm (.base SI 0)]) : Option (List Ins)) = some code := by
        rw [← hc]
        cases src with
        | place p => exact absurd ⟨p, rfl⟩ hp
        | _ => rfl
      obtain ⟨l, hl', hc'⟩ := Option.bind_eq_some_iff.mp hc'
      simp only [Option.some.injEq] at hc'
      obtain ⟨g1, g2, g3⟩ := loadAddress_ok h ok ht (by decide) hl'
      refine fin l _ _ hc'.symm g1 (g2 SP (by decide) (by decide)) ?_ ?_ ?_
      · intro r hr
        exact g2 r (by rintro rfl; exact hr (by simp [Scratch])) (by rintro rfl; exact hr (by simp [Scratch]))
      · simp only [M.ea]; rw [g3, hobj]
      · intro t' hsi _; simp only [M.ea]; rw [hsi, g3, hobj]; omega
  · cases hsc : ty.scalar with
    | some x =>
      obtain ⟨sz, k⟩ := x
      have hz := scalar_bounds hsc hl
      have hsz := scalar_size hsc
      have heb : eightbytes ty = 1 := by simp only [eightbytes]; omega
      have hother : (do some ((← loadInt sz (k == .signed) src AX 8) ++ [.push AX]) : Option (List Ins)) = some code →
          Pushed s0 s code ⟨ty, src⟩ := by
        intro hc'
        obtain ⟨l, hl', hc'⟩ := Option.bind_eq_some_iff.mp hc'
        simp only [Option.some.injEq] at hc'
        subst hc'
        exact pushed_reg h hsc hl ok hl' (hne hsc)
      by_cases hi' : ∃ v, src = .imm v
      · obtain ⟨v, rfl⟩ := hi'
        have hc' : (if k ≠ .real ∧ -2147483648 ≤ v ∧ v ≤ 2147483647 then some [.pushi v]
            else do some ((← loadInt sz (k == .signed) (.imm v) AX 8) ++ [.push AX]) : Option (List Ins)) = some code := by
          rw [← hc]
          unfold push
          cases ty <;> simp_all
        split_ifs at hc' with hv
        · simp only [Option.some.injEq] at hc'
          subst hc'
          have hp : ∀ s : M, step s (.pushi v) = s.pushBytes (le 8 v) := fun s => step_pushi s hv.2
          refine ⟨?_, ?_, ?_, ?_⟩
          · simp only [run_cons, run_nil, hp, pushBytes_reg, if_true, heb]; omega
          · intro r hr
            have : r ≠ SP := by rintro rfl; exact hr (by simp [Scratch])
            simp only [run_cons, run_nil, hp, pushBytes_reg, if_neg this]
          · intro x hx
            simp only [run_cons, run_nil, hp, pushBytes_reg, if_true] at hx
            simp only [run_cons, run_nil, hp, pushBytes_mem]
            rw [wr_out (by simp; omega)]
          · intro j hj
            simp only [run_cons, run_nil, hp, pushBytes_reg, if_true, pushBytes_mem]
            simp only at hj
            rw [wr_le (by omega)]; rfl
        · exact hother hc'
      · refine hother ?_
        rw [← hc]
        unfold push
        cases ty <;> simp_all <;> cases src <;> simp_all
    | none =>
      have hobj := h.object ok
      have hclear := object_clear ok hsc
      simp only [Clear] at hclear
      have hc' : (do some ([.addi SP (-(eightbytes ty * 8 : Int)), .movi 4 CX (eightbytes ty), .mov 8 DI SP] ++
          (← loadAddress src SI) ++ [.repMovsq]) : Option (List Ins)) = some code := by
        rw [← hc]
        unfold push
        cases ty <;> simp_all [Ty.scalar]
      obtain ⟨l, hl', hc'⟩ := Option.bind_eq_some_iff.mp hc'
      simp only [Option.some.injEq] at hc'
      subst hc'
      generalize heb : eightbytes ty = eb at *
      have hn : ty.size ≤ 8 * eb := by simp only [eightbytes] at heb; omega
      have heb' : eb < 256 ^ 4 := by simp only [eightbytes] at heb; omega
      -- after the first three instructions
      let t := run s [.addi SP (-(eb * 8 : Int)), .movi 4 CX eb, .mov 8 DI SP]
      have ht1 : t.mem = s.mem := rfl
      have ht2 : t.reg SP = s.reg SP - 8 * eb := by
        simp [t, step, SP, CX, DI]; omega
      have ht3 : t.reg CX = eb := by
        simp only [t, run_cons, run_nil, step, set_reg, SP, CX, DI, merged]
        simp only [show (2 : Nat) ≠ 8 by omega, if_false, if_true, show decide (4 < 4) = false from rfl, Bool.false_eq_true]
        exact Int.emod_eq_of_lt (by omega) (by omega)
      have ht4 : t.reg DI = s.reg SP - 8 * eb := by
        simp only [t, run_cons, run_nil, step, set_reg, SP, CX, DI, merged]
        simp only [show (5 : Nat) ≠ 2 by omega, show (8 : Nat) ≠ 2 by omega, show (8 : Nat) ≠ 5 by omega, if_false, if_true,
          show (decide (8 < 4) || decide (17 ≤ 8)) = false from rfl, Bool.false_eq_true]
        rw [Int.emod_eq_of_lt (by simp only [SP] at *; omega) (by simp only [SP] at *; omega)]
        simp only [SP] at *; omega
      have ht5 : ∀ r, r ≠ SP → r ≠ CX → r ≠ DI → t.reg r = s.reg r := by
        intro r h1 h2 h3
        simp [t, step, h1, h2, h3]
      have hst : Same s0 lo hi t := by
        refine ⟨fun r hr => ?_, fun x hx => by rw [ht1]; exact h.mem x hx⟩
        rw [ht5 r (by rintro rfl; exact Scratch.not_kept (by simp [Scratch]) hr)
          (by rintro rfl; exact Scratch.not_kept (by simp [Scratch]) hr)
          (by rintro rfl; exact Scratch.not_kept (by simp [Scratch]) hr)]
        exact h.reg r hr
      obtain ⟨g1, g2, g3⟩ := loadAddress_ok hst ok hsc (r := SI) (by decide) hl'
      obtain ⟨m1, m2, m3⟩ := movsqs_spec eb (run t l)
      have e1 : (run t l).reg DI = s.reg SP - 8 * eb := by rw [g2 DI (by decide) (by decide), ht4]
      have e2 : (run t l).reg CX = eb := by rw [g2 CX (by decide) (by decide), ht3]
      have e3 : (run t l).reg SP = s.reg SP - 8 * eb := by rw [g2 SP (by decide) (by decide), ht2]
      have e4 : (run t l).reg SI = src.object s0 := by rw [g3, hst.object ok]
      have hfin : run s ([.addi SP (-(eb * 8 : Int)), .movi 4 CX eb, .mov 8 DI SP] ++ l ++ [.repMovsq]) =
          (M.movsqs eb (run t l)).set CX 0 := by
        rw [run_append, run_append]
        simp only [run_cons, run_nil]
        show (M.movsqs ((run t l).reg CX).toNat (run t l)).set CX 0 = _
        rw [e2]; rfl
      have hsp' : ((M.movsqs eb (run t l)).set CX 0).reg SP = s.reg SP - 8 * eb := by
        rw [set_reg, if_neg (by decide), m1 SP (by decide) (by decide), e3]
      rw [e1] at m2 m3
      rw [e4] at m3
      refine ⟨?_, ?_, ?_, ?_⟩
      · rw [hfin, hsp']; simp only [heb]
      · intro r hr
        have a1 : r ≠ CX := by rintro rfl; exact hr (by simp [Scratch])
        have a2 : r ≠ SI := by rintro rfl; exact hr (by simp [Scratch])
        have a3 : r ≠ DI := by rintro rfl; exact hr (by simp [Scratch])
        have a4 : r ≠ R11 := by rintro rfl; exact hr (by simp [Scratch])
        have a5 : r ≠ SP := by rintro rfl; exact hr (by simp [Scratch])
        rw [hfin, set_reg, if_neg a1, m1 r a2 a3, g2 r a2 a4, ht5 r a5 a1 a3]
      · intro x hx
        rw [hfin] at hx ⊢
        rw [hsp'] at hx
        rw [set_mem, m2 x (by omega), g1, ht1]
      · intro j hj
        simp only at hj
        rw [hfin, hsp', set_mem, m3 j (by omega) (by omega), g1, ht1, byte_object ok hsc]
        exact h.mem _ (by omega)

end Verif.Abi
