import Verif.Abi.AssignLemmas
import Verif.Abi.VaMain

namespace Verif.Abi

theorem copyKind_reg {t : Ty} {w : Nat} {real : Bool} (ht : t.scalar = none) (h : copyKind t = some (.reg w real))
    (hz : t.size ≠ 3 ∧ t.size ≠ 5 ∧ t.size ≠ 6 ∧ t.size ≠ 7)
    (hp : 8 < t.size → ∀ pc, classify t = some pc → pc[1]? ≠ some .no) :
    w = t.size ∧ (w = 1 ∨ w = 2 ∨ w = 4 ∨ w = 8) ∧ (real = true → 4 ≤ w) := by
  unfold copyKind at h
  split_ifs at h with hs
  · split at h <;> first | omega | simp at h
  · have hsz : t.size = 1 ∨ t.size = 2 ∨ t.size = 4 ∨ 8 ≤ t.size := by
      by_contra hcon
      refine hs ⟨?_, by omega⟩
      unfold standard
      simp only [Bool.or_eq_false_iff, beq_eq_false_iff_ne]
      omega
    obtain ⟨pc, hpc, h⟩ := Option.bind_eq_some_iff.mp h
    have key : ∀ c rest, pc = c :: .no :: rest → (do
        let x ← sliceType t pc 0
        some (Copy.reg x.1 (x.2 == .real))) = some (Copy.reg w real) →
        w = t.size ∧ (w = 1 ∨ w = 2 ∨ w = 4 ∨ w = 8) ∧ (real = true → 4 ≤ w) := by
      intro c rest e h
      have h8 : t.size ≤ 8 := by
        by_contra hcon
        exact hp (by omega) pc hpc (by rw [e]; rfl)
      obtain ⟨⟨w', k⟩, hx, h⟩ := Option.bind_eq_some_iff.mp h
      simp only [Option.some.injEq, Copy.reg.injEq] at h
      obtain ⟨rfl, hk⟩ := h
      unfold sliceType at hx
      by_cases hc : pc[0]? = some .integer ∨ pc[0]? = some .sse
      case neg => rw [if_neg hc] at hx; simp at hx
      rw [if_pos hc, ht] at hx
      have h8' : ¬ (0 + 1) * 8 < t.size := by omega
      simp only [if_neg h8'] at hx
      rcases hsz with e1 | e1 | e1 | e1
      · rw [e1] at hx ⊢
        simp at hx
        obtain ⟨_, rfl, rfl⟩ := hx
        refine ⟨rfl, by omega, ?_⟩
        rw [← hk]; decide
      · rw [e1] at hx ⊢
        simp at hx
        obtain ⟨_, rfl, rfl⟩ := hx
        refine ⟨rfl, by omega, ?_⟩
        rw [← hk]; decide
      · rw [e1] at hx ⊢
        have : w' = 4 := by
          by_cases q : pc[0]? = some .sse
          · simp [q] at hx; exact hx.1.symm
          · simp [q] at hx; exact hx.1.symm
        omega
      · have e1 : t.size = 8 := by omega
        rw [e1] at hx ⊢
        have : w' = 8 := by
          by_cases q : pc[0]? = some .sse
          · simp [q] at hx; exact hx.1.symm
          · simp [q] at hx; exact hx.1.symm
        omega
    split at h
    · simp at h
    · exact key _ _ rfl h
    · exact key _ _ rfl h
    · simp at h
    · simp at h
    · simp at h
    · simp at h

/-- The bytes of an operand, and of the variable with the pointer if it is behind one. -/
def Src.own (s : M) (l : Src) (O : Int) (n : Nat) (x : Int) : Prop := (O ≤ x ∧ x < O + n) ∨ l.cell s x

theorem At.run {s : M} {O : Int} {src : Src} (h : src.At s O) {c : List Ins} {r : Nat} (hr : ¬ isTempInt r) (hb : r ≠ BP)
    (hm : (run s c).mem = s.mem) (hx : ∀ x, x ≠ r → x ≠ R11 → (run s c).reg x = s.reg x) :
    src.At (run s c) O ∧ ∀ x, src.cell (run s c) x ↔ src.cell s x := by
  refine At.congr h hm (hx BP (fun e => hb e.symm) (by decide)) fun x ht => hx x ?_ ?_
  · rintro rfl; exact hr ht
  · rintro rfl; exact absurd ht (by decide)

/-- A copy through a register. -/
theorem assign_reg {w : Nat} {real : Bool} {l target : Src} {s : M} {S T : Int} {c d : List Ins} {r : Nat}
    (hr : r = if real then XMM 0 else AX)
    (hw : w = 1 ∨ w = 2 ∨ w = 4 ∨ w = 8) (hreal : real = true → 4 ≤ w) (hl : l.At s S) (ht : target.At s T)
    (hc : load w (if real then .real else .unsigned) l r = some c) (hd : store w real r target = some d) :
    (∀ j : Nat, j < w → (run s (c ++ d)).mem (T + j) = s.mem (S + j)) ∧
      (∀ x, x < T ∨ T + w ≤ x → (run s (c ++ d)).mem x = s.mem x) ∧
      (∀ x, x ≠ r → x ≠ R11 → (run s (c ++ d)).reg x = s.reg x) ∧
      ∀ y ∈ touches s (c ++ d), ∀ x, y.1 ≤ x → x < y.1 + y.2 → l.own s S w x ∨ target.own s T w x := by
  have hr1 : ¬ isTempInt r := by cases real <;> subst hr <;> decide
  have hr2 : r ≠ BP := by cases real <;> subst hr <;> decide
  have hr3 : r ≠ R11 := by cases real <;> subst hr <;> decide
  have hL := load_loads (s := s) hc (At.sound hl _) (by omega)
  obtain ⟨ht', hcell⟩ := At.run ht hr1 hr2 hL.mem hL.reg
  obtain ⟨m1, m2⟩ := store_mem ht' hr3 hd
  rw [run_append]
  refine ⟨fun j hj => ?_, fun x hx => ?_, fun x h1 h2 => ?_, fun y hy x h1 h2 => ?_⟩
  · rw [m1, wr_le hj, hL.byte j hj, Fixed.byte hl]
  · rw [m1, wr_out (by simpa using hx), hL.mem]
  · rw [m2 x h2, hL.reg x h1 h2]
  · rw [touches_append] at hy
    rcases List.mem_append.mp hy with hy | hy
    · left
      rcases load_touches hw (by cases real <;> decide) (by cases real <;> simp_all) hc hl y hy with rfl | h
      · exact .inl ⟨h1, h2⟩
      · exact .inr (h x h1 h2)
    · right
      rcases store_touches hd ht' y hy with rfl | h
      · exact .inl ⟨h1, h2⟩
      · exact .inr ((hcell x).mp (h x h1 h2))

/-- The addresses of the source and of the target in registers. -/
theorem assign_addresses {l target : Src} {s : M} {S T : Int} {c d : List Ins} (hl : l.At s S) (ht : target.At s T)
    (hc : loadAddress l SI = some c) (hd : loadAddress target DI = some d) :
    (run s (c ++ d)).mem = s.mem ∧ (run s (c ++ d)).reg SI = S ∧ (run s (c ++ d)).reg DI = T ∧
      (∀ x, x ≠ SI → x ≠ DI → x ≠ R11 → (run s (c ++ d)).reg x = s.reg x) ∧
      ∀ y ∈ touches s (c ++ d), ∀ x, y.1 ≤ x → x < y.1 + y.2 → l.cell s x ∨ target.cell s x := by
  obtain ⟨a1, a2, a3⟩ := loadAddress_spec (s := s) hc (by decide) (At.pointer hl)
  obtain ⟨ht', hcell⟩ := At.run ht (by decide) (by decide) a1 a2
  obtain ⟨b1, b2, b3⟩ := loadAddress_spec (s := run s c) hd (by decide) (At.pointer ht')
  rw [run_append]
  refine ⟨by rw [b1, a1], ?_, by rw [b3, At.object ht'], fun x h1 h2 h3 => by rw [b2 x h2 h3, a2 x h1 h3], fun y hy x h1 h2 => ?_⟩
  · rw [b2 SI (by decide) (by decide), a3, At.object hl]
  · rw [touches_append] at hy
    rcases List.mem_append.mp hy with hy | hy
    · exact .inl (loadAddress_touches hc hl y hy x h1 h2)
    · exact .inr ((hcell x).mp (loadAddress_touches hd ht' y hy x h1 h2))

/-- A copy by moving pieces. -/
theorem assign_object {n : Nat} {l target : Src} {s : M} {S T : Int} {c d : List Ins} (hl : l.At s S) (ht : target.At s T)
    (hov : S = T ∨ S + n ≤ T ∨ T + n ≤ S)
    (hc : loadAddress l SI = some c) (hd : loadAddress target DI = some d) :
    (∀ j : Nat, j < n → (run s (c ++ d ++ copyCode n)).mem (T + j) = s.mem (S + j)) ∧
      (∀ x, x < T ∨ T + n ≤ x → (run s (c ++ d ++ copyCode n)).mem x = s.mem x) ∧
      (∀ x, x ≠ SI → x ≠ DI → x ≠ AX → x ≠ R11 → (run s (c ++ d ++ copyCode n)).reg x = s.reg x) ∧
      ∀ y ∈ touches s (c ++ d ++ copyCode n), ∀ x, y.1 ≤ x → x < y.1 + y.2 → l.own s S n x ∨ target.own s T n x := by
  obtain ⟨e1, e2, e3, e4, e5⟩ := assign_addresses hl ht hc hd
  rw [run_append]
  generalize hu : run s (c ++ d) = u at *
  obtain ⟨f1, f2, f3⟩ := copyCode_spec n u (by rw [e2, e3]; exact hov)
  rw [e3] at f2 f3
  rw [e2] at f3
  refine ⟨fun j hj => by rw [f3 j hj, e1], fun x hx => by rw [f2 x hx, e1], fun x h1 h2 h3 h4 => by rw [f1 x h3, e4 x h1 h2 h4],
    fun y hy x h1 h2 => ?_⟩
  rw [touches_append, hu] at hy
  rcases List.mem_append.mp hy with hy | hy
  · rcases e5 y hy x h1 h2 with h | h
    · exact .inl (.inr h)
    · exact .inr (.inr h)
  · rcases copyLoop_touches n n 0 u y hy with ⟨g1, g2⟩ | ⟨g1, g2⟩
    · rw [e2] at g1 g2
      exact .inl (.inl ⟨by omega, by omega⟩)
    · rw [e3] at g1 g2
      exact .inr (.inl ⟨by omega, by omega⟩)

/-- `fldt` from an object. -/
theorem loadX87_spec {l : Src} {s : M} {S : Int} {c : List Ins} (hl : l.At s S) (h : loadX87 l = some c)
    (hS : s.reg SP ≤ S ∨ S + 16 ≤ s.reg SP - 16) :
    (∀ j : Nat, j < 10 → byteAt ((run s c).reg ST0) j = s.mem (S + j)) ∧
      (∀ x, x < s.reg SP - 16 ∨ s.reg SP ≤ x → (run s c).mem x = s.mem x) ∧
      (∀ x, x ≠ SI → x ≠ ST0 → x ≠ R11 → (run s c).reg x = s.reg x) ∧
      ∀ y ∈ touches s c, ∀ x, y.1 ≤ x → x < y.1 + y.2 → l.own s S 16 x ∨ (s.reg SP - 16 ≤ x ∧ x < s.reg SP) := by
  cases l with
  | imm _ => exact hl.elim
  | addr _ => exact hl.elim
  | place p =>
    simp only [loadX87] at h
    obtain ⟨a, ha, h⟩ := Option.bind_eq_some_iff.mp h
    simp only [Option.some.injEq] at h
    subst h
    rw [run_cons, run_nil, ld_full (by omega), ea_place ha, hl.2]
    refine ⟨fun j hj => ?_, fun _ _ => rfl, fun x _ h2 _ => by rw [set_reg, if_neg h2], fun y hy x h1 h2 => ?_⟩
    · rw [set_reg, if_pos rfl, byteAt_val_rd hj]
    · simp only [touches, Ins.touches, List.append_nil, List.mem_singleton] at hy
      rw [hy, ea_place ha, hl.2] at h1 h2
      exact .inl (.inl ⟨h1, by simp at h2; omega⟩)
  | deref p o =>
    simp only [loadX87] at h
    obtain ⟨d, hd, h⟩ := Option.bind_eq_some_iff.mp h
    simp only [Option.some.injEq] at h
    subst h
    obtain ⟨a1, a2, a3⟩ := loadAddress_spec (s := s) hd (by decide) (At.pointer hl)
    rw [At.object hl] at a3
    have hSP : (run s d).reg SP = s.reg SP := a2 SP (by decide) (by decide)
    have hT := loadAddress_touches hd hl
    rw [run_append]
    generalize hu : run s d = u at *
    -- the state before the load
    let m1 := wr u.mem (s.reg SP - 8) (rd u.mem (S + 8) 8)
    let m2 := wr m1 (s.reg SP - 16) (rd m1 (S + 0) 8)
    have r1 : run u [.pushm (.base SI 8), .pushm (.base SI 0)] =
        { reg := fun x => if x = SP then s.reg SP - 16 else u.reg x, mem := m2 } := by
      have n1 : SI ≠ SP := by decide
      simp only [run_cons, run_nil, step, M.pushBytes, M.ea, M.set, M.write, n1, if_false, if_true, hSP, a3, m2, m1]
      congr 1
      · funext x
        split_ifs <;> omega
      · simp [show s.reg SP - 8 - 8 = s.reg SP - 16 by omega]
    have hin : ∀ j : Nat, j < 16 → m2 (s.reg SP - 16 + j) = s.mem (S + j) := by
      intro j hj
      by_cases h8 : j < 8
      · show wr m1 _ _ _ = _
        rw [wr_rd h8]
        show wr u.mem _ _ _ = _
        rw [wr_out (by simp; omega), a1]
        simp
      · show wr m1 _ _ _ = _
        rw [wr_out (by simp; omega)]
        show wr u.mem _ _ _ = _
        rw [show s.reg SP - 16 + (j : Int) = s.reg SP - 8 + ((j - 8 : Nat) : Int) by omega, wr_rd (by omega), a1]
        congr 1; omega
    have hout : ∀ x, x < s.reg SP - 16 ∨ s.reg SP ≤ x → m2 x = s.mem x := by
      intro x hx
      show wr m1 _ _ _ = _
      rw [wr_out (by simp; omega)]
      show wr u.mem _ _ _ = _
      rw [wr_out (by simp; omega), a1]
    have r2 : run u [.pushm (.base SI 8), .pushm (.base SI 0), .ld 10 ST0 (.base SP 0), .addi SP 16] =
        run (run u [.pushm (.base SI 8), .pushm (.base SI 0)]) [.ld 10 ST0 (.base SP 0), .addi SP 16] := rfl
    have hea : ({ reg := fun x => if x = SP then s.reg SP - 16 else u.reg x, mem := m2 } : M).ea (.base SP 0) =
        s.reg SP - 16 := by simp [M.ea]
    rw [r2, r1, run_cons, run_cons, run_nil, ld_full (by omega), step_addi, hea]
    refine ⟨fun j hj => ?_, fun x hx => hout x hx, fun x h1 h2 h3 => ?_, fun y hy x h1 h2 => ?_⟩
    · rw [set_reg, if_neg (by decide), set_reg, if_pos rfl, byteAt_val_rd hj]
      exact hin j (by omega)
    · have n2 : SP ≠ ST0 := by decide
      simp only [set_reg, n2, if_false, h2]
      split_ifs with q
      · subst q; simp
      · exact a2 x h1 h3
    · rw [touches_append, hu] at hy
      rcases List.mem_append.mp hy with hy | hy
      · exact .inl (.inr (hT y hy x h1 h2))
      · have n1 : SI ≠ SP := by decide
        simp only [touches, Ins.touches, step, M.pushBytes, M.ea, M.set, M.write, n1, if_false, if_true, hSP, a3,
          List.mem_append, List.mem_cons, List.not_mem_nil, or_false] at hy
        rcases hy with (rfl | rfl) | (rfl | rfl) | rfl
        · simp only at h1 h2; exact .inl (.inl ⟨by omega, by omega⟩)
        · simp only at h1 h2; exact .inr ⟨by omega, by omega⟩
        · simp only at h1 h2; exact .inl (.inl ⟨by omega, by omega⟩)
        · simp only at h1 h2; exact .inr ⟨by omega, by omega⟩
        · simp only [n1.symm] at h1 h2
          right
          simp at h1 h2
          exact ⟨by omega, by omega⟩

/-- `fstpt` to an object: ten bytes from the top of the x87 stack; the rest of the sixteen may
change. -/
theorem storeX87_spec {target : Src} {s : M} {T : Int} {c : List Ins} (ht : target.At s T) (h : storeX87 target = some c)
    (hT : s.reg SP ≤ T ∨ T + 16 ≤ s.reg SP - 16) :
    (∀ j : Nat, j < 10 → (run s c).mem (T + j) = byteAt (s.reg ST0) j) ∧
      (∀ x, (x < T ∨ T + 16 ≤ x) → (x < s.reg SP - 16 ∨ s.reg SP ≤ x) → (run s c).mem x = s.mem x) ∧
      (∀ x, x ≠ AX → x ≠ CX → x ≠ R11 → (run s c).reg x = s.reg x) ∧
      ∀ y ∈ touches s c, ∀ x, y.1 ≤ x → x < y.1 + y.2 → target.own s T 16 x ∨ (s.reg SP - 16 ≤ x ∧ x < s.reg SP) := by
  cases target with
  | imm _ => exact ht.elim
  | addr _ => exact ht.elim
  | place p =>
    simp only [storeX87] at h
    obtain ⟨a, ha, h⟩ := Option.bind_eq_some_iff.mp h
    simp only [Option.some.injEq] at h
    subst h
    rw [run_cons, run_nil]
    simp only [step]
    rw [ea_place ha, ht.2]
    refine ⟨fun j hj => ?_, fun x hx _ => ?_, fun x _ _ _ => rfl, fun y hy x h1 h2 => ?_⟩
    · rw [write_mem, wr_le hj]
    · rw [write_mem, wr_out (by simp; omega)]
    · simp only [touches, Ins.touches, List.append_nil, List.mem_singleton] at hy
      rw [hy, ea_place ha, ht.2] at h1 h2
      exact .inl (.inl ⟨h1, by simp at h2; omega⟩)
  | deref p o =>
    simp only [storeX87] at h
    obtain ⟨d, hd, h⟩ := Option.bind_eq_some_iff.mp h
    simp only [Option.some.injEq] at h
    subst h
    obtain ⟨a1, a2, a3⟩ := loadAddress_spec (s := s) hd (by decide) (At.pointer ht)
    rw [At.object ht] at a3
    have hSP : (run s d).reg SP = s.reg SP := a2 SP (by decide) (by decide)
    have hST : (run s d).reg ST0 = s.reg ST0 := a2 ST0 (by decide) (by decide)
    have hTo := loadAddress_touches hd ht
    rw [run_append]
    generalize hu : run s d = u at *
    have n1 : CX ≠ SP := by decide
    have n2 : ST0 ≠ SP := by decide
    have n3 : CX ≠ AX := by decide
    have n4 : SP ≠ AX := by decide
    obtain ⟨m1, hm1⟩ : ∃ m, m = wr u.mem (s.reg SP - 16) (le 10 (s.reg ST0)) := ⟨_, rfl⟩
    obtain ⟨m2, hm2⟩ : ∃ m, m = wr m1 T (le 8 (val (rd m1 (s.reg SP - 16) 8))) := ⟨_, rfl⟩
    obtain ⟨m3, hm3⟩ : ∃ m, m = wr m2 (T + 8) (le 8 (val (rd m2 (s.reg SP - 8) 8))) := ⟨_, rfl⟩
    have r1 : run u [.addi SP (-16), .st 10 ST0 (.base SP 0), .pop AX, .st 8 AX (.base CX 0), .pop AX, .st 8 AX (.base CX 8)] =
        { reg := fun x => if x = AX then val (rd m2 (s.reg SP - 8) 8) else u.reg x, mem := m3 } := by
      have e1 : s.reg SP + -16 + 0 = s.reg SP - 16 := by omega
      have e2 : s.reg SP - 16 + 8 = s.reg SP - 8 := by omega
      have e3 : s.reg SP + -16 = s.reg SP - 16 := by omega
      simp only [run_cons, run_nil, step, M.ea, M.set, M.write, n1, n2, n3, n4, if_false, if_true, hSP, hST, a3, e1, e2, e3,
        Int.add_zero, ← hm1, ← hm2, ← hm3]
      rw [M.mk.injEq]
      refine ⟨?_, rfl⟩
      funext x
      by_cases q : x = AX
      · simp only [q, if_true]
      · by_cases q' : x = SP
        · subst q'; simp only [if_true, n4, if_false, hSP]; omega
        · simp only [q, q', if_false]
    have h1 : ∀ j : Nat, j < 10 → m1 (s.reg SP - 16 + j) = byteAt (s.reg ST0) j := fun j hj => by
      rw [hm1, wr_le hj]
    rw [r1]
    refine ⟨fun j hj => ?_, fun x hx hx' => ?_, fun x g1 g2 g3 => ?_, fun y hy x g1 g2 => ?_⟩
    · show m3 _ = _
      by_cases h8 : j < 8
      · rw [hm3, wr_out (by simp; omega)]
        rw [hm2, wr_le h8, byteAt_val_rd h8, h1 j hj]
      · rw [hm3, show T + (j : Int) = T + 8 + ((j - 8 : Nat) : Int) by omega, wr_le (by omega), byteAt_val_rd (by omega)]
        rw [hm2, wr_out (by simp; omega), show s.reg SP - 8 + ((j - 8 : Nat) : Int) = s.reg SP - 16 + (j : Int) by omega, h1 j hj]
    · show m3 _ = _
      rw [hm3, wr_out (by simp; omega), hm2, wr_out (by simp; omega), hm1, wr_out (by simp; omega), a1]
    · simp only [g1, if_false]
      exact a2 x g2 g3
    · rw [touches_append, hu] at hy
      rcases List.mem_append.mp hy with hy | hy
      · exact .inl (.inr (hTo y hy x g1 g2))
      · simp only [touches, Ins.touches, step, M.ea, M.set, M.write, n1, n2, n3, n4, if_false, if_true, hSP, a3,
          List.mem_append, List.mem_cons, List.not_mem_nil, or_false, false_or] at hy
        rcases hy with rfl | rfl | rfl | rfl | rfl
        · simp only at g1 g2; exact .inr ⟨by omega, by omega⟩
        · simp only at g1 g2; exact .inr ⟨by omega, by omega⟩
        · simp only at g1 g2; exact .inl (.inl ⟨by omega, by omega⟩)
        · simp only at g1 g2; exact .inr ⟨by omega, by omega⟩
        · simp only at g1 g2; exact .inl (.inl ⟨by omega, by omega⟩)

theorem At.ofFixed {W E} {s : M} {O : Int} {src : Src} (h : src.Fixed W E s O) : src.At s O := by
  cases src with
  | imm _ => exact h.elim
  | addr _ => exact h.elim
  | place p => exact h
  | deref p o =>
    refine ⟨?_, h.2⟩
    cases p with
    | temp r => exact ⟨h.1.1, fun hf => hf, h.1.2.2⟩
    | frame o => intro j _ hf; exact hf
    | global a => intro j _ hf; exact hf

theorem cell_congr {s u : M} (hb : u.reg BP = s.reg BP) (src : Src) (x : Int) : src.cell u x ↔ src.cell s x := by
  cases src with
  | deref p o =>
    cases p with
    | frame o => simp only [Src.cell, Place.address]; rw [hb]
    | _ => exact Iff.rfl
  | _ => exact Iff.rfl

/-- A copy by way of the x87 stack. -/
theorem assign_x87 {l target : Src} {s : M} {S T : Int} {c d : List Ins} (hl : l.At s S)
    (ht : target.Fixed (fun x => s.reg SP - 16 ≤ x ∧ x < s.reg SP) (fun _ => False) s T)
    (hS : s.reg SP ≤ S ∨ S + 16 ≤ s.reg SP - 16) (hT : s.reg SP ≤ T ∨ T + 16 ≤ s.reg SP - 16)
    (hc : loadX87 l = some c) (hd : storeX87 target = some d) :
    (∀ j : Nat, j < 10 → (run s (c ++ d)).mem (T + j) = s.mem (S + j)) ∧
      (∀ x, (x < T ∨ T + 16 ≤ x) → (x < s.reg SP - 16 ∨ s.reg SP ≤ x) → (run s (c ++ d)).mem x = s.mem x) ∧
      (∀ x, x ≠ AX → x ≠ CX → x ≠ SI → x ≠ ST0 → x ≠ R11 → (run s (c ++ d)).reg x = s.reg x) ∧
      ∀ y ∈ touches s (c ++ d), ∀ x, y.1 ≤ x → x < y.1 + y.2 →
        l.own s S 16 x ∨ target.own s T 16 x ∨ (s.reg SP - 16 ≤ x ∧ x < s.reg SP) := by
  obtain ⟨a1, a2, a3, a4⟩ := loadX87_spec hl hc hS
  have hE : ¬ (fun x => x = ST0) BP := by decide
  have ht' : target.Fixed (fun x => s.reg SP - 16 ≤ x ∧ x < s.reg SP) (fun x => x = ST0) s T := by
    cases target with
    | imm _ => exact ht.elim
    | addr _ => exact ht.elim
    | place p => exact ht
    | deref p o =>
      refine ⟨?_, ht.2⟩
      cases p with
      | temp r =>
        refine ⟨ht.1.1, ?_, ht.1.2.2⟩
        rintro rfl
        exact absurd ht.1.1 (by decide)
      | frame o => exact ht.1
      | global a => exact ht.1
  have hn : Near (fun x => s.reg SP - 16 ≤ x ∧ x < s.reg SP) (fun x => x = ST0) s (run s c) := by
    refine ⟨fun x hx => a2 x ?_, fun r hr he => a3 r ?_ he ?_⟩
    · by_contra hcon; exact hx ⟨by omega, by omega⟩
    · rintro rfl; exact hr (by decide)
    · rintro rfl; exact hr (by decide)
  have hSP : (run s c).reg SP = s.reg SP := a3 SP (by decide) (by decide) (by decide)
  have hat := At.ofFixed (Fixed.near hn hE ht')
  obtain ⟨b1, b2, b3, b4⟩ := storeX87_spec hat hd (by rw [hSP]; exact hT)
  rw [hSP] at b2 b4
  rw [run_append]
  refine ⟨fun j hj => by rw [b1 j hj, a1 j hj], fun x h1 h2 => by rw [b2 x h1 h2, a2 x h2],
    fun x h1 h2 h3 h4 h5 => by rw [b3 x h1 h2 h5, a3 x h3 h4 h5], fun y hy x h1 h2 => ?_⟩
  rw [touches_append] at hy
  rcases List.mem_append.mp hy with hy | hy
  · rcases a4 y hy x h1 h2 with h | h
    · exact .inl h
    · exact .inr (.inr h)
  · rcases b4 y hy x h1 h2 with (h | h) | h
    · exact .inr (.inl (.inl h))
    · exact .inr (.inl (.inr ((cell_congr (a3 BP (by decide) (by decide) (by decide)) target x).mp h)))
    · exact .inr (.inr h)

end Verif.Abi
