import Verif.Abi.EnterLemmas

namespace Verif.Abi

theorem saveTemps_spec : ∀ (m : Nat) (s : M),
    (run s (saveTemps m)).reg SP = s.reg SP - 16 * m ∧
    (∀ r, r ≠ SP → (run s (saveTemps m)).reg r = s.reg r) ∧
    (∀ x, x < s.reg SP - 16 * m ∨ s.reg SP ≤ x → (run s (saveTemps m)).mem x = s.mem x) ∧
    ∀ i, i < m → ∀ j : Nat, j < 8 →
      (run s (saveTemps m)).mem (s.reg SP - 16 * ((i : Nat) + 1) + j) = byteAt (s.reg (XMM (8 + i))) j
  | 0, s => by simp [saveTemps]
  | m + 1, s => by
    obtain ⟨h1, h2, h3, h4⟩ := saveTemps_spec m s
    simp only [saveTemps, run_append, run_cons, run_nil, step_addi, step_st]
    generalize run s (saveTemps m) = t at *
    have hx : ∀ n, XMM n ≠ SP := by intro n; simp only [XMM, SP]; omega
    have hea : (t.set SP (t.reg SP + -16)).ea (.base SP 0) = s.reg SP - 16 * (m + 1) := by
      show (t.set SP (t.reg SP + -16)).reg SP + 0 = _
      rw [set_reg, if_pos rfl, h1]; omega
    rw [hea]
    refine ⟨?_, ?_, ?_, ?_⟩
    · rw [write_reg, set_reg, if_pos rfl, h1]; push_cast; omega
    · intro r hr
      rw [write_reg, set_reg, if_neg hr, h2 r hr]
    · intro x hx
      push_cast at hx
      rw [write_mem, wr_out (by simp; omega), set_mem, h3 x (by omega)]
    · intro i hi j hj
      by_cases e : i = m
      · subst e
        rw [write_mem, wr_le hj, set_reg, if_neg (hx _), h2 _ (hx _)]
      · rw [write_mem, wr_out (by simp; omega), set_mem, h4 i (by omega) j hj]

theorem sseUsed_le : ∀ (ts : List Ty) (i s : Nat) (l : List (PC × Bool)), classifyAll ts i s = some l → s ≤ 8 →
    s + sseUsed l ≤ 8
  | [], i, s, l, h, hs => by
    simp only [classifyAll, Option.some.injEq] at h
    subst h; simpa [sseUsed] using hs
  | t :: ts, i, s, l, h, hs => by
    simp only [classifyAll] at h
    obtain ⟨pc, _, h⟩ := Option.bind_eq_some_iff.mp h
    by_cases q : alloc pc i s = true
    · simp only [if_pos q] at h
      obtain ⟨l', hl', h⟩ := Option.bind_eq_some_iff.mp h
      simp only [Option.some.injEq] at h
      subst h
      have := sseUsed_le ts _ _ l' hl' (by simp [alloc] at q; omega)
      simp only [sseUsed, if_true]
      omega
    · simp only [if_neg q] at h
      obtain ⟨l', hl', h⟩ := Option.bind_eq_some_iff.mp h
      simp only [Option.some.injEq] at h
      subst h
      have := sseUsed_le ts _ _ l' hl' hs
      simp only [sseUsed, Bool.false_eq_true, if_false]
      omega

/-- The stack a call uses: saved registers, arguments, return address. -/
structure Called (s0 : M) (m : Nat) (c : Call) (ra : Int) (used : Nat) (l : List (PC × Bool)) (t : M) : Prop where
  aligned : used % 16 = 0
  classes : classifyAll (c.args.map (·.ty)) (if c.result.isSome then 1 else 0) 0 = some l
  mem : memUsed (c.args.map (·.ty)) l ≤ used
  sp : t.reg SP = s0.reg SP - 16 * m - used - 8
  kept : ∀ r, Kept r → t.reg r = s0.reg r
  outside : ∀ x, x < t.reg SP ∨ s0.reg SP ≤ x → t.mem x = s0.mem x
  ra : ∀ j : Nat, j < 8 → t.mem (t.reg SP + j) = byteAt ra j
  temps : ∀ i, i < m → ∀ j : Nat, j < 8 → t.mem (s0.reg SP - 16 * ((i : Nat) + 1) + j) = byteAt (s0.reg (XMM (8 + i))) j
  stack : StackHolds s0 t.mem (t.reg SP + 8) c.args l
  regs : RegsHold s0 t.reg c.args l (if c.result.isSome then 1 else 0) 0
  al : c.vararg = true → t.reg AX = sseUsed l
  result : ∀ a, c.result = some a → t.reg DI = a.src.object s0
  fn : ∀ f, c.fn = some f → ∀ j, j < 8 → byteAt (t.reg R11) j = f.byte s0 j

/-- What a call needs.  From `lo` to `%rsp` is the stack for it. -/
structure Call.Good (s0 : M) (lo : Int) (c : Call) : Prop where
  args : ∀ a ∈ c.args, a.Good s0 lo (s0.reg SP)
  stack : ∀ l, classifyAll (c.args.map (·.ty)) (if c.result.isSome then 1 else 0) 0 = some l → StackOk c.args l
  result : ∀ a, c.result = some a → a.src.Ok s0 lo (s0.reg SP) a.ty ∧ a.ty.scalar = none
  fn : ∀ f, c.fn = some f → f.Ok s0 lo (s0.reg SP) .ptr

theorem not_param {r : Nat} (h : r = AX ∨ r = DI ∨ r = R11 ∨ r = SP) (i : Nat) (hi : r = DI → 0 < i) :
    r ∉ paramInt.drop i ∧ r ∉ paramSse.drop 0 := by
  constructor
  · intro hm
    rcases Nat.eq_zero_or_pos i with rfl | hp
    · have : r ≠ DI := fun e => by have := hi e; omega
      have hm := List.mem_of_mem_drop hm
      rcases h with rfl | rfl | rfl | rfl <;> revert hm this <;> decide
    · obtain ⟨n, rfl⟩ : ∃ n, i = 1 + n := ⟨i - 1, by omega⟩
      rw [← List.drop_drop] at hm
      have hm := List.mem_of_mem_drop hm
      rcases h with rfl | rfl | rfl | rfl <;> revert hm <;> decide
  · intro hm
    have hm := List.mem_of_mem_drop hm
    rcases h with rfl | rfl | rfl | rfl <;> revert hm <;> decide

theorem call_spec {s0 : M} {lo ra : Int} {m used : Nat} {c : Call} {code : List Ins}
    (hc : callCode m c ra = some (code, used)) (hg : c.Good s0 lo) (h0 : 0 ≤ lo) (h64 : s0.reg SP < 256 ^ 8)
    (hlo : lo ≤ s0.reg SP - 16 * m - used - 8) : ∃ l, Called s0 m c ra used l (run s0 code) := by
  unfold callCode at hc
  obtain ⟨⟨args, used'⟩, ha, hc⟩ := Option.bind_eq_some_iff.mp hc
  obtain ⟨res, hres, hc⟩ := Option.bind_eq_some_iff.mp hc
  obtain ⟨fn, hfn, hc⟩ := Option.bind_eq_some_iff.mp hc
  simp only [Option.some.injEq, Prod.mk.injEq] at hc
  obtain ⟨rfl, rfl⟩ := hc
  unfold pushFunctionArguments at ha
  obtain ⟨l, hl, ha⟩ := Option.bind_eq_some_iff.mp ha
  obtain ⟨pushes, hp, ha⟩ := Option.bind_eq_some_iff.mp ha
  obtain ⟨loads, hld, ha⟩ := Option.bind_eq_some_iff.mp ha
  simp only [Option.some.injEq, Prod.mk.injEq] at ha
  obtain ⟨rfl, hu⟩ := ha
  refine ⟨l, ?_⟩
  generalize hi0 : (if c.result.isSome = true then 1 else 0 : Nat) = i0 at *
  -- saved registers
  obtain ⟨a1, a2, a3, a4⟩ := saveTemps_spec m s0
  simp only [run_append]
  generalize run s0 (saveTemps m) = s1 at *
  have hm8 : memUsed (c.args.map (·.ty)) l ≤ used' ∧ used' % 16 = 0 := by
    have : memUsed (c.args.map (·.ty)) l % 8 = 0 := by
      clear * -
      induction c.args generalizing l with
      | nil => simp [memUsed]
      | cons a as ih =>
        cases l with
        | nil => simp [memUsed]
        | cons x l =>
          obtain ⟨pc, b⟩ := x
          simp only [List.map_cons, memUsed]
          have := ih l
          split_ifs <;> omega
    split_ifs at hu <;> omega
  -- padding
  have hs2 : ∃ s2, s2 = run s1 (if memUsed (c.args.map (·.ty)) l % 16 ≠ 0 then [Ins.addi SP (-8)] else []) ∧
      s2.reg SP - memUsed (c.args.map (·.ty)) l = s0.reg SP - 16 * m - used' ∧ (∀ r, r ≠ SP → s2.reg r = s1.reg r) ∧
      s2.mem = s1.mem := by
    refine ⟨_, rfl, ?_⟩
    by_cases hq : memUsed (c.args.map (·.ty)) l % 16 ≠ 0
    · rw [if_pos hq] at hu ⊢
      refine ⟨?_, ?_, rfl⟩
      · simp only [run_cons, run_nil, step_addi]
        rw [set_reg, if_pos rfl, a1]; omega
      · intro r hr
        simp only [run_cons, run_nil, step_addi]
        rw [set_reg, if_neg hr]
    · rw [if_neg hq] at hu ⊢
      refine ⟨?_, fun _ _ => rfl, rfl⟩
      rw [run_nil, a1]; omega
  obtain ⟨s2, hs2, b1, b2, b3⟩ := hs2
  rw [← hs2]
  clear hs2
  have hkept : ∀ r, Kept r → r ≠ SP ∧ r ≠ AX ∧ r ≠ DI ∧ r ≠ R11 := by
    intro r hr
    have : ¬ Scratch r := not_scratch_of_kept hr
    refine ⟨?_, ?_, ?_, ?_⟩ <;> rintro rfl <;> exact this (by simp [Scratch])
  have hsame2 : Same s0 lo (s0.reg SP) s2 := by
    refine ⟨fun r hr => by rw [b2 r (hkept r hr).1, a2 r (hkept r hr).1], fun x hx => ?_⟩
    rw [b3, a3 x (by omega)]
  obtain ⟨p1, p2, p3, p4⟩ := pushAll_spec h0 h64 c.args l pushes s2 hp hg.args (hg.stack l (by rw [hi0]; exact hl)) hsame2
    (by rw [b1]; omega) (by omega)
  generalize run s2 pushes = s3 at *
  rw [b1] at p1
  rw [p1] at p3 p4
  have hsame3 : Same s0 lo (s0.reg SP) s3 := by
    refine ⟨fun r hr => by rw [p2 r (not_scratch_of_kept hr), hsame2.reg r hr], fun x hx => ?_⟩
    rw [p3 x (by omega), hsame2.mem x hx]
  obtain ⟨q1, q2, q3⟩ := loadAll_spec c.args l i0 0 loads s3 hld hg.args hsame3
  generalize run s3 loads = s4 at *
  have hi01 : i0 = 0 ∨ i0 = 1 := by rw [← hi0]; split_ifs <;> simp
  have hnp : ∀ r, Kept r → r ∉ paramInt.drop i0 ∧ r ∉ paramSse.drop 0 := by
    intro r hr
    constructor
    · intro hm
      exact (ArgReg.not_kept (.inl (List.mem_of_mem_drop hm))) hr
    · intro hm
      exact (ArgReg.not_kept (.inr (.inl (List.mem_of_mem_drop hm)))) hr
  have hsp4 : s4.reg SP = s0.reg SP - 16 * m - used' := by
    have := not_param (r := SP) (by simp) i0 (fun h => absurd h (by decide))
    rw [q2 SP (by decide) this.1 this.2, p1]
  have hsame4 : Same s0 lo (s0.reg SP) s4 := by
    refine ⟨fun r hr => ?_, fun x hx => by rw [q1]; exact hsame3.mem x hx⟩
    rw [q2 r (hkept r hr).2.2.2 (hnp r hr).1 (hnp r hr).2, hsame3.reg r hr]
  have hsse := sseUsed_le _ _ _ l hl (by omega)
  -- the number of vector registers
  obtain ⟨s5, hs5, c1, c2, c3⟩ : ∃ s5, s5 = run s4 (if c.vararg then [Ins.movi 4 AX (sseUsed l)] else []) ∧
      (∀ r, r ≠ AX → s5.reg r = s4.reg r) ∧ s5.mem = s4.mem ∧ (c.vararg = true → s5.reg AX = sseUsed l) := by
    refine ⟨_, rfl, ?_⟩
    cases c.vararg with
    | false => exact ⟨fun _ _ => rfl, rfl, by simp⟩
    | true =>
      simp only [if_true]
      refine ⟨fun r hr => by simp [step, hr], rfl, fun _ => ?_⟩
      simp [step, merged]
      omega
  rw [← hs5]
  clear hs5
  have hsame5 : Same s0 lo (s0.reg SP) s5 :=
    ⟨fun r hr => by rw [c1 r (hkept r hr).2.1, hsame4.reg r hr], fun x hx => by rw [c2]; exact hsame4.mem x hx⟩
  -- the address of the result
  obtain ⟨d1, d2, d3⟩ : (run s5 res).mem = s5.mem ∧
      (∀ r, r ≠ R11 → (c.result.isSome = true → r ≠ DI) → (run s5 res).reg r = s5.reg r) ∧
      ∀ a, c.result = some a → (run s5 res).reg DI = a.src.object s0 := by
    cases hr : c.result with
    | none =>
      rw [hr] at hres
      simp only [resultCode, Option.some.injEq] at hres
      subst hres
      simp
    | some a =>
      rw [hr] at hres
      obtain ⟨hok, hsc⟩ := hg.result a hr
      obtain ⟨e1, e2, e3⟩ := loadAddress_ok hsame5 hok hsc (by decide) hres
      refine ⟨e1, fun r h1 h2 => e2 r (h2 rfl) h1, ?_⟩
      intro a' ha'
      simp only [Option.some.injEq] at ha'
      subst ha'
      rw [e3, hsame5.object hok]
  generalize run s5 res = s6 at *
  have hsame6 : Same s0 lo (s0.reg SP) s6 :=
    ⟨fun r hr => by rw [d2 r (hkept r hr).2.2.2 (fun _ => (hkept r hr).2.2.1), hsame5.reg r hr],
      fun x hx => by rw [d1]; exact hsame5.mem x hx⟩
  -- the address of the function
  obtain ⟨f1, f2, f3⟩ : (run s6 fn).mem = s6.mem ∧ (∀ r, r ≠ R11 → (run s6 fn).reg r = s6.reg r) ∧
      ∀ f, c.fn = some f → ∀ j, j < 8 → byteAt ((run s6 fn).reg R11) j = f.byte s0 j := by
    cases hf : c.fn with
    | none =>
      rw [hf] at hfn
      simp only [fnCode, Option.some.injEq] at hfn
      subst hfn
      simp
    | some f =>
      rw [hf] at hfn
      have hok := hg.fn f hf
      have hL := load_loads (show load 8 .unsigned f R11 = some fn from hfn) (hsame6.sound hok rfl) (by omega)
      refine ⟨hL.mem, fun r hr => hL.reg r hr hr, ?_⟩
      intro f' hf' j hj
      simp only [Option.some.injEq] at hf'
      subst hf'
      rw [hL.byte j hj, hsame6.byte hok (by exact hj)]
  generalize run s6 fn = s7 at *
  have hsp7 : s7.reg SP = s0.reg SP - 16 * m - used' := by
    rw [f2 SP (by decide), d2 SP (by decide) (fun _ => by decide), c1 SP (by decide), hsp4]
  have hmem7 : s7.mem = s3.mem := by rw [f1, d1, c2, q1]
  have e8 : run s7 [.call ra] = s7.pushBytes (le 8 ra) := rfl
  rw [e8]
  have hreg8 : ∀ r, r ≠ SP → (s7.pushBytes (le 8 ra)).reg r = s7.reg r := fun r hr => by rw [pushBytes_reg, if_neg hr]
  have hsp8 : (s7.pushBytes (le 8 ra)).reg SP = s0.reg SP - 16 * m - used' - 8 := by
    rw [pushBytes_reg, if_pos rfl, hsp7]
  have hmem8 : (s7.pushBytes (le 8 ra)).mem = wr s3.mem (s0.reg SP - 16 * m - used' - 8) (le 8 ra) := by
    rw [pushBytes_mem, hsp7, hmem7]
  have hab : ∀ x, s0.reg SP - 16 * m - used' ≤ x → (s7.pushBytes (le 8 ra)).mem x = s3.mem x := by
    intro x hx
    rw [hmem8, wr_out (by simp; omega)]
  have hregs : ∀ r, r ≠ SP → r ≠ AX → r ≠ R11 → (c.result.isSome = true → r ≠ DI) →
      (s7.pushBytes (le 8 ra)).reg r = s4.reg r := by
    intro r h1 h2 h3 h4
    rw [hreg8 r h1, f2 r h3, d2 r h3 h4, c1 r h2]
  refine ⟨hm8.2, by rw [hi0]; exact hl, hm8.1, hsp8, ?_, ?_, ?_, ?_, ?_, ?_, ?_, ?_, ?_⟩
  · intro r hr
    have h := hkept r hr
    rw [hregs r h.1 h.2.1 h.2.2.2 (fun _ => h.2.2.1), hsame4.reg r hr]
  · rw [hsp8]
    intro x hx
    rw [hmem8, wr_out (by simp; omega), p3 x (by omega), b3, a3 x (by omega)]
  · rw [hsp8]
    intro j hj
    rw [hmem8, wr_le hj]
  · intro i hi j hj
    rw [hab _ (by omega), p3 _ (by omega), b3, a4 i hi j hj]
  · rw [hsp8, show s0.reg SP - 16 * m - used' - 8 + 8 = s0.reg SP - 16 * m - used' by omega]
    exact p4.congr fun x hx _ => hab x hx
  · rw [hi0]
    refine q3.congr fun x hx => ?_
    have hne : ∀ r, r = AX ∨ r = DI ∨ r = R11 ∨ r = SP → (r = DI → 0 < i0) → x ≠ r := by
      rintro r hr hi rfl
      have := not_param hr i0 hi
      rcases hx with hx | hx
      · exact this.1 hx
      · exact this.2 hx
    refine hregs x (hne SP (by simp) (fun h => absurd h (by decide))) (hne AX (by simp) (fun h => absurd h (by decide)))
      (hne R11 (by simp) (fun h => absurd h (by decide))) (fun hs => hne DI (by simp) (fun _ => ?_))
    rw [← hi0, if_pos hs]; decide
  · intro hv
    rw [hreg8 AX (by decide), f2 AX (by decide), d2 AX (by decide) (fun _ => by decide), c3 hv]
  · intro a ha
    rw [hreg8 DI (by decide), f2 DI (by decide), d3 a ha]
  · intro f hf j hj
    rw [hreg8 R11 (by decide), f3 f hf j hj]

end Verif.Abi
