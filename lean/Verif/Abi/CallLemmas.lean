import Verif.Abi.PushLemmas

namespace Verif.Abi

/-- What is required of an argument. -/
structure Arg.Good (s0 : M) (lo hi : Int) (a : Arg) : Prop where
  laid : SysV.laidOut a.ty = true
  ok : a.src.Ok s0 lo hi a.ty
  small : a.ty.size < 2 ^ 31

/-- No argument which goes to the stack is in a vector register. -/
def StackOk : List Arg → List (PC × Bool) → Prop
  | a :: as, (_, b) :: l => (b = false → ∀ r, a.src = .place (.temp r) → ¬ isTempSse r) ∧ StackOk as l
  | _, _ => True

/-- The arguments in memory are at their offsets from `sp`. -/
def StackHolds (s0 : M) (m : Mem) (sp : Int) : List Arg → List (PC × Bool) → Prop
  | a :: as, (_, b) :: l =>
    if b then StackHolds s0 m sp as l
    else (∀ j : Nat, j < a.ty.size → m (sp + j) = a.src.byte s0 j) ∧
      StackHolds s0 m (sp + 8 * eightbytes a.ty) as l
  | _, _ => True

theorem StackHolds.congr {s0 : M} {m m' : Mem} : ∀ {as : List Arg} {l : List (PC × Bool)} {sp : Int},
    (∀ x, sp ≤ x → x < sp + memUsed (as.map (·.ty)) l → m' x = m x) → StackHolds s0 m sp as l → StackHolds s0 m' sp as l
  | [], _, _, _, _ => by simp [StackHolds]
  | _ :: _, [], _, _, _ => by simp [StackHolds]
  | a :: as, (pc, b) :: l, sp, h, hs => by
    simp only [StackHolds, List.map_cons, memUsed] at *
    cases b with
    | true =>
      simp only [if_true] at *
      exact StackHolds.congr (fun x hx hx' => h x hx (by omega)) hs
    | false =>
      simp only [Bool.false_eq_true, if_false] at *
      have hn : a.ty.size ≤ 8 * eightbytes a.ty := by simp only [eightbytes]; omega
      refine ⟨fun j hj => ?_, StackHolds.congr (fun x hx hx' => h x (by omega) (by omega)) hs.2⟩
      rw [h _ (by omega) (by omega)]
      exact hs.1 j hj

theorem not_scratch_of_kept {r} (h : Kept r) : ¬ Scratch r := fun hs => hs.not_kept h

theorem pushAll_spec {s0 : M} {lo hi : Int} (h0 : 0 ≤ lo) (h64 : hi < 256 ^ 8) :
    ∀ (as : List Arg) (l : List (PC × Bool)) (code : List Ins) (s : M), pushAll as l = some code →
      (∀ a ∈ as, a.Good s0 lo hi) → StackOk as l → Same s0 lo hi s →
      lo ≤ s.reg SP - memUsed (as.map (·.ty)) l → s.reg SP ≤ hi →
      (run s code).reg SP = s.reg SP - memUsed (as.map (·.ty)) l ∧
      (∀ r, ¬ Scratch r → (run s code).reg r = s.reg r) ∧
      (∀ x, x < (run s code).reg SP ∨ s.reg SP ≤ x → (run s code).mem x = s.mem x) ∧
      StackHolds s0 (run s code).mem ((run s code).reg SP) as l
  | [], l, code, s, hc, _, _, _, _, _ => by
    simp only [pushAll, Option.some.injEq] at hc
    subst hc
    simp [memUsed, StackHolds]
  | a :: as, [], code, s, hc, _, _, _, _, _ => by
    simp only [pushAll, Option.some.injEq] at hc
    subst hc
    simp [memUsed, StackHolds]
  | a :: as, (pc, b) :: l, code, s, hc, hg, hso, hsame, hlo, hhi => by
    simp only [pushAll] at hc
    obtain ⟨rest, hr, hc⟩ := Option.bind_eq_some_iff.mp hc
    simp only [List.map_cons, memUsed] at hlo
    have ih := pushAll_spec h0 h64 as l rest s hr (fun a ha => hg a (List.mem_cons_of_mem _ ha)) hso.2 hsame
      (by split_ifs at hlo <;> omega) hhi
    cases b with
    | true =>
      simp only [if_true, Option.some.injEq] at hc
      subst hc
      simpa [memUsed, StackHolds] using ih
    | false =>
      simp only [Bool.false_eq_true, if_false] at hc hlo
      obtain ⟨p, hp, hc⟩ := Option.bind_eq_some_iff.mp hc
      simp only [Option.some.injEq] at hc
      subst hc
      obtain ⟨i1, i2, i3, i4⟩ := ih
      have hga := hg a (List.mem_cons_self ..)
      have hsame' : Same s0 lo hi (run s rest) := by
        refine ⟨fun r hr => ?_, fun x hx => ?_⟩
        · rw [i2 r (not_scratch_of_kept hr)]; exact hsame.reg r hr
        · rw [i3 x (by omega)]; exact hsame.mem x hx
      have hp' := push_pushed hsame' hga.laid hga.ok hga.small hp (hso.1 rfl) (by omega) (by omega) h0 h64
      have e1 := hp'.sp
      have hn : a.ty.size ≤ 8 * eightbytes a.ty := by simp only [eightbytes]; omega
      refine ⟨?_, ?_, ?_, ?_⟩
      · rw [run_append, e1, i1]
        simp only [List.map_cons, memUsed, Bool.false_eq_true, if_false]
        omega
      · intro r hr; rw [run_append, hp'.reg r hr, i2 r hr]
      · intro x hx
        rw [run_append] at hx ⊢
        rw [hp'.mem x (by omega), i3 x (by omega)]
      · rw [run_append]
        simp only [StackHolds, Bool.false_eq_true, if_false]
        refine ⟨hp'.byte, ?_⟩
        rw [e1, show (run s rest).reg SP - 8 * (eightbytes a.ty : Int) + 8 * eightbytes a.ty = (run s rest).reg SP by omega]
        refine StackHolds.congr (fun x hx _ => hp'.mem x (by omega)) i4

/-! ### Registers -/

abbrev Slice := Nat × Nat × Kind × Nat

theorem slices_mem {t : Ty} {pc : PC} : ∀ (n i : Nat) (ir sr : List Nat) (l : List Slice),
    slices t pc n i ir sr = some l → ∀ e ∈ l, i ≤ e.1 ∧ e.1 < i + n ∧ sliceType t pc e.1 = some (e.2.1, e.2.2.1) ∧
      (e.2.2.2 ∈ ir.take ((pc.drop i).count .integer) ∨ e.2.2.2 ∈ sr.take ((pc.drop i).count .sse))
  | 0, i, ir, sr, l, h => by
    simp only [slices, Option.some.injEq] at h
    subst h; simp
  | n + 1, i, ir, sr, l, h => by
    simp only [slices] at h
    obtain ⟨⟨w, k⟩, hw, h⟩ := Option.bind_eq_some_iff.mp h
    simp only at h
    have hi : pc[i]? = some .integer ∨ pc[i]? = some .sse := by
      unfold sliceType at hw
      by_contra hc
      rw [if_neg hc] at hw
      simp at hw
    have hlt : i < pc.length := by
      rcases hi with hi | hi <;> exact (List.getElem?_eq_some_iff.mp hi).1
    have hd : pc.drop i = pc[i] :: pc.drop (i + 1) := List.drop_eq_getElem_cons hlt
    by_cases hint : pc[i]? = some .integer
    · rw [if_pos hint] at h
      obtain ⟨r, hr, h⟩ := Option.bind_eq_some_iff.mp h
      obtain ⟨rest, hrest, h⟩ := Option.bind_eq_some_iff.mp h
      simp only [Option.some.injEq] at h
      subst h
      have hget : pc[i] = .integer := by
        rw [List.getElem?_eq_getElem hlt] at hint
        simpa using hint
      cases ir with
      | nil => simp at hr
      | cons x ir =>
        simp only [List.head?_cons, Option.some.injEq] at hr
        subst hr
        intro e he
        rw [hd, hget]
        simp only [List.count_cons_self, List.take_succ_cons, List.mem_cons]
        rcases List.mem_cons.mp he with rfl | he
        · exact ⟨by simp, by simp, hw, Or.inl (Or.inl rfl)⟩
        · have := slices_mem n (i + 1) ir sr rest hrest e he
          rw [List.count_cons_of_ne (by decide)]
          refine ⟨by omega, by omega, this.2.2.1, ?_⟩
          rcases this.2.2.2 with h | h
          · exact Or.inl (Or.inr h)
          · exact Or.inr h
    · rw [if_neg hint] at h
      obtain ⟨r, hr, h⟩ := Option.bind_eq_some_iff.mp h
      obtain ⟨rest, hrest, h⟩ := Option.bind_eq_some_iff.mp h
      simp only [Option.some.injEq] at h
      subst h
      have hs : pc[i]? = some .sse := by tauto
      have hget : pc[i] = .sse := by
        rw [List.getElem?_eq_getElem hlt] at hs
        simpa using hs
      cases sr with
      | nil => simp at hr
      | cons x sr =>
        simp only [List.head?_cons, Option.some.injEq] at hr
        subst hr
        intro e he
        rw [hd, hget]
        simp only [List.count_cons_self, List.take_succ_cons, List.mem_cons]
        rcases List.mem_cons.mp he with rfl | he
        · exact ⟨by simp, by simp, hw, Or.inr (Or.inl rfl)⟩
        · have := slices_mem n (i + 1) ir sr rest hrest e he
          rw [List.count_cons_of_ne (by decide)]
          refine ⟨by omega, by omega, this.2.2.1, ?_⟩
          rcases this.2.2.2 with h | h
          · exact Or.inl h
          · exact Or.inr (Or.inr h)

/-- The slices are in order of their index, each with its own register, and none is
missing. -/
theorem slices_distinct {t : Ty} {pc : PC} : ∀ (n i : Nat) (ir sr : List Nat) (l : List Slice),
    slices t pc n i ir sr = some l → (ir ++ sr).Nodup →
    l.Pairwise (fun a b => a.1 < b.1 ∧ a.2.2.2 ≠ b.2.2.2) ∧ ∀ q, i ≤ q → q < i + n → ∃ e ∈ l, e.1 = q
  | 0, i, ir, sr, l, h, _ => by
    simp only [slices, Option.some.injEq] at h
    subst h
    exact ⟨List.Pairwise.nil, fun q hq hq' => by omega⟩
  | n + 1, i, ir, sr, l, h, hnd => by
    simp only [slices] at h
    obtain ⟨⟨w, k⟩, hw, h⟩ := Option.bind_eq_some_iff.mp h
    simp only at h
    by_cases hint : pc[i]? = some .integer
    · rw [if_pos hint] at h
      obtain ⟨r, hr, h⟩ := Option.bind_eq_some_iff.mp h
      obtain ⟨rest, hrest, h⟩ := Option.bind_eq_some_iff.mp h
      simp only [Option.some.injEq] at h
      subst h
      cases ir with
      | nil => simp at hr
      | cons x ir =>
        simp only [List.head?_cons, Option.some.injEq] at hr
        subst hr
        simp only [List.cons_append, List.nodup_cons, List.mem_append] at hnd
        obtain ⟨hp, hq⟩ := slices_distinct n (i + 1) ir sr rest hrest hnd.2
        refine ⟨List.pairwise_cons.mpr ⟨fun e he => ?_, hp⟩, fun q hq1 hq2 => ?_⟩
        · have := slices_mem n (i + 1) ir sr rest hrest e he
          refine ⟨by simp only; omega, ?_⟩
          intro heq
          apply hnd.1
          simp only at heq
          rw [heq]
          rcases this.2.2.2 with h | h
          · exact Or.inl (List.mem_of_mem_take h)
          · exact Or.inr (List.mem_of_mem_take h)
        · by_cases e : q = i
          · exact ⟨_, List.mem_cons_self .., e.symm⟩
          · obtain ⟨e, he, hh⟩ := hq q (by omega) (by omega)
            exact ⟨e, List.mem_cons_of_mem _ he, hh⟩
    · rw [if_neg hint] at h
      obtain ⟨r, hr, h⟩ := Option.bind_eq_some_iff.mp h
      obtain ⟨rest, hrest, h⟩ := Option.bind_eq_some_iff.mp h
      simp only [Option.some.injEq] at h
      subst h
      cases sr with
      | nil => simp at hr
      | cons x sr =>
        simp only [List.head?_cons, Option.some.injEq] at hr
        subst hr
        have hnd2 : (ir ++ sr).Nodup := by
          refine hnd.sublist ?_
          exact List.Sublist.append_left (List.sublist_cons_self _ _) _
        have hx : x ∉ ir ++ sr := by
          have := List.nodup_append.mp hnd
          simp only [List.mem_append, not_or]
          refine ⟨fun hx => ?_, ?_⟩
          · exact this.2.2 x hx x (List.mem_cons_self ..) rfl
          · exact (List.nodup_cons.mp this.2.1).1
        obtain ⟨hp, hq⟩ := slices_distinct n (i + 1) ir sr rest hrest hnd2
        refine ⟨List.pairwise_cons.mpr ⟨fun e he => ?_, hp⟩, fun q hq1 hq2 => ?_⟩
        · have := slices_mem n (i + 1) ir sr rest hrest e he
          refine ⟨by simp only; omega, ?_⟩
          intro heq
          apply hx
          simp only at heq
          rw [heq]
          rcases this.2.2.2 with h | h
          · exact List.mem_append_left _ (List.mem_of_mem_take h)
          · exact List.mem_append_right _ (List.mem_of_mem_take h)
        · by_cases e : q = i
          · exact ⟨_, List.mem_cons_self .., e.symm⟩
          · obtain ⟨e, he, hh⟩ := hq q (by omega) (by omega)
            exact ⟨e, List.mem_cons_of_mem _ he, hh⟩

/-- The number of bytes of an object of `n` bytes in eightbyte `i`. -/
def need (n i : Nat) : Nat := min 8 (n - 8 * i)

theorem sliceType_spec {t : Ty} {pc : PC} {i w : Nat} {k : Kind} (h : sliceType t pc i = some (w, k))
    (hl : SysV.laidOut t = true) (hi : i < eightbytes t) :
    w ≤ 8 ∧ need t.size i ≤ w ∧ (t.scalar = none ∨ (i = 0 ∧ t.scalar = some (w, k))) := by
  unfold sliceType at h
  by_cases hc : pc[i]? = some .integer ∨ pc[i]? = some .sse
  case neg => rw [if_neg hc] at h; simp at h
  rw [if_pos hc] at h
  cases hs : t.scalar with
  | some x =>
    rw [hs] at h
    simp only [Option.some.injEq] at h
    subst h
    have hb := scalar_bounds hs hl
    have hz := scalar_size hs
    simp only [eightbytes] at hi
    refine ⟨by omega, by unfold need; omega, Or.inr ⟨by omega, rfl⟩⟩
  | none =>
    rw [hs] at h
    simp only [eightbytes] at hi
    simp only at h
    have key : ∀ x, x = (if (i + 1) * 8 < t.size then 8 else
        match t.size % 8 with
        | 1 => 1
        | 2 => 2
        | 3 => 4
        | 4 => 4
        | _ => 8) → x ≤ 8 ∧ need t.size i ≤ x := by
      rintro x rfl
      unfold need
      split_ifs with h1
      · omega
      · split <;> omega
    generalize hx : (if (i + 1) * 8 < t.size then 8 else
        match t.size % 8 with
        | 1 => 1
        | 2 => 2
        | 3 => 4
        | 4 => 4
        | _ => 8) = x at h
    have := key x hx.symm
    split_ifs at h with h1 h2 h3 <;>
      · simp only [Option.some.injEq, Prod.mk.injEq] at h
        exact ⟨by omega, by omega, Or.inl rfl⟩

theorem shift_byte {s : M} {src : Src} {s0 lo hi} {t : Ty} (ok : src.Ok s0 lo hi t) {i : Nat}
    (h : t.scalar = none ∨ i = 0) (j : Nat) : (src.shift (8 * i)).byte s j = src.byte s (8 * i + j) := by
  rcases h with h | rfl
  · cases src with
    | place p =>
      cases p with
      | temp r => obtain ⟨sz', k', e, hk⟩ := ok; rw [h] at e; simp at e
      | frame o =>
        simp only [Src.shift, Place.shift, Src.byte, Place.byte, Place.address]
        congr 1; push_cast; omega
      | global a =>
        simp only [Src.shift, Place.shift, Src.byte, Place.byte, Place.address]
        congr 1; push_cast; omega
    | deref p o =>
      simp only [Src.shift, Src.byte]
      congr 1; push_cast; omega
    | imm v => obtain ⟨sz', k', e, hk⟩ := ok; rw [h] at e; simp at e
    | addr p => obtain ⟨rfl, _⟩ := ok; simp [Ty.scalar] at h
  · cases src with
    | place p => cases p <;> simp [Src.shift, Place.shift, Src.byte, Place.byte, Place.address]
    | deref p o => simp [Src.shift, Src.byte]
    | imm v => simp [Src.shift, Src.byte]
    | addr p => simp [Src.shift, Src.byte]

theorem shift_sound {s : M} {src : Src} {b : Bool} (n : Nat) (h : src.Sound s b) : (src.shift n).Sound s b := by
  cases src with
  | place p => cases p <;> exact h
  | deref p o => cases p <;> exact h
  | _ => exact h

/-- Registers for arguments, and `%r11`. -/
def ArgReg (r : Nat) : Prop := r ∈ paramInt ∨ r ∈ paramSse ∨ r = R11

theorem ArgReg.not_kept {r} (h : ArgReg r) : ¬ Kept r := by
  simp only [ArgReg, paramInt, paramSse, XMM, List.mem_map, List.mem_range, List.mem_cons, List.not_mem_nil, or_false,
    Kept, isTempInt, isTempSse, AX, CX, SI, DI, DX, R8, R9, R11, SP, BP, BX, R12, R13, R14, R15] at *
  rintro hk
  rcases h with h | ⟨a, ha, rfl⟩ | h <;> omega

/-- Loading the slices of an object. -/
theorem loadSlices_spec {s0 : M} {lo hi : Int} {a : Arg} (hg : a.Good s0 lo hi) {pc : PC} :
    ∀ (sl : List Slice) (code : List Ins) (s : M), loadSlices a.src sl = some code → Same s0 lo hi s →
      sl.Pairwise (fun a b => a.1 < b.1 ∧ a.2.2.2 ≠ b.2.2.2) →
      (∀ e ∈ sl, e.1 < eightbytes a.ty ∧ sliceType a.ty pc e.1 = some (e.2.1, e.2.2.1)) →
      (∀ e ∈ sl, ¬ Kept e.2.2.2 ∧ e.2.2.2 ≠ R11) →
      (run s code).mem = s.mem ∧
      (∀ x, x ≠ R11 → (∀ e ∈ sl, e.2.2.2 ≠ x) → (run s code).reg x = s.reg x) ∧
      ∀ e ∈ sl, ∀ j, j < need a.ty.size e.1 → byteAt ((run s code).reg e.2.2.2) j = a.src.byte s0 (8 * e.1 + j)
  | [], code, s, hc, _, _, _, _ => by
    simp only [loadSlices, Option.some.injEq] at hc
    subst hc; simp
  | (i, w, k, r) :: sl, code, s, hc, hsame, hpw, hst, hreg => by
    simp only [loadSlices] at hc
    obtain ⟨l1, h1, hc⟩ := Option.bind_eq_some_iff.mp hc
    obtain ⟨l2, h2, hc⟩ := Option.bind_eq_some_iff.mp hc
    simp only [Option.some.injEq] at hc
    subst hc
    obtain ⟨hix, hty⟩ := hst _ (List.mem_cons_self ..)
    obtain ⟨hr, hr11⟩ := hreg _ (List.mem_cons_self ..)
    simp only at hix hty hr hr11
    obtain ⟨hw, hneed, hsc⟩ := sliceType_spec hty hg.laid hix
    have hsound : (a.src.shift (8 * i)).Sound s (decide (k = .real)) := by
      apply shift_sound
      rcases hsc with hsc | ⟨_, hsc⟩
      · exact hsame.sound' hg.ok hsc _
      · exact hsame.sound hg.ok hsc
    have hload := load_loads h1 hsound hw
    have hsame' : Same s0 lo hi (run s l1) := by
      refine ⟨fun x hx => ?_, fun x hx => by rw [hload.mem]; exact hsame.mem x hx⟩
      rw [hload.reg x (by rintro rfl; exact hr hx)
        (by rintro rfl; exact ArgReg.not_kept (Or.inr (Or.inr rfl)) hx)]
      exact hsame.reg x hx
    obtain ⟨hpw1, hpw2⟩ := List.pairwise_cons.mp hpw
    obtain ⟨i1, i2, i3⟩ := loadSlices_spec hg sl l2 (run s l1) h2 hsame' hpw2
      (fun e he => hst e (List.mem_cons_of_mem _ he)) (fun e he => hreg e (List.mem_cons_of_mem _ he))
    refine ⟨?_, ?_, ?_⟩
    · rw [run_append, i1, hload.mem]
    · intro x hx hx'
      rw [run_append, i2 x hx (fun e he => hx' e (List.mem_cons_of_mem _ he))]
      exact hload.reg x (fun e => hx' _ (List.mem_cons_self ..) e.symm) hx
    · intro e he j hj
      rw [run_append]
      rcases List.mem_cons.mp he with rfl | he
      · simp only at hj ⊢
        rw [i2 r hr11 (fun e' he' heq => (hpw1 e' he').2 heq.symm), hload.byte j (by omega)]
        rw [shift_byte hg.ok (by tauto)]
        exact hsame.byte hg.ok (by unfold need at hj; omega)
      · exact i3 e he j hj

/-- The arguments in registers are there. -/
def RegsHold (s0 : M) (reg : Nat → Int) : List Arg → List (PC × Bool) → (i s : Nat) → Prop
  | a :: as, (pc, b) :: l, i, s =>
    if b then
      (∀ sl, slices a.ty pc (eightbytes a.ty) 0 (paramInt.drop i) (paramSse.drop s) = some sl →
        ∀ e ∈ sl, ∀ j, j < need a.ty.size e.1 → byteAt (reg e.2.2.2) j = a.src.byte s0 (8 * e.1 + j)) ∧
      RegsHold s0 reg as l (i + ints pc) (s + sses pc)
    else RegsHold s0 reg as l i s
  | _, _, _, _ => True

theorem RegsHold.congr {s0 : M} {reg reg' : Nat → Int} : ∀ {as : List Arg} {l : List (PC × Bool)} {i s : Nat},
    (∀ x, x ∈ paramInt.drop i ∨ x ∈ paramSse.drop s → reg' x = reg x) → RegsHold s0 reg as l i s →
    RegsHold s0 reg' as l i s
  | [], _, _, _, _, _ => by simp [RegsHold]
  | _ :: _, [], _, _, _, _ => by simp [RegsHold]
  | a :: as, (pc, b) :: l, i, s, h, hs => by
    simp only [RegsHold] at *
    cases b with
    | false =>
      simp only [Bool.false_eq_true, if_false] at *
      exact RegsHold.congr h hs
    | true =>
      simp only [if_true] at *
      refine ⟨fun sl hsl e he j hj => ?_, RegsHold.congr (fun x hx => h x ?_) hs.2⟩
      · have := slices_mem _ _ _ _ _ hsl e he
        rw [h]
        · exact hs.1 sl hsl e he j hj
        · rcases this.2.2.2 with h | h
          · exact Or.inl (List.mem_of_mem_take h)
          · exact Or.inr (List.mem_of_mem_take h)
      · rcases hx with hx | hx
        · rw [← List.drop_drop] at hx
          exact Or.inl (List.mem_of_mem_drop hx)
        · rw [← List.drop_drop] at hx
          exact Or.inr (List.mem_of_mem_drop hx)

theorem params_nodup : (paramInt ++ paramSse).Nodup := by decide

theorem drops_nodup (i s : Nat) : (paramInt.drop i ++ paramSse.drop s).Nodup :=
  params_nodup.sublist (List.Sublist.append (List.drop_sublist _ _) (List.drop_sublist _ _))

theorem take_not_drop {l : List Nat} (h : l.Nodup) {i n x : Nat} (hx : x ∈ (l.drop i).take n) : x ∉ l.drop (i + n) := by
  have h2 : ((l.drop i).take n ++ (l.drop i).drop n).Nodup := by
    rw [List.take_append_drop]; exact h.sublist (List.drop_sublist _ _)
  rw [List.drop_drop] at h2
  intro hx'
  exact (List.nodup_append.mp h2).2.2 x hx x hx' rfl

theorem int_not_sse {x : Nat} (h : x ∈ paramInt) : x ∉ paramSse := by
  intro h'
  exact (List.nodup_append.mp params_nodup).2.2 x h x h' rfl

theorem r11_not : R11 ∉ paramInt ∧ R11 ∉ paramSse := by decide

theorem loadAll_spec {s0 : M} {lo hi : Int} :
    ∀ (as : List Arg) (l : List (PC × Bool)) (i s : Nat) (code : List Ins) (t : M), loadAll as l i s = some code →
      (∀ a ∈ as, a.Good s0 lo hi) → Same s0 lo hi t →
      (run t code).mem = t.mem ∧
      (∀ x, x ≠ R11 → x ∉ paramInt.drop i → x ∉ paramSse.drop s → (run t code).reg x = t.reg x) ∧
      RegsHold s0 (run t code).reg as l i s
  | [], l, i, s, code, t, hc, _, _ => by
    simp only [loadAll, Option.some.injEq] at hc
    subst hc; simp [RegsHold]
  | a :: as, [], i, s, code, t, hc, _, _ => by
    simp only [loadAll, Option.some.injEq] at hc
    subst hc; simp [RegsHold]
  | a :: as, (pc, b) :: l, i, s, code, t, hc, hg, hsame => by
    simp only [loadAll] at hc
    cases b with
    | false =>
      simp only [Bool.false_eq_true, if_false] at hc
      simpa [RegsHold] using loadAll_spec as l i s code t hc (fun a ha => hg a (List.mem_cons_of_mem _ ha)) hsame
    | true =>
      simp only [if_true] at hc
      obtain ⟨sl, hsl, hc⟩ := Option.bind_eq_some_iff.mp hc
      obtain ⟨l1, h1, hc⟩ := Option.bind_eq_some_iff.mp hc
      obtain ⟨l2, h2, hc⟩ := Option.bind_eq_some_iff.mp hc
      simp only [Option.some.injEq] at hc
      subst hc
      have hmem := slices_mem _ _ _ _ _ hsl
      obtain ⟨hpw, _⟩ := slices_distinct _ _ _ _ _ hsl (drops_nodup i s)
      have hregs : ∀ e ∈ sl, (e.2.2.2 ∈ paramInt.drop i ∨ e.2.2.2 ∈ paramSse.drop s) ∧
          e.2.2.2 ∉ paramInt.drop (i + ints pc) ∧ e.2.2.2 ∉ paramSse.drop (s + sses pc) := by
        intro e he
        rcases (hmem e he).2.2.2 with h | h
        · have h' := List.mem_of_mem_take h
          refine ⟨Or.inl h', take_not_drop (by decide) h, fun hx => ?_⟩
          exact int_not_sse (List.mem_of_mem_drop h') (List.mem_of_mem_drop hx)
        · have h' := List.mem_of_mem_take h
          refine ⟨Or.inr h', fun hx => ?_, take_not_drop (by decide) h⟩
          exact int_not_sse (List.mem_of_mem_drop hx) (List.mem_of_mem_drop h')
      have harg : ∀ e ∈ sl, ArgReg e.2.2.2 ∧ e.2.2.2 ≠ R11 := by
        intro e he
        rcases (hregs e he).1 with h | h
        · have := List.mem_of_mem_drop h
          exact ⟨Or.inl this, fun h' => r11_not.1 (h' ▸ this)⟩
        · have := List.mem_of_mem_drop h
          exact ⟨Or.inr (Or.inl this), fun h' => r11_not.2 (h' ▸ this)⟩
      have hga := hg a (List.mem_cons_self ..)
      obtain ⟨g1, g2, g3⟩ := loadSlices_spec hga sl l1 t h1 hsame hpw
        (fun e he => ⟨by have := (hmem e he).2.1; omega, (hmem e he).2.2.1⟩) (fun e he => ⟨(harg e he).1.not_kept, (harg e he).2⟩)
      have hsame' : Same s0 lo hi (run t l1) := by
        refine ⟨fun x hx => ?_, fun x hx => by rw [g1]; exact hsame.mem x hx⟩
        rw [g2 x (by rintro rfl; exact ArgReg.not_kept (Or.inr (Or.inr rfl)) hx)
          (fun e he heq => (harg e he).1.not_kept (heq ▸ hx))]
        exact hsame.reg x hx
      obtain ⟨i1, i2, i3⟩ := loadAll_spec as l _ _ l2 (run t l1) h2 (fun a ha => hg a (List.mem_cons_of_mem _ ha)) hsame'
      refine ⟨?_, ?_, ?_⟩
      · rw [run_append, i1, g1]
      · intro x hx hx1 hx2
        rw [run_append, i2 x hx, g2 x hx]
        · intro e he heq
          rcases (hregs e he).1 with h | h
          · exact hx1 (heq ▸ h)
          · exact hx2 (heq ▸ h)
        · intro h; rw [← List.drop_drop] at h; exact hx1 (List.mem_of_mem_drop h)
        · intro h; rw [← List.drop_drop] at h; exact hx2 (List.mem_of_mem_drop h)
      · simp only [RegsHold, if_true]
        refine ⟨?_, ?_⟩
        · intro sl' hsl' e he j hj
          rw [hsl] at hsl'
          simp only [Option.some.injEq] at hsl'
          subst hsl'
          rw [run_append, i2 _ (harg e he).2 (hregs e he).2.1 (hregs e he).2.2]
          exact g3 e he j hj
        · rw [run_append]; exact i3

end Verif.Abi
