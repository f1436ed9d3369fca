import Verif.Encode.CheckImm

/-! How many bytes the encoder writes, for any request at all. -/

namespace Verif.Encode

/-- At most `n` bytes, all of them bytes. -/
structure Fine (n : Nat) (c : Code) : Prop where
  len : c.val.length ≤ n
  byte : ∀ b ∈ c.val, b < 256

theorem Fine.mono {n m : Nat} {c : Code} (h : Fine n c) (k : n ≤ m) : Fine m c :=
  ⟨Nat.le_trans h.len k, h.byte⟩

theorem Fine.push {n k : Nat} {c : Code} {bs : List Nat} (h : Fine n c) (hl : bs.length ≤ k)
    (hb : ∀ b ∈ bs, b < 256) : Fine (n + k) (c.push bs) := by
  refine ⟨?_, ?_⟩
  · simp only [Code.push, List.length_append]
    have := h.len
    omega
  · intro b hm
    rcases List.mem_append.mp hm with hm | hm
    · exact h.byte b hm
    · exact hb b hm

theorem or_lt_256 {a b : Nat} (ha : a < 256) (hb : b < 256) : a ||| b < 256 :=
  Nat.or_lt_two_pow (n := 8) ha hb

theorem modify_byte (l : List Nat) (k v : Nat) (hl : ∀ b ∈ l, b < 256) (hv : v < 256) :
    ∀ b ∈ l.modify k (· ||| v), b < 256 := by
  induction l generalizing k with
  | nil => simp
  | cons a l ih =>
    cases k with
    | zero =>
      intro b hb
      simp only [List.modify_zero_cons, List.mem_cons] at hb
      rcases hb with rfl | hb
      · exact or_lt_256 (hl a (by simp)) hv
      · exact hl b (by simp [hb])
    | succ k =>
      intro b hb
      simp only [List.modify_succ_cons, List.mem_cons] at hb
      rcases hb with rfl | hb
      · exact hl b (by simp)
      · exact ih k (fun b hb => hl b (by simp [hb])) b hb

theorem Fine.orBack {n : Nat} {c : Code} (h : Fine n c) (k : Nat) {v : Nat} (hv : v < 256) :
    Fine n (c.orBack k v) := by
  refine ⟨?_, modify_byte _ _ _ h.byte hv⟩
  simp only [Code.orBack, List.length_modify]
  exact h.len

theorem Fine.ite {n : Nat} {c d : Code} {p : Prop} [Decidable p] (h : Fine n c) (g : Fine n d) :
    Fine n (if p then c else d) := by
  split_ifs
  · exact h
  · exact g

theorem flag_lt {b : Bool} {v : Nat} (h : v < 256) : flag b v < 256 := by
  unfold flag; split_ifs
  · exact h
  · decide

theorem Fine.pushRex {n : Nat} {c : Code} (h : Fine n c) {rex : Nat} (hr : rex < 256) (f : Bool) :
    Fine (n + 1) (pushRex c rex f) := by
  unfold Encode.pushRex
  split_ifs
  · exact h.push (by simp) (by simp [hr])
  · exact h.mono (by omega)

theorem withW_lt {rex : Nat} (h : rex < 256) (op w : Nat) : withW rex op w < 256 := by
  unfold withW
  split_ifs
  · exact or_lt_256 h (flag_lt (by decide))
  · exact h

theorem rexR_lt (r : Nat) : rexR r < 256 := flag_lt (by decide)
theorem rexX_lt (a : Addr) : rexX a < 256 := flag_lt (by decide)
theorem rexB_lt (r : Nat) : rexB r < 256 := flag_lt (by decide)
theorem rexW_lt (w : Nat) : rexW w < 256 := flag_lt (by decide)
theorem reg3_lt' (r : Nat) : reg3 r < 256 := Nat.lt_trans (reg3_lt r) (by decide)
theorem reg3_8 (r : Nat) : reg3 r * 8 < 256 := by have := reg3_lt r; omega

/-- What is true of every row. -/
structure RowOk (e : Enc) : Prop where
  pfx : e.pfx.length ≤ 1
  opc : e.opcode.length ≤ 2
  pfxb : ∀ b ∈ e.pfx, b < 256
  opcb : ∀ b ∈ e.opcode, b < 256
  modrm : e.modrm < 256
  im : e.optype &&& 128 = 128 → e.pfx = [] ∧ e.opcode.length ≤ 1 ∧ (e.dword = false → e.opc = oCMP ∧ e.opxS = true)

instance (e : Enc) : Decidable (RowOk e) :=
  decidable_of_iff (e.pfx.length ≤ 1 ∧ e.opcode.length ≤ 2 ∧ (∀ b ∈ e.pfx, b < 256)
      ∧ (∀ b ∈ e.opcode, b < 256) ∧ e.modrm < 256
      ∧ (e.optype &&& 128 = 128 → e.pfx = [] ∧ e.opcode.length ≤ 1
          ∧ (e.dword = false → e.opc = oCMP ∧ e.opxS = true)))
    ⟨fun ⟨a, b, c, d, e, f⟩ => ⟨a, b, c, d, e, f⟩, fun ⟨a, b, c, d, e, f⟩ => ⟨a, b, c, d, e, f⟩⟩

theorem rows_ok : ∀ e ∈ encodings, RowOk e := by decide +kernel

theorem candidates_mem {op : Nat} {e : Enc} (h : e ∈ candidates op) : e ∈ encodings := by
  unfold candidates at h
  split at h
  · cases h
  · rename_i e' r he
    have hs : ∀ x ∈ e' :: r, x ∈ encodings := by
      intro x hx
      rw [← he] at hx
      exact List.mem_of_mem_drop hx
    rcases List.mem_cons.mp h with rfl | h
    · exact hs _ (by simp)
    · exact hs e (List.mem_cons_of_mem _ ((List.takeWhile_sublist _).mem h))

theorem find_row {i : Instr} {e : Enc} (h : findEncoding i = some e) :
    RowOk e ∧ e ∈ candidates i.opcode ∧ matchesRow i.ops e = true :=
  ⟨rows_ok e (candidates_mem (List.mem_of_find?_eq_some h)), List.mem_of_find?_eq_some h,
    List.find?_some h⟩

theorem Fine.opcode {n : Nat} {c : Code} (h : Fine n c) {e : Enc} (r : RowOk e) :
    Fine (n + 2) (encodeOpcode c e) :=
  h.push (List.length_take_le _ _) fun b hb => r.opcb b (List.mem_of_mem_take hb)

theorem start_fine {e : Enc} (r : RowOk e) (w : Nat) : Fine (e.pfx.length + 1) (start e 0 w) := by
  unfold start
  refine ⟨?_, ?_⟩
  · simp only [List.length_append, ne_eq, not_true_eq_false, if_false, List.length_nil]
    split_ifs <;> simp
  · intro b hb
    simp only [List.mem_append] at hb
    rcases hb with (hb | hb) | hb
    · exact r.pfxb b hb
    · simp at hb
    · split_ifs at hb
      · simp only [List.mem_cons, List.not_mem_nil, or_false] at hb
        omega
      · cases hb

theorem ite_lt {p : Prop} [Decidable p] {a b : Nat} (ha : a < 256) (hb : b < 256) :
    (if p then a else b) < 256 := by split_ifs <;> assumption

theorem ite_mem {p : Prop} [Decidable p] {l m : List Nat} (hl : ∀ b ∈ l, b < 256)
    (hm : ∀ b ∈ m, b < 256) : ∀ b ∈ (if p then l else m), b < 256 := by split_ifs <;> assumption

theorem modrmSibDisp_fine {reg : Nat} {a : Addr} {bs : List Nat} (h : modrmSibDisp reg a = some bs) :
    bs.length ≤ 6 ∧ ∀ b ∈ bs, b < 256 := by
  unfold modrmSibDisp at h
  by_cases h1 : a.sym.isSome = true
  · rw [if_pos h1] at h; cases h
  rw [if_neg h1] at h
  by_cases h2 : ¬ (a.base ≠ 0 ∨ a.disp = 0)
  · rw [if_pos h2] at h; cases h
  rw [if_neg h2] at h
  by_cases h3 : ¬ (a.scale = 0 ∨ a.scale = 1 ∨ a.scale = 2 ∨ a.scale = 4 ∨ a.scale = 8)
  · rw [if_pos h3] at h; cases h
  rw [if_neg h3] at h
  have hr : reg % 8 * 8 < 256 := by omega
  simp only [Option.some.injEq] at h
  subst h
  have base : ∀ (p : Prop) [Decidable p], (reg % 8 * 8 ||| if p then 4 else reg3 a.base) < 256 :=
    fun p _ => or_lt_256 hr (ite_lt (by decide) (reg3_lt' _))
  refine ⟨?_, ?_⟩
  · have l4 := le_length 4 a.disp
    have l1 := le_length 1 a.disp
    have sib : ∀ (p : Prop) [Decidable p] (b : Nat), (if p then [b] else []).length ≤ 1 := by
      intro p _ b; split_ifs <;> simp
    have disp : ∀ (p q : Prop) [Decidable p] [Decidable q],
        (if p then le 4 a.disp else if q then le 1 a.disp else []).length ≤ 4 := by
      intro p q _ _; split_ifs <;> simp [l4, l1]
    simp only [List.length_cons, List.length_append]
    exact Nat.add_le_add (Nat.add_le_add (sib _ _) (disp _ _)) (Nat.le_refl 1)
  · intro b hb
    rcases List.mem_cons.mp hb with rfl | hb
    · exact ite_lt (or_lt_256 (base _) (by decide))
        (ite_lt (or_lt_256 (base _) (by decide)) (base _))
    rcases List.mem_append.mp hb with hb | hb
    · refine ite_mem ?_ (by simp) b hb
      intro b hb
      rcases List.mem_singleton.mp hb with rfl
      have hi : (if a.index ≠ 0 then reg3 a.index else reg3 SP) * 8 < 256 := by
        split_ifs <;> exact reg3_8 _
      have hs : (if a.scale = 2 then 1 else if a.scale = 4 then 2 else if a.scale = 8 then 3 else 0)
          * 64 < 256 := by split_ifs <;> decide
      exact or_lt_256 (or_lt_256 hi hs) (ite_lt (reg3_lt' _) (by decide))
    · exact ite_mem (le_lt _ _) (ite_mem (le_lt _ _) (by simp)) b hb

theorem addrBytes_fine {reg : Nat} {a : Addr} {bs : List Nat} (h : addrBytes reg a = some bs) :
    bs.length ≤ 6 ∧ ∀ b ∈ bs, b < 256 := by
  unfold addrBytes at h
  split at h
  · exact modrmSibDisp_fine h
  · cases h
  · cases h
    refine ⟨by simp, ?_⟩
    intro b hb
    simp only [List.mem_cons, List.not_mem_nil, or_false] at hb
    have : reg % 8 * 8 ||| 5 < 256 := or_lt_256 (by omega) (by decide)
    rcases hb with rfl | rfl | rfl | rfl | rfl
    · exact this
    all_goals decide

theorem Fine.address {n : Nat} {c : Code} (h : Fine n c) {reg : Nat} {a : Addr} {k : Nat} {r}
    (g : encodeAddress c reg a k = some r) : Fine (n + 6) r.1 := by
  rw [encodeAddress_eq] at g
  cases hb : addrBytes reg a with
  | none => rw [hb] at g; cases g
  | some bs =>
    rw [hb] at g
    cases g
    have := addrBytes_fine hb
    exact ⟨(h.push this.1 this.2).len, (h.push this.1 this.2).byte⟩

theorem immLen_le {wi : Nat} {s d : Bool} {q : Int} {n : Nat} (h : immLen wi s d q = some n) :
    n ≤ 8 ∧ ((d = true ∨ wi ≠ 8 ∨ immShort wi s q = true) → n ≤ 4) := by
  unfold immLen at h
  split_ifs at h <;> cases h <;> simp_all

theorem Fine.immediate {n : Nat} {c : Code} (h : Fine n c) {i : Imm} {sx : Nat} {d : Bool} {r}
    (g : encodeImmediate c i sx d = some r) :
    Fine (n + 8) r.1 ∧ ((d = true ∨ i.width ≠ 8 ∨ (∃ a, i.val = .addr a)
      ∨ (sx ≠ 0 ∧ ∃ q, i.val = .int q ∧ inByteRange q = true)) → Fine (n + 4) r.1) := by
  obtain ⟨wi, v⟩ := i
  cases v with
  | int q =>
    rw [encodeImmediate_int] at g
    cases hl : immLen wi (sx != 0) d q with
    | none => rw [hl] at g; cases g
    | some k =>
      rw [hl] at g
      cases g
      have hk := immLen_le hl
      have hs : Fine n (signBit c wi sx q) := by
        unfold signBit
        exact Fine.ite (h.orBack _ (by decide)) h
      refine ⟨hs.push (by rw [le_length]; exact hk.1) (le_lt _ _), ?_⟩
      intro hc
      refine hs.push (Nat.le_trans (Nat.le_of_eq (le_length _ _)) (hk.2 ?_)) (le_lt _ _)
      rcases hc with hc | hc | ⟨a, hc⟩ | ⟨hc, q', hq, hb⟩
      · exact .inl hc
      · exact .inr (.inl hc)
      · cases hc
      · cases hq
        right; right
        simp [immShort, hc, hb]
  | addr a =>
    have key : Fine (n + 4) r.1 := by
      simp only [encodeImmediate] at g
      split at g
      · cases g
      · split_ifs at g <;> cases g <;>
          exact ⟨(h.push (bs := [0, 0, 0, 0]) (k := 4) (by simp) (by simp)).len,
            (h.push (bs := [0, 0, 0, 0]) (k := 4) (by simp) (by simp)).byte⟩
    exact ⟨key.mono (by omega), fun _ => key⟩

/-! ## Each shape of operands -/

theorem Fine.opcodeIM {n : Nat} {c : Code} (h : Fine n c) {e : Enc} (r : RowOk e)
    (hl : e.opcode.length ≤ 1) : Fine (n + 1) (encodeOpcode c e) :=
  h.push (Nat.le_trans (by simp [encodeOpcode]) hl) fun b hb => r.opcb b (List.mem_of_mem_take hb)

theorem regReg_fine {n : Nat} {c c' : Code} (h : Fine n c) {e : Enc} (r : RowOk e) {ws w a b : Nat}
    (g : encodeRegReg c e ws w a b = some c') : Fine (n + 4) c' := by
  unfold encodeRegReg at g
  by_cases h1 : e.impl1 ≠ 0
  · rw [if_pos h1] at g; cases g
  rw [if_neg h1] at g
  simp only at g
  have hrex : (if e.impl0 = 0 then withW (REX ||| rexB b) e.opc w ||| rexR a
      else withW (REX ||| rexB b) e.opc w) < 256 :=
    ite_lt (or_lt_256 (withW_lt (or_lt_256 (by decide) (rexB_lt _)) _ _) (rexR_lt _))
      (withW_lt (or_lt_256 (by decide) (rexB_lt _)) _ _)
  have k1 := (h.pushRex hrex false).opcode r
  have k2 := Fine.ite (p := e.opxW = true) (k1.orBack 1 (v := flag ((if e.impl0 ≠ 0 then w else ws) != 1) 1)
    (flag_lt (by decide))) k1
  have hm : 0xC0 ||| e.modrm ||| reg3 b < 256 := or_lt_256 (or_lt_256 (by decide) r.modrm) (reg3_lt' _)
  have k3 := k2.push (k := 1) (bs := [0xC0 ||| e.modrm ||| reg3 b]) (by simp) (by simp [hm])
  by_cases h2 : e.impl0 = 0
  · rw [if_pos h2] at g
    by_cases h3 : e.modrm ≠ 0
    · rw [if_pos h3] at g; cases g
    rw [if_neg h3] at g
    cases g
    simp only [h2, if_true] at k3
    simp only [h2, if_true]
    exact k3.orBack 1 (reg3_8 _)
  · rw [if_neg h2] at g
    cases g
    exact k3

theorem memReg_fine {n : Nat} {c c' : Code} (h : Fine n c) {e : Enc} (r : RowOk e) {w : Nat} {d : Bool}
    {mw : Nat} {a : Addr} {b : Nat} (g : encodeMemReg c e w d mw a b = some c') : Fine (n + 9) c' := by
  unfold encodeMemReg at g
  by_cases h1 : e.impl1 ≠ 0
  · rw [if_pos h1] at g; cases g
  rw [if_neg h1] at g
  simp only at g
  have hrex : withW (REX ||| rexR b ||| rexX a ||| rexB a.base) e.opc w < 256 :=
    withW_lt (or_lt_256 (or_lt_256 (or_lt_256 (by decide) (rexR_lt _)) (rexX_lt _)) (rexB_lt _)) _ _
  have k1 := (h.pushRex hrex ((b == SI || b == DI) && w == 1)).opcode r
  have k2 := Fine.ite (p := e.opxW = true) (k1.orBack 1 (v := flag (mw != 1) 1) (flag_lt (by decide))) k1
  have k3 := Fine.ite (p := e.opxD = true) (k2.orBack 1 (v := flag d 2) (flag_lt (by decide))) k2
  obtain ⟨x, hx, rfl⟩ := Option.map_eq_some_iff.mp g
  exact k3.address hx

theorem mem_fine {n : Nat} {c c' : Code} (h : Fine n c) {e : Enc} (r : RowOk e) {w : Nat} {a : Addr}
    (g : encodeMem c e w a = some c') : Fine (n + 9) c' := by
  unfold encodeMem at g
  simp only at g
  have hrex : withW (REX ||| rexX a ||| rexB a.base) e.opc w < 256 :=
    withW_lt (or_lt_256 (or_lt_256 (by decide) (rexX_lt _)) (rexB_lt _)) _ _
  have k1 := (h.pushRex hrex false).opcode r
  have k2 := Fine.ite (p := e.opxW = true) (k1.orBack 1 (v := flag (w != 1) 1) (flag_lt (by decide))) k1
  obtain ⟨x, hx, rfl⟩ := Option.map_eq_some_iff.mp g
  exact k2.address hx

theorem none_fine {n : Nat} {c : Code} (h : Fine n c) {e : Enc} (r : RowOk e) (w : Nat) :
    Fine (n + 3) (encodeNone c e w) := by
  unfold encodeNone
  have k1 := (h.pushRex (withW_lt (rex := REX) (by decide) e.opc w) false).opcode r
  exact Fine.ite (k1.orBack 1 (flag_lt (by decide))) k1

theorem reg_fine {n : Nat} {c c' : Code} (h : Fine n c) {e : Enc} (r : RowOk e) {w x cc : Nat}
    (hcc : cc < 16) (g : encodeReg c e w x cc = some c') : Fine (n + 4) c' := by
  unfold encodeReg at g
  simp only at g
  by_cases h1 : e.opxTttn = true ∧ e.opextra ≠ 8
  · rw [if_pos h1] at g; cases g
  rw [if_neg h1] at g
  have k1 := (h.pushRex (withW_lt (or_lt_256 (show REX < 256 by decide) (rexB_lt x)) e.opc w) false).opcode r
  have hv : flag (w != 1) (if e.opxReg = true then 8 else 1) < 256 :=
    flag_lt (ite_lt (by decide) (by decide))
  have k2 := Fine.ite (p := e.opxW = true) (k1.orBack 1 hv) k1
  have k3 := Fine.ite (p := e.opxTttn = true) (k2.orBack 1 (v := cc) (by omega)) k2
  by_cases h2 : e.opxReg = true
  · rw [if_pos h2] at g
    by_cases h3 : e.modrm ≠ 0
    · rw [if_pos h3] at g; cases g
    rw [if_neg h3] at g
    cases g
    exact (k3.orBack 1 (reg3_lt' _)).mono (by omega)
  · rw [if_neg h2] at g
    cases g
    have hm : 0xC0 ||| e.modrm ||| reg3 x < 256 := or_lt_256 (or_lt_256 (by decide) r.modrm) (reg3_lt' _)
    exact k3.push (k := 1) (by simp) (by simp [hm])

theorem imm_fine {n : Nat} {c c' : Code} (h : Fine n c) {e : Enc} (r : RowOk e) {w cc : Nat} {i : Imm}
    (hcc : cc < 16) (g : encodeImm c e w i cc = some c') : Fine (n + 11) c' := by
  unfold encodeImm at g
  simp only at g
  by_cases h1 : e.opxTttn = true ∧ e.opextra ≠ 8
  · rw [if_pos h1] at g; cases g
  rw [if_neg h1] at g
  have k1 := (h.pushRex (withW_lt (rex := REX) (by decide) e.opc w) false).opcode r
  have k2 := Fine.ite (p := e.opxTttn = true) (k1.orBack 1 (v := cc) (by omega)) k1
  obtain ⟨x, hx, rfl⟩ := Option.map_eq_some_iff.mp g
  exact (k2.immediate hx).1

theorem immReg_fine {n : Nat} {c c' : Code} (h : Fine n c) {e : Enc} (r : RowOk e) {w b : Nat} {i : Imm}
    (hw : w < 256) (g : encodeImmReg c e w i b = some c') : Fine (n + 12) c' := by
  rw [encodeImmReg_eq] at g
  cases hi : irHead c e w b with
  | none => rw [hi] at g; cases g
  | some p =>
    rw [hi] at g
    obtain ⟨c1, d⟩ := p
    simp only at g
    obtain ⟨x, hx, rfl⟩ := Option.map_eq_some_iff.mp g
    have key : Fine (n + 4) c1 := by
      unfold irHead at hi
      simp only at hi
      by_cases h1 : e.opxReg = true ∧ (e.modrm ≠ 0 ∨ e.impl1 ≠ 0)
      · rw [if_pos h1] at hi; cases hi
      rw [if_neg h1] at hi
      cases hi
      have k1 := (h.pushRex (or_lt_256 (or_lt_256 (show REX < 256 by decide) (rexW_lt w)) (rexB_lt b))
        ((b == SI || b == DI) && w == 1)).opcode r
      have hv : (if e.opxW = true then (if e.opxReg = true then flag (w != 1) 8 else flag (w != 1) 1)
          else w) < 256 :=
        ite_lt (ite_lt (flag_lt (by decide)) (flag_lt (by decide))) hw
      have k2 := Fine.ite (p := e.opxW = true) (k1.orBack 1 hv) k1
      have hm : 0xC0 ||| e.modrm ||| reg3 b < 256 :=
        or_lt_256 (or_lt_256 (by decide) r.modrm) (reg3_lt' _)
      exact Fine.ite ((k2.orBack 1 (reg3_lt' _)).mono (by omega))
        (Fine.ite (k2.push (k := 1) (by simp) (by simp [hm])) (k2.mono (by omega)))
    exact (key.immediate hx).1

/-- An immediate and memory: four bytes for the number, unless it takes eight. -/
theorem immMem_fine {n : Nat} {c c' : Code} (h : Fine n c) {e : Enc} (r : RowOk e)
    (hl : e.opcode.length ≤ 1) {w : Nat} {i : Imm} {a : Addr}
    (hshort : e.dword = true ∨ i.width ≠ 8 ∨ (∃ a, i.val = .addr a)
      ∨ (e.opxS = true ∧ ∃ q, i.val = .int q ∧ inByteRange q = true))
    (g : encodeImmMem c e w i a = some c') : Fine (n + 12) c' := by
  unfold encodeImmMem at g
  simp only at g
  have k1 := (h.pushRex (or_lt_256 (or_lt_256 (or_lt_256 (show REX < 256 by decide) (rexW_lt w))
    (rexX_lt a)) (rexB_lt a.base)) false).opcodeIM r hl
  have k2 := Fine.ite (p := e.opxW = true) (k1.orBack 1 (v := flag (w != 1) 1) (flag_lt (by decide))) k1
  split at g
  · cases g
  · rename_i c1 m ha
    split at g
    · cases g
    · rename_i c2 m2 hi
      split_ifs at g
      cases g
      have k3 := k2.address ha
      refine (k3.immediate hi).2 ?_
      rcases hshort with hs | hs | hs | ⟨hs, hq⟩
      · exact .inl hs
      · exact .inr (.inl hs)
      · exact .inr (.inr (.inl hs))
      · refine .inr (.inr (.inr ⟨?_, hq⟩))
        rw [if_pos hs]
        omega

/-- The values of `enum opcode`. -/
def opcodes : List Nat :=
  [oADD, oAND, oCALL, oCMP, oCxy, oDIV, oIDIV, oJcc, oJMP, oLEA, oLEAVE, oMOV, oMOV_STR, oMOVSX,
   oMOVZX, oMUL, oNOT, oOR, oPOP, oPUSH, oRET, oSAR, oSETcc, oSHL, oSHR, oSUB, oTEST, oXOR, oADDS,
   oCVTSI2S, oCVTS2S, oCVTTS2SI, oDIVS, oMULS, oSUBS, oMOVAP, oMOVS, oUCOMIS, oPXOR, oFADDP,
   oFDIVRP, oFILD, oFISTP, oFLD, oFLDZ, oFLDCW, oFMULP, oFNSTCW, oFSTP, oFSUBRP, oFUCOMIP, oFXCH]

theorem candidates_opc : ∀ op ∈ opcodes, candidates op ≠ [] ∧ ∀ e ∈ candidates op, e.opc = op := by
  decide +kernel

/-- Rows without an operation have their position as number. -/
def Numbered (op : Nat) : Prop := op ∈ opcodes ∨ (encodings[op]?).map (·.opc) = some 0

theorem numbered_cmp {op : Nat} (h : Numbered op) {e : Enc} (he : e ∈ candidates op) (hc : e.opc = oCMP) : op = oCMP := by
  rcases h with h | h
  · rw [← (candidates_opc op h).2 e he, hc]
  · unfold candidates at he
    cases hd : encodings.drop op with
    | nil => rw [hd] at he; cases he
    | cons x r =>
      rw [hd] at he
      have hx : encodings[op]? = some x := by
        have : (encodings.drop op)[0]? = some x := by rw [hd]; rfl
        rwa [List.getElem?_drop, Nat.add_zero] at this
      rw [hx] at h
      simp only [List.mem_cons] at he
      rcases he with rfl | he
      · simp only [Option.map_some, Option.some.injEq] at h
        rw [h] at hc
        exact absurd hc (by decide)
      · have : ∀ (l : List Enc), e ∈ l.takeWhile (·.opc == op) → e.opc = op := by
          intro l
          induction l with
          | nil => intro h; cases h
          | cons a l ih =>
            rw [List.takeWhile_cons]
            split
            · rename_i ha
              intro h
              simp only [List.mem_cons] at h
              rcases h with rfl | h
              · simpa using ha
              · exact ih h
            · intro h; cases h
        have := this _ he
        rw [← this, hc]

/-- A comparison of memory with a number that is given eight bytes, though it needs
more than one. -/
def Wide (i : Instr) : Prop :=
  i.opcode = oCMP ∧ ∃ q w a, i.ops = .immMem ⟨8, .int q⟩ w a ∧ inByteRange q = false

theorem encode_fine {i : Instr} {c : Code} (hop : Numbered i.opcode) (hp : i.pfx = 0) (hcc : i.cc < 16)
    (hw : i.ops.destWidth < 256) (hn : ¬ Wide i) (h : encode i = some c) : Fine 15 c := by
  obtain ⟨op, cc, pfx, ops⟩ := i
  cases hp
  unfold encode at h
  split at h
  · cases h
  rename_i e he
  obtain ⟨r, hc, hm⟩ := find_row he
  have s := start_fine r (operandSize ⟨op, cc, 0, ops⟩)
  have hpl := r.pfx
  simp only at h
  cases ops with
  | none w =>
    cases h
    exact (none_fine s r _).mono (by omega)
  | reg w x => exact (reg_fine s r hcc h).mono (by omega)
  | mem w a => exact (mem_fine s r h).mono (by omega)
  | imm im => exact (imm_fine s r hcc h).mono (by omega)
  | regReg ws a w b =>
    simp only at h
    split_ifs at h
    · exact (regReg_fine s r h).mono (by omega)
    · exact (regReg_fine s r h).mono (by omega)
  | memReg ws a w x => exact (memReg_fine s r h).mono (by omega)
  | regMem ws x w a => exact (memReg_fine s r h).mono (by omega)
  | immReg im w x =>
    have hw' : operandSize ⟨op, cc, 0, .immReg im w x⟩ < 256 ∨ op = oCVTSI2S := by
      by_cases g : op = oCVTSI2S
      · exact .inr g
      · left
        simp only [operandSize, if_neg g]
        exact hw
    rcases hw' with hw' | rfl
    · exact (immReg_fine s r hw' h).mono (by omega)
    · exfalso
      have : ∀ e ∈ candidates oCVTSI2S, e.optype &&& 64 = 0 := by decide +kernel
      have h0 := this e hc
      simp only [matchesRow, Ops.mask, Bool.and_eq_true, beq_iff_eq] at hm
      rw [h0] at hm
      exact absurd hm.1.1.1.1.1 (by decide)
  | immMem im w a =>
    have hmask : e.optype &&& 128 = 128 := by
      simp only [matchesRow, Ops.mask, Bool.and_eq_true, beq_iff_eq] at hm
      exact hm.1.1.1.1.1.symm
    obtain ⟨hpfx, hol, hd⟩ := r.im hmask
    rw [hpfx] at s
    refine (immMem_fine s r hol ?_ h).mono (by simp)
    cases hdw : e.dword with
    | true => exact .inl rfl
    | false =>
      obtain ⟨h1, h2⟩ := hd hdw
      right
      by_cases h8 : im.width = 8
      · right
        obtain ⟨wi, v⟩ := im
        cases v with
        | addr a => exact .inl ⟨a, rfl⟩
        | int q =>
          right
          refine ⟨h2, q, rfl, ?_⟩
          by_contra hq
          apply hn
          have : op = oCMP := numbered_cmp hop hc h1
          refine ⟨this, q, w, a, ?_, by simpa using hq⟩
          simp only at h8
          rw [h8]
      · exact .inl h8

theorem encode_none_fine {i : Instr} {c : Code} {w : Nat} (hp : i.pfx < 256) (ho : i.ops = .none w)
    (h : encode i = some c) : Fine 15 c := by
  obtain ⟨op, cc, pfx, ops⟩ := i
  simp only at hp ho
  subst ho
  unfold encode at h
  split at h
  · cases h
  rename_i e he
  obtain ⟨r, hc, hm⟩ := find_row he
  cases h
  have s : Fine 3 (start e pfx (operandSize ⟨op, cc, pfx, .none w⟩)) := by
    have := r.pfx
    unfold start
    refine ⟨?_, ?_⟩
    · simp only [List.length_append]
      have h1 : ∀ (p : Prop) [Decidable p] (b : Nat), (if p then [b] else []).length ≤ 1 := by
        intro p _ b; split_ifs <;> simp
      exact Nat.add_le_add (Nat.add_le_add this (h1 _ _)) (h1 _ _)
    · intro b hb
      simp only [List.mem_append] at hb
      rcases hb with (hb | hb) | hb
      · exact r.pfxb b hb
      · exact ite_mem (by simp [hp]) (by simp) b hb
      · exact ite_mem (by simp) (by simp) b hb
  exact (none_fine s r _).mono (by omega)

end Verif.Encode
