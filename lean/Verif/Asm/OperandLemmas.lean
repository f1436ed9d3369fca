import Verif.Asm.TextLemmas

/-! The operands found in text. -/

namespace Verif.Asm

open Att (Arg gprName xmmName)
open Encode.Intel (Mem)
open Encode (Addr memOf)

/-! ## Registers -/

theorem gprName_mem {n w : Nat} {s : Bytes} (h : gprName n w = some s) : (s, n + 1, w) ∈ asmRegs := by
  have hw : w = 1 ∨ w = 2 ∨ w = 4 ∨ w = 8 := by
    unfold gprName at h
    split_ifs at h <;> (dsimp only at h; split at h <;> simp_all)
  have hn : n < 16 := by
    by_contra hk
    unfold gprName at h
    rw [dif_neg (by omega), dif_neg (by omega), dif_neg (by omega)] at h
    cases h
  have key : ∀ n : Fin 16, ∀ w ∈ [1, 2, 4, 8], ∀ s ∈ gprName n.val w, (s, n.val + 1, w) ∈ asmRegs := by
    decide +kernel
  exact key ⟨n, hn⟩ w (by rcases hw with rfl | rfl | rfl | rfl <;> simp) s h

theorem asmRegs_facts : ∀ p ∈ asmRegs, (∀ c ∈ p.1, isAlnum c = true) ∧ p.1.head? ≠ some (chr% 'x')
    ∧ p.1 ≠ [] ∧ p.2.1 ∈ Encode.gprs ∧ p.2.2 ∈ Encode.widths
    ∧ asmRegs.find? (fun q => q.1.length = p.1.length && q.1 == p.1) = some p := by
  decide +kernel

theorem parseIntReg_eq {s r : Bytes} {n w : Nat} (h : (s, n, w) ∈ asmRegs) :
    parseIntReg (s ++ r) s.length = .ok (n, w) := by
  have := (asmRegs_facts _ h).2.2.2.2.2
  unfold parseIntReg
  rw [List.take_left, this]

theorem parseRegister_gpr {s r : Bytes} {n w : Nat} (h : (s, n, w) ∈ asmRegs) :
    parseRegister (s ++ r) s.length = .ok (n, w) := by
  have hx := (asmRegs_facts _ h).2.1
  have hn := (asmRegs_facts _ h).2.2.1
  unfold parseRegister
  rw [if_neg, parseIntReg_eq h]
  intro hk
  cases s with
  | nil => exact hn rfl
  | cons c s =>
    simp only [List.cons_append, List.take_succ_cons, List.cons.injEq] at hk
    exact hx (by rw [hk.1]; rfl)

theorem xmmName_facts {n : Nat} {s : Bytes} (h : xmmName n = some s) :
    n < 16 ∧ ∃ ds, s = str% "xmm" ++ ds ∧ ds ≠ [] ∧ (∀ c ∈ ds, isDigit c = true) ∧ decimal ds = n := by
  have hn : n < 16 := by
    by_contra hk
    unfold xmmName at h
    rw [dif_neg (by omega), dif_neg (by omega)] at h
    cases h
  refine ⟨hn, s.drop 3, ?_⟩
  have key : ∀ n : Fin 16, ∀ s ∈ xmmName n.val, s = str% "xmm" ++ s.drop 3 ∧ s.drop 3 ≠ [] ∧
      (∀ c ∈ s.drop 3, isDigit c = true) ∧ decimal (s.drop 3) = n.val := by decide +kernel
  exact key ⟨n, hn⟩ s h

theorem parseRegister_xmm {s r : Bytes} {n : Nat} (h : xmmName n = some s) (hr : Stop r) :
    parseRegister (s ++ r) s.length = .ok (n + 17, 0) ∧ ∀ c ∈ s, isAlnum c = true := by
  obtain ⟨hn, ds, rfl, hne, hd, hv⟩ := xmmName_facts h
  constructor
  · have hst := strtol_digits (b := []) (by intro c h; cases h) hne hd hr.digit (by omega)
    rw [List.nil_append] at hst
    unfold parseRegister
    rw [List.append_assoc, if_pos (by rfl)]
    have : (str% "xmm" ++ (ds ++ r)).drop 3 = ds ++ r := rfl
    rw [this, hst]
    simp only
    rw [if_pos (by simp; omega)]
    congr 2
    omega
  · intro c hc
    simp only [List.mem_append] at hc
    rcases hc with hc | hc
    · revert hc; revert c; apply forall_byte; decide +kernel
    · exact ((classes c).1 (hd c hc)).1

/-! ## Addresses -/

theorem RegText.reg {n : Nat} {t : Bytes} (h : RegText n t) : ∃ s, t = str% "%%" ++ s ∧ (s, n + 1, 8) ∈ asmRegs := by
  obtain ⟨s, hs, rfl⟩ := h
  exact ⟨s, rfl, gprName_mem hs⟩

/-- A register after blanks. -/
theorem tok_reg (e : Env) {b s r : Bytes} {n w : Nat} (hb : Blank b) (hs : (s, n, w) ∈ asmRegs) (hr : Stop r) :
    asmtok e (b ++ ((str% "%%" ++ s) ++ r)) = .ok (⟨.reg, s ++ r, s.length, 0⟩, r) := by
  rw [List.append_assoc, asmtok_skip e hb (t := str% "%%" ++ (s ++ r)) (Not.cons (by decide)),
    asmtok_reg e (asmRegs_facts _ hs).1 hr]

theorem tok_punct (e : Env) {b : Bytes} (hb : Blank b) {c : UInt8} (hc : c ∈ str% "(),") (r : Bytes) :
    asmtok e (b ++ (c :: r)) = .ok (⟨.punct c, c :: r, 1, 0⟩, r) := by
  have : isSpace c = false :=
    (show ∀ c : UInt8, c ∈ str% "()," → isSpace c = false by apply forall_byte; decide +kernel) c hc
  rw [asmtok_skip e hb (Not.cons this), asmtok_punct e hc]

theorem stop_punct {b : Bytes} (hb : Blank b) {c : UInt8} (hc : c ∈ str% "(),") (r : Bytes) : Stop (b ++ (c :: r)) :=
  stop_blank hb (Not.cons ((show ∀ c : UInt8, c ∈ str% "()," → identChar c = false by
    apply forall_byte; decide +kernel) c hc))

/-- The address with a base and an index. -/
def addrOf (disp : Int) (base : Option Nat) (index : Option (Nat × Nat)) (sc : Nat) : Addr :=
  ⟨none, disp, base.elim 0 (· + 1), index.elim 0 (·.1 + 1), sc⟩

theorem scale_text {s : Nat} (hs : s ∈ [1, 2, 4, 8]) {b b' r : Bytes} (hb : Blank b) (hb' : Blank b') :
    strtol 10 (b ++ ([48 + UInt8.ofNat s] ++ (b' ++ (chr% ')' :: r)))) = ((s : Int), b' ++ (chr% ')' :: r)) := by
  have hd : ∀ c ∈ [48 + UInt8.ofNat s], isDigit c = true := by
    revert s; decide
  have hv : decimal [48 + UInt8.ofNat s] = s := by revert s; decide
  have := strtol_digits hb (by simp) hd (stop_punct hb' (c := chr% ')') (by decide) r).digit (by rw [hv]; revert s; decide)
  rw [hv] at this
  exact this

/-- The rest of an address after its base. -/
theorem parseIndex_scale (e : Env) (a : Addr) {m s : Nat} {t ds b1 b2 b3 b4 r : Bytes} (ht : RegText m t)
    (hs : s ∈ [1, 2, 4, 8]) (hds : ds = [48 + UInt8.ofNat s]) (h1 : Blank b1) (h2 : Blank b2) (h3 : Blank b3) (h4 : Blank b4) :
    parseIndex e (b1 ++ (t ++ (b2 ++ (str% "," ++ (b3 ++ (ds ++ (b4 ++ (str% ")" ++ r)))))))) a
      = .ok ({ a with index := m + 1, scale := s }, r) := by
  obtain ⟨w, rfl, hw⟩ := ht.reg
  subst hds
  unfold parseIndex
  simp only [List.cons_append, List.nil_append]
  rw [← List.cons_append, ← List.cons_append]
  have q1 := tok_reg e (r := b2 ++ (chr% ',' :: (b3 ++ ([48 + UInt8.ofNat s] ++ (b4 ++ (chr% ')' :: r))))))
    h1 hw (stop_punct h2 (by decide) _)
  simp only [List.cons_append, List.nil_append] at q1 ⊢
  rw [q1]
  have q2 := tok_punct e h2 (c := chr% ',') (by decide) (b3 ++ ((48 + UInt8.ofNat s) :: (b4 ++ (chr% ')' :: r))))
  have q3 := scale_text hs h3 h4 (r := r)
  have q4 := tok_punct e h4 (c := chr% ')') (by decide) r
  simp only [List.cons_append, List.nil_append] at q3
  have q0 : ((s : Int) % 4294967296).toNat = s :=
    (show ∀ s : Nat, s ∈ [1, 2, 4, 8] → ((s : Int) % 4294967296).toNat = s by decide) s hs
  simp only [if_true, parseIntReg_eq hw, q2, q3, q4, q0, ne_eq, not_true_eq_false, if_false]

theorem parseIndex_plain (e : Env) (a : Addr) {m : Nat} {t b1 b2 r : Bytes} (ht : RegText m t)
    (h1 : Blank b1) (h2 : Blank b2) :
    parseIndex e (b1 ++ (t ++ (b2 ++ (str% ")" ++ r)))) a = .ok ({ a with index := m + 1 }, r) := by
  obtain ⟨w, rfl, hw⟩ := ht.reg
  unfold parseIndex
  have q1 := tok_reg e (r := b2 ++ (chr% ')' :: r)) h1 hw (stop_punct h2 (by decide) _)
  simp only [List.cons_append, List.nil_append] at q1 ⊢
  rw [q1]
  have q2 := tok_punct e h2 (c := chr% ')') (by decide) r
  simp only [if_true, parseIntReg_eq hw, q2]
  rfl

theorem parseIndex_none (e : Env) (a : Addr) {b r : Bytes} (hb : Blank b) :
    parseIndex e (b ++ (str% ")" ++ r)) a = .ok (a, r) := by
  unfold parseIndex
  have q2 := tok_punct e hb (c := chr% ')') (by decide) r
  simp only [List.cons_append, List.nil_append]
  rw [q2]
  rfl

theorem parseAddress_inner {e : Env} {base : Option Nat} {index : Option (Nat × Nat)} {t : Bytes}
    (h : InnerText e base index t) (d : Int) (r : Bytes) :
    ∃ a, parseAddress e (t ++ r) { noAddr with disp := d } = .ok (a, r) ∧ memOf a = .sib base index d
      ∧ a.sym = none ∧ a.disp = d ∧ (∀ n ∈ base, a.base = n + 1 ∧ a.base ∈ Encode.gprs)
      ∧ (base = none → a.base = 0)
      ∧ (∀ p ∈ index, a.index = p.1 + 1 ∧ a.index ∈ Encode.gprs) ∧ (index = none → a.index = 0)
      ∧ a.scale ∈ [0, 1, 2, 4, 8] := by
  have hg : ∀ {n t}, RegText n t → n + 1 ∈ Encode.gprs := fun h => by
    obtain ⟨w, _, hw⟩ := h.reg
    exact (asmRegs_facts _ hw).2.2.2.1
  have hsc : ∀ {s : Nat}, s ∈ [1, 2, 4, 8] → s ∈ [0, 1, 2, 4, 8] ∧ s ≠ 0 := by decide
  cases h with
  | @base n t b1 b2 ht h1 h2 =>
    refine ⟨{ noAddr with disp := d, base := n + 1 }, ?_, by simp [memOf, noAddr], rfl, rfl,
      by simp [hg ht], by simp, by simp, by simp [noAddr], by simp [noAddr]⟩
    obtain ⟨w, rfl, hw⟩ := ht.reg
    have q1 := tok_reg e (r := b2 ++ (chr% ')' :: r)) h1 hw (stop_punct h2 (by decide) _)
    have q2 := tok_punct e h2 (c := chr% ')') (by decide) r
    unfold parseAddress
    simp only [List.cons_append, List.nil_append, List.append_assoc] at q1 ⊢
    rw [q1]
    simp only [if_true, parseIntReg_eq hw, q2]
  | @operand k al w r' ds b1 b2 ho hr hn hd hv hk h1 h2 =>
    have hr0 : r' - 1 + 1 = r' := by
      have : ∀ r ∈ Encode.gprs, r - 1 + 1 = r := by decide
      exact this r' hr
    have hr1 : r' ≠ 0 := by
      have : ∀ r ∈ Encode.gprs, r ≠ 0 := by decide
      exact this r' hr
    refine ⟨{ noAddr with disp := d, base := r' }, ?_, by simp [memOf, noAddr, hr1], rfl, rfl,
      by simp [hr, hr0], by simp, by simp, by simp [noAddr], by simp [noAddr]⟩
    have hlen : k < e.operands.length := (List.getElem?_eq_some_iff.mp ho).1
    have q1 := asmtok_op e (r := b2 ++ (chr% ')' :: r)) hlen hn hd hv hk (stop_punct h2 (by decide) _)
    have q2 := parseIndex_none e { noAddr with disp := d, base := r' } (r := r) h2
    have q0 : asmtok e (b1 ++ (chr% '%' :: (ds ++ (b2 ++ (chr% ')' :: r))))) = _ :=
      (asmtok_skip e h1 (Not.cons (by decide))).trans q1
    unfold parseAddress
    simp only [List.cons_append, List.nil_append, List.append_assoc] at q0 q2 ⊢
    rw [q0]
    have e1 : ¬ (TT.op = TT.reg) := by decide
    simp only [if_true, if_neg e1, Int.toNat_natCast, ho]
    exact q2
  | @index n m t t' b1 b2 b3 b4 ht ht' h1 h2 h3 h4 =>
    refine ⟨{ noAddr with disp := d, base := n + 1, index := m + 1 }, ?_, by simp [memOf, noAddr], rfl, rfl,
      by simp [hg ht], by simp, by simp [hg ht'], by simp, by simp [noAddr]⟩
    have q3 := parseIndex_plain e { noAddr with disp := d, base := n + 1 } (r := r) ht' h3 h4
    obtain ⟨w, rfl, hw⟩ := ht.reg
    have q1 := tok_reg e (r := b2 ++ (chr% ',' :: (b3 ++ (t' ++ (b4 ++ (chr% ')' :: r)))))) h1 hw (stop_punct h2 (by decide) _)
    have q2 := tok_punct e h2 (c := chr% ',') (by decide) (b3 ++ (t' ++ (b4 ++ (chr% ')' :: r))))
    unfold parseAddress
    simp only [List.cons_append, List.nil_append, List.append_assoc] at q1 q3 ⊢
    rw [q1]
    simp only [if_true, parseIntReg_eq hw, q2]
    rw [if_neg (by decide), q3]
  | @scale n m s t t' ds b1 b2 b3 b4 b5 b6 ht ht' hs hds h1 h2 h3 h4 h5 h6 =>
    refine ⟨{ noAddr with disp := d, base := n + 1, index := m + 1, scale := s }, ?_,
      by simp [memOf, noAddr, (hsc hs).2], rfl, rfl,
      by simp [hg ht], by simp, by simp [hg ht'], by simp, (hsc hs).1⟩
    have q3 := parseIndex_scale e { noAddr with disp := d, base := n + 1 } (r := r) ht' hs hds h3 h4 h5 h6
    obtain ⟨w, rfl, hw⟩ := ht.reg
    have q1 := tok_reg e (r := b2 ++ (chr% ',' :: (b3 ++ (t' ++ (b4 ++ (chr% ',' :: (b5 ++ (ds ++ (b6 ++ (chr% ')' :: r)))))))))) h1 hw (stop_punct h2 (by decide) _)
    have q2 := tok_punct e h2 (c := chr% ',') (by decide) (b3 ++ (t' ++ (b4 ++ (chr% ',' :: (b5 ++ (ds ++ (b6 ++ (chr% ')' :: r))))))))
    unfold parseAddress
    simp only [List.cons_append, List.nil_append, List.append_assoc] at q1 q3 ⊢
    rw [q1]
    simp only [if_true, parseIntReg_eq hw, q2]
    rw [if_neg (by decide), q3]
  | @noBase m s t' ds b1 b3 b4 b5 b6 ht' hs hds h1 h3 h4 h5 h6 =>
    refine ⟨{ noAddr with disp := d, index := m + 1, scale := s }, ?_,
      by simp [memOf, noAddr, (hsc hs).2], rfl, rfl, by simp, by simp [noAddr], by simp [hg ht'], by simp, (hsc hs).1⟩
    have q3 := parseIndex_scale e { noAddr with disp := d } (r := r) ht' hs hds h3 h4 h5 h6
    have q2 := tok_punct e h1 (c := chr% ',') (by decide) (b3 ++ (t' ++ (b4 ++ (chr% ',' :: (b5 ++ (ds ++ (b6 ++ (chr% ')' :: r))))))))
    unfold parseAddress
    simp only [List.cons_append, List.nil_append, List.append_assoc] at q2 q3 ⊢
    rw [q2]
    simp only
    rw [if_neg (by decide), if_neg (by decide), if_pos (by trivial), q3]

/-! ## Operands -/

/-- The operand found for the operand written. -/
inductive Parsed (n : Nat) : Arg → Opd → Prop
  | gpr {k w} : k < 16 → w ∈ Encode.widths → Parsed n (.gpr k w) (.reg w (k + 1))
  | xmm {k w} : k < 16 → (w = 0 ∨ w = 4 ∨ w = 8) → Parsed n (.xmm k) (.reg w (k + 17))
  | imm {q} : 0 ≤ q → q < 2 ^ 63 → Parsed n (.imm q) (.imm ⟨0, .int q⟩)
  | mem {m ref w a} : (w = 0 ∨ w = n) → memOf a = m → refOf a = ref → Parsed n (.mem m ref) (.mem w a)
  | target {s} : Parsed n (.target s) (.imm ⟨8, .addr ⟨some (.normal, s), 0, 0, 0, 0⟩⟩)

theorem parseOperand_text {e : Env} {n : Nat} {a : Arg} {t b r : Bytes} (h : Text e n a t) (hb : Blank b)
    (hr : Stop r) : ∃ o, parseOperand e (b ++ (t ++ r)) = .ok (o, r) ∧ Parsed n a o := by
  cases h with
  | @gpr k w s hs =>
    have hm := gprName_mem hs
    have f := asmRegs_facts _ hm
    refine ⟨_, ?_, .gpr (k := k) ?_ f.2.2.2.2.1⟩
    · unfold parseOperand
      rw [tok_reg e hb hm hr]
      simp only [parseRegister_gpr hm]
    · have : ∀ r ∈ Encode.gprs, r < 17 := by decide
      have := this _ f.2.2.2.1
      dsimp only at this
      omega
  | @xmm k s hs =>
    obtain ⟨hp, ha⟩ := parseRegister_xmm (r := r) hs hr
    refine ⟨_, ?_, .xmm (k := k) (w := 0) (xmmName_facts hs).1 (.inl rfl)⟩
    unfold parseOperand
    rw [List.append_assoc, asmtok_skip e hb (t := str% "%%" ++ (s ++ r)) (Not.cons (by decide)),
      asmtok_reg e ha hr]
    simp only [hp]
  | @imm ds hd hv =>
    refine ⟨_, ?_, .imm (by omega) (by omega)⟩
    unfold parseOperand
    rw [List.cons_append, asmtok_skip e hb (Not.cons (by decide)), asmtok_const e hd.1 hr]
    have : List.drop 1 (36 :: (ds ++ r)) = ds ++ r := rfl
    simp only [this, strtol_numeral hd hr hv]
  | @mem base index t h =>
    obtain ⟨a, ha, hm, hy, -⟩ := parseAddress_inner h 0 r
    refine ⟨.mem 0 a, ?_, .mem (.inl rfl) hm (by rw [refOf, hy]; rfl)⟩
    have q2 := tok_punct e hb (c := chr% '(') (by decide) (t ++ r)
    unfold parseOperand
    simp only [List.cons_append, List.nil_append]
    rw [q2]
    simp only [if_true]
    have : parseAddress e (t ++ r) noAddr = .ok (a, r) := ha
    rw [this]
  | @disp base index d t dt b' hdt hb' h =>
    obtain ⟨a, ha, hm, hy, -⟩ := parseAddress_inner h d r
    refine ⟨.mem 0 a, ?_, .mem (.inl rfl) hm (by rw [refOf, hy]; rfl)⟩
    have q2 := tok_punct e hb' (c := chr% '(') (by decide) (t ++ r)
    obtain ⟨len, q1⟩ := asmtok_number e hdt (r := b' ++ (chr% '(' :: (t ++ r))) (stop_punct hb' (by decide) _)
    have hns : Not isSpace (dt ++ (b' ++ (chr% '(' :: (t ++ r)))) := by
      cases hdt with
      | plain hn hd hv =>
        obtain ⟨c, t, rfl⟩ := List.exists_cons_of_ne_nil hn
        exact Not.cons ((classes c).1 (hd c (by simp))).2
      | plus => exact Not.cons (by decide)
      | minus => exact Not.cons (by decide)
    have hd32 : toInt d = d := by
      unfold toInt
      cases hdt with
      | plain hn hd hv => exact Int.bmod_eq_of_le (by omega) (by omega)
      | plus hn hd hv => exact Int.bmod_eq_of_le (by omega) (by omega)
      | minus hn hd hv => exact Int.bmod_eq_of_le (by omega) (by omega)
    unfold parseOperand
    simp only [List.cons_append, List.nil_append, List.append_assoc]
    rw [asmtok_skip e hb hns, q1]
    simp only [q2, ne_eq, not_true_eq_false, if_false, hd32, ha]
  | @operand k al o _ ds ho ha hn hd hv hk =>
    have hlen : k < e.operands.length := (List.getElem?_eq_some_iff.mp ho).1
    refine ⟨o, ?_, ?_⟩
    · unfold parseOperand
      rw [List.cons_append, asmtok_skip e hb (Not.cons (by decide)), asmtok_op e hlen hn hd hv hk hr]
      simp only [Int.toNat_natCast, ho]
    · cases o with
      | reg w r' =>
        simp only [argOf] at ha
        split_ifs at ha with h1 h2
        · cases ha
          have g : ∀ r ∈ Encode.gprs, r - 1 < 16 ∧ r - 1 + 1 = r := by decide
          have := g r' h1.1
          have p := Parsed.gpr (n := n) this.1 h1.2
          rwa [this.2] at p
        · cases ha
          have g : ∀ r ∈ Encode.xmms, r - 17 < 16 ∧ r - 17 + 17 = r := by decide
          have := g r' h2.1
          have p := Parsed.xmm (n := n) this.1 (.inr h2.2)
          rwa [this.2] at p
      | mem w a' =>
        simp only [argOf] at ha
        split_ifs at ha with h1
        cases ha
        exact .mem (.inr h1) rfl rfl
      | imm i => cases ha
  | @label k l ds hl hn hd hv hk =>
    have hlen : k < e.targets.length := (List.getElem?_eq_some_iff.mp hl).1
    obtain ⟨len, q⟩ := asmtok_label e hlen hn hd hv hk hr
    refine ⟨_, ?_, .target (s := l)⟩
    unfold parseOperand
    rw [List.append_assoc, asmtok_skip e hb (t := str% "%l" ++ (ds ++ r)) (Not.cons (by decide)), q]
    simp only [Int.toNat_natCast, hl]

end Verif.Asm
