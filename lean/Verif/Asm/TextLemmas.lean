import Verif.Asm.Text
import Verif.Tac

/-! The tokens and operands found in text. -/

namespace Verif.Asm

open Att (Arg gprName xmmName)
open Encode.Intel (Mem)
open Encode (Addr memOf)

/-! ## Lists -/

theorem forall_byte {P : UInt8 → Prop} (h : ∀ n : Fin 256, P (UInt8.ofNat n.val)) (c : UInt8) : P c := by
  have := h ⟨c.toNat, c.toNat_lt⟩
  simpa using this

theorem dropWhile_all {α : Type} {p : α → Bool} {l r : List α} (h : ∀ x ∈ l, p x = true) :
    (l ++ r).dropWhile p = r.dropWhile p := by
  induction l with
  | nil => rfl
  | cons a l ih =>
    rw [List.cons_append, List.dropWhile_cons, if_pos (h a (by simp))]
    exact ih fun x hx => h x (by simp [hx])

/-- The first byte, if there is one, is not of a kind. -/
def Not (p : UInt8 → Bool) (r : Bytes) : Prop := ∀ c ∈ r.head?, p c = false

theorem Not.nil {p} : Not p [] := by intro c h; cases h

theorem Not.cons {p : UInt8 → Bool} {c r} (h : p c = false) : Not p (c :: r) := by
  intro d hd
  cases hd
  exact h

theorem Not.dropWhile {p : UInt8 → Bool} {r} (h : Not p r) : r.dropWhile p = r := by
  cases r with
  | nil => rfl
  | cons c r => rw [List.dropWhile_cons, if_neg (by rw [h c rfl]; decide)]

theorem span {p : UInt8 → Bool} {l r : Bytes} (h : ∀ x ∈ l, p x = true) (hn : Not p r) :
    (l ++ r).dropWhile p = r := by rw [dropWhile_all h, hn.dropWhile]

theorem skip {b t : Bytes} (h : Blank b) (hn : Not isSpace t) : skipWs (b ++ t) = t := span h hn

/-- What may follow an operand: no letter, digit, dot or underscore. -/
abbrev Stop (r : Bytes) : Prop := Not identChar r

theorem classes : ∀ c : UInt8,
    (isDigit c = true → isAlnum c = true ∧ isSpace c = false)
    ∧ (isAlnum c = true → identChar c = true ∧ isSpace c = false)
    ∧ (isSpace c = true → identChar c = false ∧ isAlnum c = false ∧ isDigit c = false) := by
  intro c
  revert c
  apply forall_byte
  decide +kernel

theorem Not.mono {p q : UInt8 → Bool} {r} (h : Not p r) (hpq : ∀ c, q c = true → p c = true) :
    Not q r := by
  intro c hc
  have := h c hc
  by_contra hq
  simp only [Bool.not_eq_false] at hq
  rw [hpq c hq] at this
  cases this

theorem Stop.alnum {r} (h : Stop r) : Not isAlnum r := h.mono fun c hc => ((classes c).2.1 hc).1
theorem Stop.digit {r} (h : Stop r) : Not isDigit r :=
  h.mono fun c hc => ((classes c).2.1 ((classes c).1 hc).1).1

theorem stop_blank {b r : Bytes} (h : Blank b) (hr : Stop r) : Stop (b ++ r) := by
  cases b with
  | nil => exact hr
  | cons c b => exact Not.cons ((classes c).2.2 (h c (by simp))).1

/-! ## Numbers -/

theorem digitOf_digit : ∀ c : UInt8, isDigit c = true → digitOf 10 c = some (c.toNat - 48) := by
  intro c; revert c; apply forall_byte; decide +kernel

theorem digitOf_none : ∀ c : UInt8, isDigit c = false → digitOf 10 c = none := by
  intro c; revert c; apply forall_byte; decide +kernel

theorem digits_eq {ds r : Bytes} (h : ∀ c ∈ ds, isDigit c = true) (hr : Not isDigit r) (n : Nat) :
    digits 10 (ds ++ r) n = (ds.foldl (fun n c => 10 * n + (c.toNat - 48)) n, r) := by
  induction ds generalizing n with
  | nil =>
    cases r with
    | nil => rfl
    | cons c r => simp only [List.nil_append, digits, digitOf_none c (hr c rfl), List.foldl_nil]
  | cons c ds ih =>
    rw [List.cons_append, digits, digitOf_digit c (h c (by simp))]
    exact ih (fun x hx => h x (by simp [hx])) _

theorem sign_digit : ∀ c : UInt8, isDigit c = true → ∀ r, sign (c :: r) = (false, c :: r) := by
  intro c h r
  have : c ≠ chr% '-' ∧ c ≠ chr% '+' := by revert c; apply forall_byte; decide +kernel
  simp [sign, this.1, this.2]

theorem clamp_eq {v : Int} (h1 : -9223372036854775808 ≤ v) (h2 : v ≤ 9223372036854775807) :
    clamp v = v := by
  unfold clamp
  rw [if_neg (by omega), if_neg (by omega)]

theorem strtol_digits {ds r b : Bytes} (hb : Blank b) (hn : ds ≠ []) (h : ∀ c ∈ ds, isDigit c = true)
    (hr : Not isDigit r) (hv : decimal ds < 2 ^ 63) :
    strtol 10 (b ++ (ds ++ r)) = ((decimal ds : Int), r) := by
  obtain ⟨c, ds', rfl⟩ := List.exists_cons_of_ne_nil hn
  have hc := h c (by simp)
  have hsp : (b ++ (c :: ds' ++ r)).dropWhile isSpace = c :: ds' ++ r :=
    span hb (Not.cons ((classes c).1 hc).2)
  have hf : firstDigit 10 (c :: ds' ++ r) = true := by
    simp only [List.cons_append, firstDigit, digitOf_digit c hc]; rfl
  have hd := digits_eq (ds := c :: ds') h hr 0
  unfold strtol
  rw [hsp, List.cons_append, sign_digit c hc]
  simp only [if_neg (show ¬ (10 : Nat) = 0 by decide)]
  rw [← List.cons_append, if_pos hf, hd]
  simp only [Bool.false_eq_true, if_false, Prod.mk.injEq, and_true]
  apply clamp_eq
  · omega
  · have : decimal (c :: ds') < 9223372036854775808 := hv
    unfold decimal at this
    omega

theorem strtol_signed {ds r : Bytes} {s : UInt8} (hs : s = chr% '-' ∨ s = chr% '+') (hn : ds ≠ [])
    (h : ∀ c ∈ ds, isDigit c = true) (hr : Not isDigit r) (hv : decimal ds < 2 ^ 63) :
    strtol 10 (s :: (ds ++ r)) = (if s = chr% '-' then -(decimal ds : Int) else decimal ds, r) := by
  obtain ⟨c, ds', rfl⟩ := List.exists_cons_of_ne_nil hn
  have hc := h c (by simp)
  have hsp : (s :: (c :: ds' ++ r)).dropWhile isSpace = s :: (c :: ds' ++ r) :=
    Not.dropWhile (Not.cons (by rcases hs with rfl | rfl <;> decide))
  have hf : firstDigit 10 (c :: ds' ++ r) = true := by
    simp only [List.cons_append, firstDigit, digitOf_digit c hc]; rfl
  have hd := digits_eq (ds := c :: ds') h hr 0
  have hsign : sign (s :: (c :: ds' ++ r)) = (decide (s = chr% '-'), c :: ds' ++ r) := by
    rcases hs with rfl | rfl <;> rfl
  unfold strtol
  rw [hsp, hsign]
  simp only [if_neg (show ¬ (10 : Nat) = 0 by decide)]
  rw [if_pos hf, hd]
  have hv' : decimal (c :: ds') < 9223372036854775808 := hv
  have e : List.foldl (fun n (c : UInt8) => 10 * n + (c.toNat - 48)) 0 (c :: ds') = decimal (c :: ds') := rfl
  rw [e]
  rcases hs with rfl | rfl
  · simp only [decide_true, if_true, Prod.mk.injEq, and_true]
    exact clamp_eq (by omega) (by omega)
  · have : ¬ ((43 : UInt8) = 45) := by decide
    simp only [this, decide_false, Bool.false_eq_true, if_false, Prod.mk.injEq, and_true]
    exact clamp_eq (by omega) (by omega)

/-- With base 0, a numeral is a decimal number. -/
theorem strtol_numeral {ds r : Bytes} (h : Numeral ds) (hr : Stop r) (hv : decimal ds < 2 ^ 63) :
    (strtol 0 (ds ++ r)).1 = (decimal ds : Int) := by
  obtain ⟨hd, h | ⟨c, ds', rfl, hc0⟩⟩ := h
  · subst h
    have ha : autoBase (str% "0" ++ r) = (8, str% "0" ++ r) ∨ autoBase (str% "0" ++ r) = (10, str% "0" ++ r) := by
      cases r with
      | nil => exact .inr rfl
      | cons x r =>
        have hx : ¬ (x = 120 ∨ x = 88) := by
          have := hr x rfl
          rintro (rfl | rfl) <;> revert this <;> decide
        have hx1 : decide (x = 120) = false := decide_eq_false fun g => hx (.inl g)
        have hx2 : decide (x = 88) = false := decide_eq_false fun g => hx (.inr g)
        left
        simp [autoBase, hx1, hx2]
    have hz : ∀ b, b = 8 ∨ b = 10 → digits b (str% "0" ++ r) 0 = (0, r) := by
      intro b hb
      have h0 : digitOf b 48 = some 0 := by rcases hb with rfl | rfl <;> decide
      have hn : ∀ c ∈ r.head?, digitOf b c = none := by
        intro c hc
        have hk := hr c hc
        have : ∀ c : UInt8, identChar c = false → digitOf 8 c = none ∧ digitOf 10 c = none := by
          intro c; revert c; apply forall_byte; decide +kernel
        rcases hb with rfl | rfl
        · exact (this c hk).1
        · exact (this c hk).2
      rw [List.cons_append, List.nil_append, digits, h0]
      cases r with
      | nil => simp [digits]
      | cons c r => simp [digits, hn c rfl]
    have hsp : (str% "0" ++ r).dropWhile isSpace = str% "0" ++ r := Not.dropWhile (Not.cons (by decide))
    have hsg : sign (str% "0" ++ r) = (false, str% "0" ++ r) := rfl
    unfold strtol
    rw [hsp, hsg]
    simp only [if_true]
    rcases ha with ha | ha <;> rw [ha]
    · rw [if_pos (by rfl), hz 8 (.inl rfl)]; rfl
    · rw [if_pos (by rfl), hz 10 (.inr rfl)]; rfl
  · have hc := hd c (by simp)
    have ha : autoBase (c :: ds' ++ r) = (10, c :: ds' ++ r) := by
      rw [List.cons_append]
      cases ds' ++ r with
      | nil => rfl
      | cons x t => simp only [autoBase, if_neg hc0]
    have h10 := strtol_digits (b := []) (by intro c h; cases h) (by simp) hd hr.digit hv
    unfold strtol at h10 ⊢
    rw [List.nil_append] at h10
    have hsp : (c :: ds' ++ r).dropWhile isSpace = c :: ds' ++ r :=
      Not.dropWhile (Not.cons ((classes c).1 hc).2)
    rw [hsp] at h10 ⊢
    rw [List.cons_append, sign_digit c hc] at h10 ⊢
    simp only [if_neg (show ¬ (10 : Nat) = 0 by decide)] at h10
    simp only [if_true]
    rw [← List.cons_append] at h10 ⊢
    rw [ha]
    exact congrArg Prod.fst h10

/-! ## Tokens -/

theorem tok_len (ty : TT) (s r : Bytes) (v : Int) :
    tok ty (s ++ r) r v = .ok (⟨ty, s ++ r, s.length, v⟩, r) := by
  simp [tok]

/-- The first byte decides. -/
theorem asmtok_skip (e : Env) {b t : Bytes} (hb : Blank b) (ht : Not isSpace t) :
    asmtok e (b ++ t) = asmtok e t := by
  unfold asmtok
  rw [skip hb ht]
  have : skipWs t = t := ht.dropWhile
  rw [this]

theorem asmtok_reg (e : Env) {s r : Bytes} (hs : ∀ c ∈ s, isAlnum c = true) (hr : Stop r) :
    asmtok e (str% "%%" ++ (s ++ r)) = .ok (⟨.reg, s ++ r, s.length, 0⟩, r) := by
  have h1 : skipWs (str% "%%" ++ (s ++ r)) = str% "%%" ++ (s ++ r) := Not.dropWhile (Not.cons (by decide))
  have h2 : (s ++ r).dropWhile isAlnum = r := span hs hr.alnum
  unfold asmtok
  rw [h1]
  simp only [List.cons_append, List.nil_append]
  have : percentTok e (37 :: 37 :: (s ++ r)) (37 :: (s ++ r)) = regTok (s ++ r) := by
    simp [percentTok]
  rw [if_neg (by decide), if_neg (by simp; decide), if_neg (by decide), if_neg (by decide),
    if_neg (by decide), if_pos (by trivial), this, regTok, h2, tok_len]

theorem asmtok_star (e : Env) {s r : Bytes} (hs : ∀ c ∈ s, isAlnum c = true) (hr : Stop r) :
    asmtok e (str% "*%%" ++ (s ++ r)) = .ok (⟨.reg, s ++ r, s.length, 0⟩, r) := by
  have h1 : skipWs (str% "*%%" ++ (s ++ r)) = str% "*%%" ++ (s ++ r) := Not.dropWhile (Not.cons (by decide))
  have h2 : (s ++ r).dropWhile isAlnum = r := span hs hr.alnum
  unfold asmtok
  rw [h1]
  simp only [List.cons_append, List.nil_append]
  have : starTok (37 :: 37 :: (s ++ r)) = regTok (s ++ r) := by simp [starTok]
  rw [if_neg (by decide), if_neg (by simp; decide), if_neg (by decide), if_neg (by decide),
    if_pos (by trivial), this, regTok, h2, tok_len]

theorem asmtok_punct (e : Env) {c : UInt8} (hc : c ∈ str% "(),") (r : Bytes) :
    asmtok e (c :: r) = .ok (⟨.punct c, c :: r, 1, 0⟩, r) := by
  have hc' : c ≠ chr% '-' ∧ c ≠ chr% '+' ∧ isSpace c = false ∧
      (isAlpha c || c = chr% '.' || c = chr% '_') = false ∧ isDigit c = false ∧
      c ∈ str% "[](),-" := by
    revert hc; revert c; apply forall_byte; decide +kernel
  obtain ⟨h1, h2, h3, h4, h5, h6⟩ := hc'
  have hs : skipWs (c :: r) = c :: r := Not.dropWhile (Not.cons h3)
  unfold asmtok
  rw [hs]
  simp only
  rw [if_neg (by rw [h4]; decide), if_neg (by simp [h5, h1, h2]), if_pos h6]
  exact tok_len _ [c] r 0

theorem asmtok_ident (e : Env) {s r : Bytes} (hn : s ≠ []) (hs : ∀ c ∈ s, identChar c = true)
    (h0 : Not isDigit s) (hr : Stop r) :
    asmtok e (s ++ r) = .ok (⟨.ident, s ++ r, s.length, 0⟩, r) := by
  obtain ⟨c, s', rfl⟩ := List.exists_cons_of_ne_nil hn
  have hc := hs c (by simp)
  have hd := h0 c rfl
  have hk : isSpace c = false ∧ (isAlpha c || c = chr% '.' || c = chr% '_') = true := by
    exact (show ∀ c : UInt8, identChar c = true → isDigit c = false → isSpace c = false ∧
      (isAlpha c || c = chr% '.' || c = chr% '_') = true by apply forall_byte; decide +kernel) c hc hd
  have h1 : skipWs (c :: s' ++ r) = c :: s' ++ r := Not.dropWhile (Not.cons hk.1)
  have h2 : (s' ++ r).dropWhile identChar = r := span (fun x hx => hs x (by simp [hx])) hr
  unfold asmtok
  rw [h1]
  simp only [List.cons_append]
  rw [if_pos hk.2, h2, ← List.cons_append, tok_len]

theorem asmtok_const (e : Env) {s r : Bytes} (hs : ∀ c ∈ s, isDigit c = true) (hr : Stop r) :
    asmtok e (chr% '$' :: (s ++ r)) = .ok (⟨.constant, chr% '$' :: (s ++ r), s.length + 1, 0⟩, r) := by
  have h1 : skipWs (chr% '$' :: (s ++ r)) = chr% '$' :: (s ++ r) := Not.dropWhile (Not.cons (by decide))
  have h2 : (s ++ r).dropWhile isDigit = r := span hs hr.digit
  unfold asmtok
  rw [h1]
  simp only
  rw [if_neg (by decide), if_neg (by simp; decide), if_neg (by decide), if_pos (by trivial), h2, ← List.cons_append, tok_len]
  simp

theorem asmtok_number (e : Env) {d : Int} {dt r : Bytes} (h : DispText d dt) (hr : Stop r) :
    ∃ len, asmtok e (dt ++ r) = .ok (⟨.number, dt ++ r, len, d⟩, r) := by
  have key : ∀ c t, c :: t = dt → isSpace c = false →
      (isAlpha c || c = chr% '.' || c = chr% '_') = false →
      (isDigit c || ((c = chr% '-' || c = chr% '+') && ((t ++ r).head?.any isDigit))) = true →
      strtol 10 (dt ++ r) = (d, r) → ∃ len, asmtok e (dt ++ r) = .ok (⟨.number, dt ++ r, len, d⟩, r) := by
    intro c t ht h1 h2 h3 h4
    subst ht
    have hs : skipWs (c :: t ++ r) = c :: t ++ r := Not.dropWhile (Not.cons h1)
    refine ⟨(c :: t).length, ?_⟩
    unfold asmtok
    rw [hs]
    simp only [List.cons_append]
    rw [if_neg (by rw [h2]; decide), if_pos h3, ← List.cons_append, h4]
    exact tok_len _ _ _ _
  have dig : ∀ c : UInt8, isDigit c = true → isSpace c = false ∧
      (isAlpha c || c = chr% '.' || c = chr% '_') = false := by intro c; revert c; apply forall_byte; decide +kernel
  cases h with
  | plain hn hd hv =>
    obtain ⟨c, t, rfl⟩ := List.exists_cons_of_ne_nil hn
    have hc := hd c (by simp)
    refine key c t rfl (dig c hc).1 (dig c hc).2 (by simp [hc]) ?_
    exact strtol_digits (b := []) (by intro c h; cases h) hn hd hr.digit (by omega)
  | @plus ds hn hd hv =>
    obtain ⟨c, t, rfl⟩ := List.exists_cons_of_ne_nil hn
    have hc := hd c (by simp)
    refine key (chr% '+') (c :: t) rfl (by decide) (by decide) (by simp [hc]) ?_
    exact strtol_signed (.inr rfl) hn hd hr.digit (by omega)
  | @minus ds hn hd hv =>
    obtain ⟨c, t, rfl⟩ := List.exists_cons_of_ne_nil hn
    have hc := hd c (by simp)
    refine key (chr% '-') (c :: t) rfl (by decide) (by decide) (by simp [hc]) ?_
    exact strtol_signed (.inl rfl) hn hd hr.digit (by omega)

theorem asmtok_op (e : Env) {k : Nat} {ds r : Bytes} (hk : k < e.operands.length) (hn : ds ≠ [])
    (hd : ∀ c ∈ ds, isDigit c = true) (hv : decimal ds = k) (h63 : k < 2 ^ 63) (hr : Stop r) :
    asmtok e (chr% '%' :: (ds ++ r)) = .ok (⟨.op, ds ++ r, ds.length, k⟩, r) := by
  have h1 : skipWs (chr% '%' :: (ds ++ r)) = chr% '%' :: (ds ++ r) := Not.dropWhile (Not.cons (by decide))
  have hst := strtol_digits (b := []) (by intro c h; cases h) hn hd hr.digit (by omega)
  rw [List.nil_append] at hst
  obtain ⟨c, t, rfl⟩ := List.exists_cons_of_ne_nil hn
  have hc := hd c (by simp)
  have hc2 : c ≠ chr% '%' := 
    (show ∀ c : UInt8, isDigit c = true → c ≠ chr% '%' by apply forall_byte; decide +kernel) c hc
  have hp : percentTok e (chr% '%' :: (c :: t ++ r)) (c :: t ++ r) = opTok e (c :: t ++ r) := by
    simp only [List.cons_append, percentTok, if_neg hc2, if_pos hc]
  unfold asmtok
  rw [h1]
  simp only
  rw [if_neg (by decide), if_neg (by simp; decide), if_neg (by decide), if_neg (by decide),
    if_neg (by decide), if_pos (by trivial), hp, opTok, hst]
  simp only
  rw [if_neg (by omega), tok_len, hv]

theorem asmtok_label (e : Env) {k : Nat} {ds r : Bytes} (hk : k < e.targets.length) (hn : ds ≠ [])
    (hd : ∀ c ∈ ds, isDigit c = true) (hv : decimal ds = e.operands.length + k)
    (h63 : e.operands.length + k < 2 ^ 63) (hr : Stop r) :
    ∃ len, asmtok e (str% "%l" ++ (ds ++ r)) = .ok (⟨.label, str% "%l" ++ (ds ++ r), len, k⟩, r) := by
  have h1 : skipWs (str% "%l" ++ (ds ++ r)) = str% "%l" ++ (ds ++ r) := Not.dropWhile (Not.cons (by decide))
  have hst := strtol_digits (b := []) (by intro c h; cases h) hn hd hr.digit (by omega)
  rw [List.nil_append] at hst
  have hp : percentTok e (str% "%l" ++ (ds ++ r)) (chr% 'l' :: (ds ++ r)) = labelTok e (str% "%l" ++ (ds ++ r)) (ds ++ r) := by
    simp only [percentTok, if_neg (show ¬ (108 : UInt8) = 37 by decide),
      if_neg (show ¬ isDigit 108 = true by decide), if_neg (show ¬ (108 : UInt8) = 91 by decide), if_true]
  refine ⟨ds.length + 2, ?_⟩
  unfold asmtok
  rw [h1]
  simp only [List.cons_append, List.nil_append] at hp ⊢
  rw [if_neg (by decide), if_neg (by simp; decide), if_neg (by decide), if_neg (by decide),
    if_neg (by decide), if_pos (by trivial), hp, labelTok, hst]
  simp only
  have hq : ((decimal ds : Int) - e.operands.length) = k := by omega
  rw [hq, if_neg (by omega), tok]
  simp
  omega

end Verif.Asm
