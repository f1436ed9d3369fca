import Verif.Tac
import Verif.Lex.StringSpec
namespace Verif.Lex

theorem forall_byte {P : UInt8 → Prop} (h : ∀ n : Fin 256, P (UInt8.ofNat n.val)) (c : UInt8) : P c := by
  have := h ⟨c.toNat, c.toNat_lt⟩
  simpa using this

open Spec

theorem printChar_cases (c : UInt8) :
    (printChar c = [c] ∧ c ≠ 34 ∧ c ≠ 92 ∧ c ≠ 10) ∨
    (∃ e ∈ simple, printChar c = [92, e.1] ∧ e.2 = c) ∨
    (∃ a ∈ octs, ∃ b ∈ octs, ∃ d ∈ octs, printChar c = [92, a.1, b.1, d.1] ∧
      (a.2 * 8 + b.2) * 8 + d.2 = c.toNat) := by
  revert c
  refine forall_byte ?_
  decide +kernel

theorem digits3 {tbl : List (UInt8 × Nat)} {base : Nat} {a b d : UInt8 × Nat}
    (ha : a ∈ tbl) (hb : b ∈ tbl) (hd : d ∈ tbl) :
    Digits tbl base [a.1, b.1, d.1] ((a.2 * base + b.2) * base + d.2) := by
  have h1 : Digits tbl base ([] ++ [a.1]) (0 * base + a.2) := Digits.snoc Digits.nil ha
  rw [Nat.zero_mul, Nat.zero_add] at h1
  exact Digits.snoc (Digits.snoc h1 hb) hd

theorem print_body (P : Bytes → Prop) (bs : Bytes) : BodyP P (bs.flatMap printChar) bs := by
  induction bs with
  | nil => exact BodyP.nil
  | cons c bs ih =>
    rw [List.flatMap_cons]
    rcases printChar_cases c with ⟨h, h1, h2, h3⟩ | ⟨e, he, h, hv⟩ | ⟨a, ha, b, hb, d, hd, h, hv⟩
    · rw [h]
      exact BodyP.plain h1 h2 h3 ih
    · rw [h]
      have := BodyP.simple (e := e.1) (v := e.2) he ih
      rw [hv] at this
      exact this
    · rw [h]
      have := BodyP.octal (ds := [a.1, b.1, d.1]) (digits3 (base := 8) ha hb hd) (by simp) (by simp)
        (by simp) (by rw [hv]; exact c.toNat_lt) ih
      rw [hv] at this
      simpa using this

/-! ## The denotation of a literal is unique -/

theorem octs_val : ∀ p ∈ octs, isOctal p.1 = true ∧ xval p.1 = p.2 := by decide
theorem hexs_val : ∀ p ∈ hexs, isXDigit p.1 = true ∧ xval p.1 = p.2 := by decide
theorem octs_iff (c : UInt8) : isOctal c = true ↔ (c, xval c) ∈ octs := by
  revert c; refine forall_byte ?_; decide +kernel
theorem hexs_iff (c : UInt8) : isXDigit c = true ↔ (c, xval c) ∈ hexs := by
  revert c; refine forall_byte ?_; decide +kernel

theorem digits_oct {ds : Bytes} {n : Nat} (h : Digits octs 8 ds n) :
    (∀ c ∈ ds, isOctal c = true) ∧ digitsValue 8 ds = n := by
  induction h with
  | nil => simp [digitsValue]
  | snoc _ hc ih =>
    obtain ⟨h1, h2⟩ := octs_val _ hc
    refine ⟨?_, ?_⟩
    · intro c hc'
      rcases List.mem_append.mp hc' with h | h
      · exact ih.1 c h
      · simp only [List.mem_singleton] at h; subst h; exact h1
    · have := ih.2
      simp only [digitsValue] at this ⊢
      rw [List.foldl_append, this]
      simp only [List.foldl_cons, List.foldl_nil]
      rw [show xval _ = _ from h2]

theorem digits_hex {ds : Bytes} {n : Nat} (h : Digits hexs 16 ds n) :
    (∀ c ∈ ds, isXDigit c = true) ∧ digitsValue 16 ds = n := by
  induction h with
  | nil => simp [digitsValue]
  | snoc _ hc ih =>
    obtain ⟨h1, h2⟩ := hexs_val _ hc
    refine ⟨?_, ?_⟩
    · intro c hc'
      rcases List.mem_append.mp hc' with h | h
      · exact ih.1 c h
      · simp only [List.mem_singleton] at h; subst h; exact h1
    · have := ih.2
      simp only [digitsValue] at this ⊢
      rw [List.foldl_append, this]
      simp only [List.foldl_cons, List.foldl_nil]
      rw [show xval _ = _ from h2]

theorem takeWhile_prefix {p : UInt8 → Bool} {ds t : Bytes} (h1 : ∀ c ∈ ds, p c = true)
    (h2 : ∀ c ∈ t.head?, p c = false) :
    (ds ++ t).takeWhile p = ds ∧ (ds ++ t).dropWhile p = t := by
  induction ds with
  | nil =>
    cases t with
    | nil => simp
    | cons c t => simp [h2 c (by simp)]
  | cons c ds ih =>
    have hc := h1 c (by simp)
    have := ih (fun x hx => h1 x (List.mem_cons_of_mem _ hx))
    simp [hc, this]

theorem noDigit_oct {t : Bytes} (h : NoDigit octs t) : ∀ c ∈ t.head?, isOctal c = false := by
  intro c hc
  by_contra hcon
  have := (octs_iff c).mp (by simpa using hcon)
  exact h c hc _ this

theorem noDigit_hex {t : Bytes} (h : NoDigit hexs t) : ∀ c ∈ t.head?, isXDigit c = false := by
  intro c hc
  by_contra hcon
  have := (hexs_iff c).mp (by simpa using hcon)
  exact h c hc _ this

/-- Octal escape: the up to three leading octal digits of `ds ++ t` are `ds`. -/
theorem take3_oct {ds t : Bytes} (hl : ds.length ≤ 3) (hd : ∀ c ∈ ds, isOctal c = true)
    (hn : ds.length < 3 → NoDigit octs t) :
    ((ds ++ t).take 3).takeWhile isOctal = ds := by
  rw [List.take_append, List.take_of_length_le hl]
  refine (takeWhile_prefix hd ?_).1
  intro c hc
  by_cases h3 : ds.length < 3
  · refine noDigit_oct (hn h3) c ?_
    cases t with
    | nil => simp at hc
    | cons x t =>
      have : 3 - ds.length = (2 - ds.length) + 1 := by omega
      rw [this] at hc
      simpa using hc
  · have : 3 - ds.length = 0 := by omega
    simp [this] at hc

theorem simple_escape : ∀ p ∈ simple, ∀ rest, convertEscape (p.1 :: rest) = some (p.2, rest) := by
  intro p hp rest
  simp only [simple, List.mem_cons, List.not_mem_nil, or_false] at hp
  rcases hp with rfl | rfl | rfl | rfl | rfl | rfl | rfl | rfl | rfl | rfl | rfl <;> rfl

theorem oct_not_simple (c : UInt8) (h : isOctal c = true) :
    c ≠ 97 ∧ c ≠ 98 ∧ c ≠ 116 ∧ c ≠ 110 ∧ c ≠ 118 ∧ c ≠ 102 ∧ c ≠ 114 ∧ c ≠ 63 ∧ c ≠ 39 ∧
    c ≠ 34 ∧ c ≠ 92 ∧ c ≠ 120 := by
  revert c; refine forall_byte ?_; decide +kernel

theorem octal_escape {ds t : Bytes} {n : Nat} (hd : Digits octs 8 ds n) (h1 : 1 ≤ ds.length)
    (h3 : ds.length ≤ 3) (hn : ds.length < 3 → NoDigit octs t) (h256 : n < 256) :
    convertEscape (ds ++ t) = some (UInt8.ofNat n, t) := by
  obtain ⟨ho, hv⟩ := digits_oct hd
  have htk := take3_oct h3 ho hn
  cases ds with
  | nil => simp at h1
  | cons c ds =>
    have hc := ho c (by simp)
    obtain ⟨n1, n2, n3, n4, n5, n6, n7, n8, n9, n10, n11, n12⟩ := oct_not_simple c hc
    simp only [List.cons_append] at htk ⊢
    simp only [convertEscape, n1, n2, n3, n4, n5, n6, n7, n8, n9, n10, n11, n12, if_false, hc, if_true,
      htk, hv, Nat.mod_eq_of_lt h256]
    congr 2
    simp

theorem hex_escape {ds t : Bytes} {n : Nat} (hd : Digits hexs 16 ds n) (h1 : 1 ≤ ds.length)
    (hn : NoDigit hexs t) (h256 : n < 256) (hp : ¬ LooksPrefixed (ds ++ t)) :
    convertEscape (120 :: (ds ++ t)) = some (UInt8.ofNat n, t) := by
  obtain ⟨ho, hv⟩ := digits_hex hd
  obtain ⟨htk, hdw⟩ := takeWhile_prefix ho (noDigit_hex hn)
  cases ds with
  | nil => simp at h1
  | cons c ds =>
    have hc := ho c (by simp)
    have hx : strtolHex ((c :: ds) ++ t) = (n, t) := by
      have hpre : strip0x ((c :: ds) ++ t) = (c :: ds) ++ t := by
        unfold strip0x
        split
        · rename_i z x d rest heq
          split
          · rename_i hcond
            exfalso
            simp only [Bool.and_eq_true, Bool.or_eq_true, decide_eq_true_eq] at hcond
            obtain ⟨⟨rfl, hx⟩, hd⟩ := hcond
            exact hp ⟨x, d, xval d, rest, heq, hx, (hexs_iff d).mp hd⟩
          · exact heq.symm
        · rfl
      unfold strtolHex
      simp only [hpre, htk, hdw, hv]
      congr 1
      omega
    simp only [List.cons_append] at hx ⊢
    simp only [convertEscape]
    simp [hc, hx, Nat.mod_eq_of_lt h256]

theorem convertLoop_step {n : Nat} {s rest : Bytes} {c : UInt8} (hc : convertChar s = some (c, rest))
    (hs : s ≠ []) : convertLoop (n + 1) s = (convertLoop n rest).map (fun r => c :: r) := by
  cases s with
  | nil => exact absurd rfl hs
  | cons x s => simp [convertLoop, hc]

theorem convert_body {t bs : Bytes} (h : BodyP (fun x => ¬ LooksPrefixed x) t bs) :
    ∀ n, t.length ≤ n → convertLoop n t = some bs := by
  induction h with
  | nil => intro n _; cases n <;> rfl
  | @plain c t bs h1 h2 h3 _ ih =>
    intro n hn
    simp only [List.length_cons] at hn
    obtain ⟨m, rfl⟩ : ∃ m, n = m + 1 := ⟨n - 1, by omega⟩
    rw [convertLoop_step (c := c) (rest := t) (by simp [convertChar, h2]) (by simp),
      ih m (by omega)]
    rfl
  | @simple e v t bs he _ ih =>
    intro n hn
    simp only [List.length_cons] at hn
    obtain ⟨m, rfl⟩ : ∃ m, n = m + 1 := ⟨n - 1, by omega⟩
    rw [convertLoop_step (c := v) (rest := t) (by simp [convertChar, simple_escape _ he]) (by simp),
      ih m (by omega)]
    rfl
  | @octal ds t bs n hd h1 h3 hnd h256 _ ih =>
    intro m hm
    simp only [List.length_cons, List.length_append] at hm
    obtain ⟨m', rfl⟩ : ∃ m', m = m' + 1 := ⟨m - 1, by omega⟩
    rw [convertLoop_step (c := UInt8.ofNat n) (rest := t)
      (by simp [convertChar, octal_escape hd h1 h3 hnd h256]) (by simp),
      ih m' (by omega)]
    rfl
  | @hex ds t bs n hd h1 hnd h256 hp _ ih =>
    intro m hm
    simp only [List.length_cons, List.length_append] at hm
    obtain ⟨m', rfl⟩ : ∃ m', m = m' + 1 := ⟨m - 1, by omega⟩
    rw [convertLoop_step (c := UInt8.ofNat n) (rest := t)
      (by simp [convertChar, hex_escape hd h1 hnd h256 hp]) (by simp),
      ih m' (by omega)]
    rfl

/-! ## Scanning for the closing quote -/

theorem simple_skip : ∀ p ∈ simple, ∀ rest, skipEscape (p.1 :: rest) = some rest := by
  intro p hp rest
  simp only [simple, List.mem_cons, List.not_mem_nil, or_false] at hp
  rcases hp with rfl | rfl | rfl | rfl | rfl | rfl | rfl | rfl | rfl | rfl | rfl <;> rfl

theorem quote_not_oct : isOctal 34 = false := by decide
theorem quote_not_hex : isXDigit 34 = false := by decide

theorem octal_skip {ds t : Bytes} (ho : ∀ c ∈ ds, isOctal c = true) (h1 : 1 ≤ ds.length)
    (h3 : ds.length ≤ 3) (hn : ds.length < 3 → ∀ c ∈ t.head?, isOctal c = false) :
    skipEscape (ds ++ t) = some t := by
  match ds, h1, h3 with
  | [a], _, _ =>
    have ha := ho a (by simp)
    have hx := (oct_not_simple a ha).2.2.2.2.2.2.2.2.2.2.2
    have hn := hn (by simp)
    cases t with
    | nil => simp [skipEscape, ha, hx]
    | cons c t => simp [skipEscape, ha, hx, hn c (by simp)]
  | [a, b], _, _ =>
    have ha := ho a (by simp)
    have hb := ho b (by simp)
    have hx := (oct_not_simple a ha).2.2.2.2.2.2.2.2.2.2.2
    have hn := hn (by simp)
    cases t with
    | nil => simp [skipEscape, ha, hb, hx]
    | cons c t => simp [skipEscape, ha, hb, hx, hn c (by simp)]
  | [a, b, c], _, _ =>
    have ha := ho a (by simp)
    have hb := ho b (by simp)
    have hc := ho c (by simp)
    have hx := (oct_not_simple a ha).2.2.2.2.2.2.2.2.2.2.2
    simp [skipEscape, ha, hb, hc, hx]
  | _ :: _ :: _ :: _ :: _, _, h => simp at h

theorem scan_body {P : Bytes → Prop} {t bs : Bytes} (h : BodyP P t bs) : ∀ rest n, t.length < n →
    scanString n (t ++ 34 :: rest) = some (t, rest) := by
  induction h with
  | nil =>
    intro rest n hn
    obtain ⟨m, rfl⟩ : ∃ m, n = m + 1 := ⟨n - 1, by omega⟩
    simp [scanString]
  | @plain c t bs h1 h2 h3 _ ih =>
    intro rest n hn
    simp only [List.length_cons] at hn
    obtain ⟨m, rfl⟩ : ∃ m, n = m + 1 := ⟨n - 1, by omega⟩
    simp [scanString, h1, h2, ih rest m (by omega)]
  | @simple e v t bs he _ ih =>
    intro rest n hn
    simp only [List.length_cons] at hn
    obtain ⟨m, rfl⟩ : ∃ m, n = m + 1 := ⟨n - 1, by omega⟩
    simp only [List.cons_append, scanString, simple_skip _ he, ih rest m (by omega)]
    simp only [List.length_cons, List.length_append]
    have : t.length + (rest.length + 1) + 1 + 1 - (t.length + (rest.length + 1)) = 2 := by omega
    simp [this]
  | @octal ds t bs n hd h1 h3 hnd h256 _ ih =>
    intro rest m hm
    simp only [List.length_cons, List.length_append] at hm
    obtain ⟨m', rfl⟩ : ∃ m', m = m' + 1 := ⟨m - 1, by omega⟩
    have hsk : skipEscape (ds ++ (t ++ 34 :: rest)) = some (t ++ 34 :: rest) := by
      refine octal_skip (digits_oct hd).1 h1 h3 ?_
      intro hlt c hc
      cases t with
      | nil => simp only [List.nil_append, List.head?_cons, Option.mem_some_iff] at hc
               subst hc; exact quote_not_oct
      | cons x t => exact noDigit_oct (hnd hlt) c (by simpa using hc)
    simp only [List.cons_append, List.append_assoc, scanString, hsk, ih rest m' (by omega)]
    simp only [List.length_cons, List.length_append]
    have : ds.length + (t.length + (rest.length + 1)) + 1 - (t.length + (rest.length + 1))
        = ds.length + 1 := by omega
    simp [this]
  | @hex ds t bs n hd h1 hnd h256 hp _ ih =>
    intro rest m hm
    simp only [List.length_cons, List.length_append] at hm
    obtain ⟨m', rfl⟩ : ∃ m', m = m' + 1 := ⟨m - 1, by omega⟩
    have hsk : skipEscape (120 :: (ds ++ (t ++ 34 :: rest))) = some (t ++ 34 :: rest) := by
      have := (takeWhile_prefix (p := isXDigit) (ds := ds) (t := t ++ 34 :: rest)
        (digits_hex hd).1 (by
          intro c hc
          cases t with
          | nil => simp only [List.nil_append, List.head?_cons, Option.mem_some_iff] at hc
                   subst hc; exact quote_not_hex
          | cons x t => exact noDigit_hex hnd c (by simpa using hc))).2
      simp [skipEscape, this]
    simp only [List.cons_append, List.append_assoc, scanString, hsk, ih rest m' (by omega)]
    simp only [List.length_cons, List.length_append]
    have : ds.length + (t.length + (rest.length + 1)) + 1 + 1 - (t.length + (rest.length + 1))
        = ds.length + 2 := by omega
    simp [this]

theorem strtostr_body {P : Bytes → Prop} {t bs : Bytes} (h : BodyP P t bs) (rest : Bytes) :
    strtostr (34 :: (t ++ 34 :: rest)) = some (t, rest) := by
  simp only [strtostr, if_true]
  exact scan_body h rest _ (by simp; omega)

end Verif.Lex

namespace Verif.Lex
open Spec

theorem simple_not_oct : ∀ p ∈ simple, isOctal p.1 = false ∧ p.1 ≠ 120 := by decide
theorem simple_fun : ∀ p ∈ simple, ∀ q ∈ simple, p.1 = q.1 → p.2 = q.2 := by decide

theorem body_unique {P Q : Bytes → Prop} {t a : Bytes} (h : BodyP P t a) :
    ∀ {b}, BodyP Q t b → a = b := by
  induction h with
  | nil => intro b hb; cases hb; rfl
  | @plain c t bs h1 h2 h3 _ ih =>
    intro b hb
    cases hb with
    | plain _ _ _ hb => rw [ih hb]
    | simple => exact absurd rfl h2
    | octal => exact absurd rfl h2
    | hex => exact absurd rfl h2
  | @simple e v t bs he _ ih =>
    intro b hb
    generalize hx : (92 :: e :: t : Bytes) = x at hb
    cases hb with
    | nil => simp at hx
    | plain _ h2 _ _ => simp at hx; exact absurd hx.1.symm h2
    | simple he' hb =>
      simp only [List.cons.injEq, true_and] at hx
      obtain ⟨rfl, rfl⟩ := hx
      rw [ih hb]
      have : v = _ := simple_fun _ he _ he' rfl
      rw [this]
    | @octal ds _ _ _ hd h1 _ _ _ _ =>
      exfalso
      cases ds with
      | nil => simp at h1
      | cons y ds =>
        simp only [List.cons_append, List.cons.injEq, true_and] at hx
        have := (digits_oct hd).1 y (by simp)
        rw [← hx.1, (simple_not_oct _ he).1] at this
        simp at this
    | hex =>
      exfalso
      simp only [List.cons.injEq, true_and] at hx
      exact (simple_not_oct _ he).2 hx.1
  | @octal ds t bs n hd h1 h3 hnd h256 _ ih =>
    intro b hb
    generalize hx : (92 :: (ds ++ t) : Bytes) = x at hb
    cases hb with
    | nil => simp at hx
    | plain _ h2 _ _ => simp at hx; exact absurd hx.1.symm h2
    | simple he' hb =>
      exfalso
      cases ds with
      | nil => simp at h1
      | cons y ds =>
        simp only [List.cons_append, List.cons.injEq, true_and] at hx
        have := (digits_oct hd).1 y (by simp)
        rw [hx.1, (simple_not_oct _ he').1] at this
        simp at this
    | @octal ds' t' bs' n' hd' h1' h3' hnd' h256' hb =>
      simp only [List.cons.injEq, true_and] at hx
      have e1 := take3_oct h3 (digits_oct hd).1 hnd
      have e2 := take3_oct h3' (digits_oct hd').1 hnd'
      rw [hx, e2] at e1
      subst e1
      have ht := List.append_cancel_left hx
      subst ht
      rw [ih hb, ← (digits_oct hd).2, ← (digits_oct hd').2]
    | @hex ds' t' bs' n' hd' h1' _ _ _ _ =>
      exfalso
      cases ds with
      | nil => simp at h1
      | cons y ds =>
        simp only [List.cons_append, List.cons.injEq, true_and] at hx
        have := (digits_oct hd).1 y (by simp)
        rw [hx.1] at this
        simp [isOctal] at this
  | @hex ds t bs n hd h1 hnd h256 _ _ ih =>
    intro b hb
    generalize hx : (92 :: 120 :: (ds ++ t) : Bytes) = x at hb
    cases hb with
    | nil => simp at hx
    | plain _ h2 _ _ => simp at hx; exact absurd hx.1.symm h2
    | simple he' hb =>
      exfalso
      simp only [List.cons.injEq, true_and] at hx
      exact (simple_not_oct _ he').2 hx.1.symm
    | @octal ds' t' bs' n' hd' h1' h3' hnd' h256' hb =>
      exfalso
      cases ds' with
      | nil => simp at h1'
      | cons y ds =>
        simp only [List.cons_append, List.cons.injEq, true_and] at hx
        have := (digits_oct hd').1 y (by simp)
        rw [← hx.1] at this
        simp [isOctal] at this
    | @hex ds' t' bs' n' hd' h1' hnd' _ _ hb =>
      simp only [List.cons.injEq, true_and] at hx
      have e1 := takeWhile_prefix (digits_hex hd).1 (noDigit_hex hnd)
      have e2 := takeWhile_prefix (digits_hex hd').1 (noDigit_hex hnd')
      rw [hx] at e1
      have hds : ds' = ds := by rw [← e2.1, e1.1]
      subst hds
      have ht := List.append_cancel_left hx
      subst ht
      rw [ih hb, ← (digits_hex hd).2, ← (digits_hex hd').2]

/-! ## Stringification -/

/-- `Conv s bs`: the conversion loop turns `s` into `bs`. -/
def Conv (s bs : Bytes) : Prop := ∀ n, s.length ≤ n → convertLoop n s = some bs

theorem conv_nil : Conv [] [] := by intro n _; cases n <;> rfl

theorem conv_plain {c : UInt8} {s bs : Bytes} (hc : c ≠ 92) (h : Conv s bs) :
    Conv (c :: s) (c :: bs) := by
  intro n hn
  simp only [List.length_cons] at hn
  obtain ⟨m, rfl⟩ : ∃ m, n = m + 1 := ⟨n - 1, by omega⟩
  rw [convertLoop_step (c := c) (rest := s) (by simp [convertChar, hc]) (by simp), h m (by omega)]
  rfl

theorem conv_esc {c : UInt8} {s bs : Bytes} (hc : c = 34 ∨ c = 92) (h : Conv s bs) :
    Conv (92 :: c :: s) (c :: bs) := by
  intro n hn
  simp only [List.length_cons] at hn
  obtain ⟨m, rfl⟩ : ∃ m, n = m + 1 := ⟨n - 1, by omega⟩
  have : convertChar (92 :: c :: s) = some (c, s) := by
    rcases hc with rfl | rfl <;> rfl
  rw [convertLoop_step this (by simp), h m (by omega)]
  rfl

theorem conv_plains {r s bs : Bytes} (hr : ∀ c ∈ r, c ≠ 92) (h : Conv s bs) :
    Conv (r ++ s) (r ++ bs) := by
  induction r with
  | nil => exact h
  | cons c r ih =>
    exact conv_plain (hr c (by simp)) (ih (fun x hx => hr x (List.mem_cons_of_mem _ hx)))

theorem conv_escaped (r : Bytes) {s bs : Bytes} (h : Conv s bs) :
    Conv (writeEscaped r ++ s) (r ++ bs) := by
  induction r with
  | nil => exact h
  | cons c r ih =>
    unfold writeEscaped at ih ⊢
    rw [List.flatMap_cons]
    by_cases hc : c = 34 ∨ c = 92
    · have : (decide (c = 34) || decide (c = 92)) = true := by simpa using hc
      simp only [this, if_true, List.cons_append, List.append_assoc, List.nil_append]
      exact conv_esc hc ih
    · have : (decide (c = 34) || decide (c = 92)) = false := by
        push Not at hc
        simp [hc.1, hc.2]
      simp only [this, List.cons_append, List.append_assoc, List.nil_append]
      exact conv_plain (by push Not at hc; exact hc.2) ih

/-- Tokens whose own spelling can not be mistaken for part of an escape sequence. -/
def Plain (t : STok) : Prop :=
  t.kind ≠ .backslash ∧ (t.kind = .other → chr% '\\' ∉ t.raw)

instance (t : STok) : Decidable (Plain t) := inferInstanceAs (Decidable (_ ∧ (_ → _)))

theorem conv_ws {w : Nat} {s bs : Bytes} (h : Conv s bs) :
    Conv ((if w ≠ 0 then [chr% ' '] else []) ++ s) ((if w = 0 then [] else [chr% ' ']) ++ bs) := by
  by_cases hw : w = 0
  · simpa [hw] using h
  · simpa [hw] using conv_plain (c := 32) (by decide) h

theorem conv_piece {t : STok} (ht : Plain t) {s bs : Bytes} (h : Conv s bs) :
    Conv (stringifyConcat t ++ s)
      (((if t.ws = 0 then [] else [chr% ' ']) ++ spelling t) ++ bs) := by
  unfold stringifyConcat spelling
  cases hk : t.kind with
  | string =>
    have := conv_ws (w := t.ws)
      (conv_esc (c := 34) (Or.inl rfl) (conv_escaped t.raw (conv_esc (c := 34) (Or.inl rfl) h)))
    simpa only [List.cons_append, List.nil_append, List.append_assoc] using this
  | char =>
    have := conv_ws (w := t.ws)
      (conv_plain (c := 39) (by decide) (conv_escaped t.raw (conv_plain (c := 39) (by decide) h)))
    simpa only [List.cons_append, List.nil_append, List.append_assoc] using this
  | backslash => exact absurd hk ht.1
  | other =>
    have := conv_ws (w := t.ws) (conv_plains (r := t.raw) (by
      intro c hc hcc
      subst hcc
      exact ht.2 hk hc) h)
    simpa only [List.cons_append, List.nil_append, List.append_assoc] using this

theorem conv_tail (ts : List STok) (ht : ∀ t ∈ ts, Plain t) :
    Conv (ts.flatMap stringifyConcat)
      (ts.map (fun u => (if u.ws = 0 then [] else [chr% ' ']) ++ spelling u)).flatten := by
  induction ts with
  | nil => exact conv_nil
  | cons t ts ih =>
    rw [List.flatMap_cons, List.map_cons, List.flatten_cons]
    exact conv_piece (ht t (by simp)) (ih (fun x hx => ht x (List.mem_cons_of_mem _ hx)))

theorem conv_list (l : List STok) (ht : ∀ t ∈ l, Plain t) : Conv (stringifyLoop l) (argText l) := by
  cases l with
  | nil => exact conv_nil
  | cons t ts =>
    have := conv_piece (t := { t with ws := 0 }) (ht t (by simp))
      (conv_tail ts (fun x hx => ht x (List.mem_cons_of_mem _ hx)))
    simpa [stringifyLoop, argText, spelling] using this

/-- A text that converts never ends in an unescaped backslash; here: pieces end differently. -/
theorem getLast?_append_ne {a b : Bytes} (hb : b ≠ []) : (a ++ b).getLast? = b.getLast? := by
  rw [List.getLast?_append]
  cases h : b.getLast? with
  | none => simp at h; exact absurd h hb
  | some c => simp

theorem piece_last {t : STok} (ht : Plain t) : (stringifyConcat t).getLast? ≠ some 92 := by
  unfold stringifyConcat
  cases hk : t.kind with
  | string =>
    show List.getLast? (_ ++ (_ ++ _ ++ [92, 34])) ≠ _
    rw [getLast?_append_ne (by simp), getLast?_append_ne (by simp)]
    decide
  | char =>
    show List.getLast? (_ ++ (_ ++ _ ++ [39])) ≠ _
    rw [getLast?_append_ne (by simp), getLast?_append_ne (by simp)]
    decide
  | backslash => exact absurd hk ht.1
  | other =>
    show List.getLast? (_ ++ t.raw) ≠ _
    by_cases hr : t.raw = []
    · rw [hr, List.append_nil]
      split <;> decide
    · rw [getLast?_append_ne hr]
      intro hl
      exact ht.2 hk (List.mem_of_getLast? hl)

theorem tail_last (ts : List STok) (ht : ∀ t ∈ ts, Plain t) :
    (ts.flatMap stringifyConcat).getLast? ≠ some 92 := by
  induction ts with
  | nil => simp
  | cons t ts ih =>
    rw [List.flatMap_cons, List.getLast?_append]
    have h1 := ih (fun x hx => ht x (List.mem_cons_of_mem _ hx))
    have h2 := piece_last (ht t (by simp))
    cases h : (ts.flatMap stringifyConcat).getLast? with
    | none => simpa using h2
    | some c => rw [h] at h1; simpa using h1

theorem loop_last (l : List STok) (ht : ∀ t ∈ l, Plain t) :
    (stringifyLoop l).getLast? ≠ some 92 := by
  cases l with
  | nil => simp [stringifyLoop]
  | cons t ts =>
    unfold stringifyLoop
    rw [List.getLast?_append]
    have h1 := tail_last ts (fun x hx => ht x (List.mem_cons_of_mem _ hx))
    have h2 := piece_last (t := { t with ws := 0 }) (ht t (by simp))
    cases h : (ts.flatMap stringifyConcat).getLast? with
    | none => simpa using h2
    | some c => rw [h] at h1; simpa using h1

end Verif.Lex
