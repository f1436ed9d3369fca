import Verif.Lex.Words2
/-! # Re-reading printed tokens -/
namespace Verif.Lex
open Spec

/-- Characters between the quotes of a character constant. -/
inductive CharBody : Bytes → Prop
  | plain {c : UInt8} : c ≠ chr% '\'' → c ≠ chr% '\\' → CharBody [c]
  | simple {e v : UInt8} : (e, v) ∈ simple → CharBody [chr% '\\', e]
  | octal {ds : Bytes} {n : Nat} : Digits octs 8 ds n → 1 ≤ ds.length → ds.length ≤ 3 →
      CharBody (chr% '\\' :: ds)
  | hex {ds : Bytes} {n : Nat} : Digits hexs 16 ds n → 1 ≤ ds.length →
      CharBody (chr% '\\' :: chr% 'x' :: ds)

/-- Preprocessing tokens of C (C99 6.4) in the compiler's representation. -/
inductive IsTok (c99 : Bool) : Tok → Prop
  | word {c : UInt8} {w : Bytes} {ws : Nat} : nondigit c = true → (∀ x ∈ w, identChar x = true) →
      IsTok c99 ⟨wordId c99 (c :: w), decide ((c :: w) ∉ neverMacro), c :: w, ws⟩
  | punct {w : Bytes} {id ws : Nat} : (w, id) ∈ punctuators → IsTok c99 ⟨id, false, w, ws⟩
  | number {n : Bytes} {ws : Nat} : PPNum c99 n → IsTok c99 ⟨tPREP_NUMBER, false, n, ws⟩
  | string {t bs : Bytes} {ws : Nat} : Body t bs → IsTok c99 ⟨tPREP_STRING, false, t, ws⟩
  | char {t : Bytes} {ws : Nat} : CharBody t → IsTok c99 ⟨tPREP_CHAR, false, t, ws⟩

theorem strtochar_body {t : Bytes} (h : CharBody t) (r : Bytes) :
    strtochar (39 :: (t ++ 39 :: r)) = .tok ⟨tPREP_CHAR, false, t, 0⟩ r := by
  cases h with
  | @plain c h1 h2 =>
    simp only [strtochar, List.cons_append, List.nil_append, h1, h2, if_false, if_true]
    have : (c :: 39 :: r).length - (39 :: r).length = 1 := by simp
    rw [this]; rfl
  | @simple e v he =>
    simp only [strtochar, List.cons_append, List.nil_append, if_true, simple_skip _ he]
    have : (92 :: e :: 39 :: r).length - (39 :: r).length = 2 := by simp
    rw [this]; simp
  | @octal ds n hd h1 h3 =>
    have hsk : skipEscape (ds ++ 39 :: r) = some (39 :: r) := by
      refine octal_skip (digits_oct hd).1 h1 h3 ?_
      intro _ c hc
      simp only [List.head?_cons, Option.mem_some_iff] at hc
      subst hc; decide
    simp only [strtochar, List.cons_append, if_true, hsk]
    have : (92 :: (ds ++ 39 :: r)).length - (39 :: r).length = ds.length + 1 := by simp; omega
    rw [this]; simp
  | @hex ds n hd h1 =>
    have hsk : skipEscape (120 :: (ds ++ 39 :: r)) = some (39 :: r) := by
      have := (takeWhile_prefix (p := isXDigit) (ds := ds) (t := 39 :: r) (digits_hex hd).1 (by
        intro c hc
        simp only [List.head?_cons, Option.mem_some_iff] at hc
        subst hc; decide)).2
      simp [skipEscape, this]
    simp only [strtochar, List.cons_append, if_true, hsk]
    have : (92 :: 120 :: (ds ++ 39 :: r)).length - (39 :: r).length = ds.length + 2 := by simp; omega
    rw [this]; simp

/-- Ends a token: end of text or a blank. -/
def Sep (r : Bytes) : Prop := r = [] ∨ ∃ r', r = 32 :: r'

theorem Sep.at {r : Bytes} (h : Sep r) : at' r 0 = 0 ∨ at' r 0 = 32 := by
  rcases h with rfl | ⟨r', rfl⟩
  · exact Or.inl rfl
  · exact Or.inr rfl

theorem ppnum_chars {c99 : Bool} {n : Bytes} (h : PPNum c99 n) : ∀ c ∈ n, numChar c = true := by
  induction h with
  | digit hd => intro c hc; simp at hc; subst hc; simp [numChar, identChar, hd]
  | dot hd =>
    intro c hc
    simp at hc
    rcases hc with rfl | rfl
    · decide
    · simp [numChar, identChar, hd]
  | next hp hc ih =>
    intro c hc'
    simp at hc'
    rcases hc' with h | rfl
    · exact ih c h
    · simp [numChar, hc]
  | period hp ih =>
    intro c hc'
    simp at hc'
    rcases hc' with h | rfl
    · exact ih c h
    · decide
  | exp hp he hs ih =>
    intro c hc'
    simp only [List.mem_append, List.mem_cons, List.not_mem_nil, or_false] at hc'
    rcases hc' with h | rfl | rfl
    · exact ih c h
    · simp [numChar, exp_ident ((exp_spec c99 _).2 he)]
    · simp [numChar, (classes _).2.2.2.2.2.2.2.1.2 hs]

theorem ppnum_head {c99 : Bool} {n : Bytes} (h : PPNum c99 n) :
    digit (at' n 0) = true ∨ (at' n 0 = 46 ∧ digit (at' n 1) = true) := by
  have aux : ∀ (p q : Bytes), p ≠ [] → p ≠ [46] →
      (digit (at' p 0) = true ∨ (at' p 0 = 46 ∧ digit (at' p 1) = true)) →
      (digit (at' (p ++ q) 0) = true ∨ (at' (p ++ q) 0 = 46 ∧ digit (at' (p ++ q) 1) = true)) := by
    intro p q h1 h2 h
    rcases p with _ | ⟨a, _ | ⟨b, p⟩⟩
    · exact absurd rfl h1
    · rcases h with h | ⟨h, -⟩
      · exact Or.inl h
      · change a = 46 at h
        subst h
        exact absurd rfl h2
    · exact h
  induction h with
  | digit hd => exact Or.inl hd
  | dot hd => exact Or.inr ⟨rfl, hd⟩
  | next hp hc ih => exact aux _ _ (ppnum_ne hp).1 (ppnum_ne hp).2 ih
  | period hp ih => exact aux _ _ (ppnum_ne hp).1 (ppnum_ne hp).2 ih
  | exp hp he hs ih => exact aux _ _ (ppnum_ne hp).1 (ppnum_ne hp).2 ih

theorem numChar_lt : ∀ c : UInt8, numChar c = true → c < 128 := by
  apply forall_byte; decide +kernel

theorem retok_num {c99 : Bool} {n r : Bytes} (h : PPNum c99 n) (hr : Sep r) :
    tokenizeInternal c99 (n ++ r) = .tok ⟨tPREP_NUMBER, false, n, 0⟩ r := by
  have hch := ppnum_chars h
  have hstop : ∀ c ∈ r.head?, numChar c = false := by
    intro c hc
    rcases hr with rfl | ⟨r', rfl⟩
    · simp at hc
    · simp only [List.head?_cons, Option.mem_some_iff] at hc
      subst hc; decide
  have hrun := takeWhile_prefix hch hstop
  have ha : AsciiRun (n ++ r) := by
    refine ⟨?_, ?_⟩
    · rw [hrun.1]
      intro c hc
      exact numChar_lt c (hch c hc)
    · rw [hrun.2]
      intro c hc
      rcases hr with rfl | ⟨r', rfl⟩
      · simp at hc
      · simp only [List.head?_cons, Option.mem_some_iff] at hc
        subst hc; decide
  have hhd : digit (at' (n ++ r) 0) = true ∨ (at' (n ++ r) 0 = 46 ∧ digit (at' (n ++ r) 1) = true) := by
    have := ppnum_head h
    rcases n with _ | ⟨a, _ | ⟨b, p⟩⟩
    · exact absurd rfl (ppnum_ne h).1
    · rcases this with h' | ⟨h', -⟩
      · exact Or.inl h'
      · change a = 46 at h'
        subst h'
        exact absurd rfl (ppnum_ne h).2
    · exact this
  obtain ⟨m, rest, e1, e2, e3, e4⟩ := num_munch c99 (n ++ r) ha hhd
  have hle := num_longest e3 e4 h (by rw [← e2]; exact List.prefix_append _ _)
  have hm : m = n := by
    have hpre : n <+: m := by
      rcases List.prefix_or_prefix_of_prefix (List.prefix_append n r)
        (show m <+: n ++ r by rw [e2]; exact List.prefix_append _ _) with h' | h'
      · exact h'
      · have := h'.length_le
        have : m.length = n.length := by omega
        exact (h'.eq_of_length this) ▸ List.prefix_refl _
    obtain ⟨q, rfl⟩ := hpre
    cases q with
    | nil => simp
    | cons x q =>
      exfalso
      have hr' : r = x :: (q ++ rest) := by
        have : n ++ r = n ++ (x :: q ++ rest) := by simpa using e2
        simpa using List.append_cancel_left this
      have h1 := hstop x (by simp [hr'])
      have h2 := ppnum_chars e3 x (by simp)
      rw [h1] at h2
      simp at h2
  subst hm
  rw [e1, List.append_cancel_left e2]

theorem punct_chars : ∀ p ∈ punctuators, p.1 ≠ [] ∧ 32 ∉ p.1 := by decide +kernel

theorem punct_uniq : ∀ p ∈ punctuators, ∀ q ∈ punctuators, p.1 = q.1 → p.2 = q.2 := by decide +kernel

theorem prefix_sep : ∀ {p w r : Bytes}, 32 ∉ p → Sep r → p <+: w ++ r → p <+: w
  | [], _, _, _, _, _ => List.nil_prefix
  | c :: p, [], r, h32, hr, hp => by
    exfalso
    rcases hr with rfl | ⟨r', rfl⟩
    · simp at hp
    · simp only [List.nil_append, List.cons_prefix_cons] at hp
      apply h32
      simp [hp.1]
  | c :: p, d :: w, r, h32, hr, hp => by
    simp only [List.cons_append, List.cons_prefix_cons] at hp ⊢
    exact ⟨hp.1, prefix_sep (fun h => h32 (by simp [h])) hr hp.2⟩

theorem retok_punct {c99 : Bool} {w r : Bytes} {id : Nat} (h : (w, id) ∈ punctuators) (hr : Sep r) :
    tokenizeInternal c99 (w ++ r) = .tok ⟨id, false, w, 0⟩ r := by
  have hl : Longest punctuators (w ++ r) w id := by
    refine ⟨h, List.prefix_append _ _, ?_⟩
    intro p hp hpre
    exact (prefix_sep (punct_chars p hp).2 hr hpre).length_le
  have := punct_munch c99 (w ++ r) w id hl (by
    intro hw
    subst hw
    rcases hr with rfl | ⟨r', rfl⟩
    · exact ⟨by decide, by decide⟩
    · exact ⟨(by decide : (32 : UInt8) < 128), (by decide : isDigit 32 = false)⟩)
  simpa using this

/-- Spelling of a token with its quotes, as printed. -/
def body (t : Tok) : Bytes := printToken { t with ws := 0 }

theorem wordId_ne (c99 : Bool) (w : Bytes) : wordId c99 w ≠ tPREP_STRING ∧ wordId c99 w ≠ 118 ∧
    wordId c99 w ≠ tPREP_CHAR := by
  unfold wordId
  cases h : (keywords c99).lookup w with
  | none => decide
  | some v =>
    have : ∀ c99, ∀ p ∈ keywords c99, p.2 ≠ tPREP_STRING ∧ p.2 ≠ 118 ∧ p.2 ≠ tPREP_CHAR := by
      decide +kernel
    obtain ⟨l1, l2, hl, -⟩ := List.lookup_eq_some_iff.1 h
    exact this c99 (w, v) (by rw [hl]; simp)

theorem punct_id : ∀ p ∈ punctuators, p.2 ≠ tPREP_STRING ∧ p.2 ≠ 118 ∧ p.2 ≠ tPREP_CHAR := by
  decide +kernel

theorem retok_one {c99 : Bool} {t : Tok} {r : Bytes} (h : IsTok c99 t) (hr : Sep r) :
    tokenizeInternal c99 (body t ++ r) = .tok { t with ws := 0 } r ∧
      ∃ c b, body t = c :: b ∧ c < 128 ∧ isSpace c = false := by
  cases h with
  | @word c w ws hc hw =>
    obtain ⟨h1, h2, h3⟩ := wordId_ne c99 (c :: w)
    have hb : body ⟨wordId c99 (c :: w), decide ((c :: w) ∉ neverMacro), c :: w, ws⟩ = c :: w := by
      simp [body, printToken, h1, h2, h3]
    rw [hb]
    have hword : Word (c :: (w ++ r)) (c :: w) r := by
      refine ⟨rfl, ?_, ?_⟩
      · intro x hx
        simp at hx
        rcases hx with rfl | hx
        · simp [identChar, hc]
        · exact hw x hx
      · rcases hr.at with h | h <;> rw [h] <;> decide
    refine ⟨word_all c99 hc hword, c, w, rfl, ?_⟩
    have : ∀ c : UInt8, nondigit c = true → c < 128 ∧ isSpace c = false := by
      apply forall_byte; decide +kernel
    exact this c hc
  | @punct w id ws hp =>
    obtain ⟨h1, h2, h3⟩ := punct_id _ hp
    have hb : body ⟨id, false, w, ws⟩ = w := by
      simp at h1 h2 h3
      simp [body, printToken, h1, h2, h3]
    rw [hb]
    refine ⟨retok_punct hp hr, ?_⟩
    have : ∀ p ∈ punctuators, ∃ c b, p.1 = c :: b ∧ c < 128 ∧ isSpace c = false := by
      have h : ∀ p ∈ punctuators, p.1 ≠ [] ∧ at' p.1 0 < 128 ∧ isSpace (at' p.1 0) = false := by
        decide +kernel
      intro p hp
      obtain ⟨ha, hb, hc⟩ := h p hp
      cases hq : p.1 with
      | nil => exact absurd hq ha
      | cons c b =>
        rw [hq] at hb hc
        exact ⟨c, b, rfl, hb, hc⟩
    exact this _ hp
  | @number n ws hn =>
    have hb : body ⟨tPREP_NUMBER, false, n, ws⟩ = n := by
      simp [body, printToken, tPREP_NUMBER, tPREP_STRING, tPREP_CHAR]
    rw [hb]
    refine ⟨retok_num hn hr, ?_⟩
    cases n with
    | nil => exact absurd rfl (ppnum_ne hn).1
    | cons c b =>
      have hc := ppnum_chars hn c (by simp)
      have : ∀ c : UInt8, numChar c = true → c < 128 ∧ isSpace c = false := by
        apply forall_byte; decide +kernel
      exact ⟨c, b, rfl, this c hc⟩
  | @string s bs ws hs =>
    have hb : body ⟨tPREP_STRING, false, s, ws⟩ = 34 :: (s ++ [34]) := by
      simp [body, printToken]
    rw [hb]
    refine ⟨?_, 34, s ++ [34], rfl, by decide, by decide⟩
    have e : tokenizeInternal c99 (34 :: (s ++ [34]) ++ r) =
        match strtostr (34 :: (s ++ [34]) ++ r) with
        | some (raw, rest) => .tok ⟨tPREP_STRING, false, raw, 0⟩ rest
        | none => .ub := rfl
    rw [e]
    have := strtostr_body hs r
    simp only [List.cons_append, List.append_assoc, List.nil_append]
    rw [this]
  | @char s ws hs =>
    have hb : body ⟨tPREP_CHAR, false, s, ws⟩ = 39 :: (s ++ [39]) := by
      simp [body, printToken, tPREP_CHAR, tPREP_STRING]
    rw [hb]
    refine ⟨?_, 39, s ++ [39], rfl, by decide, by decide⟩
    have e : tokenizeInternal c99 (39 :: (s ++ [39]) ++ r) = strtochar (39 :: (s ++ [39]) ++ r) := rfl
    rw [e]
    have := strtochar_body hs r
    simp only [List.cons_append, List.append_assoc, List.nil_append]
    exact this

theorem skipSpace_blanks : ∀ (n : Nat) {c : UInt8} {r : Bytes}, c < 128 → isSpace c = false →
    skipSpace (List.replicate n 32 ++ c :: r) = some (n, c :: r)
  | 0, c, r, h1, h2 => by
    have : ¬ c ≥ 128 := by simpa using h1
    simp [skipSpace, this, h2]
  | n + 1, c, r, h1, h2 => by
    rw [List.replicate_succ, List.cons_append, skipSpace, skipSpace_blanks n h1 h2]
    rfl

theorem print_eq (t : Tok) : printToken t = List.replicate t.ws 32 ++ body t := by
  simp [printToken, body]

theorem retok_all (c99 : Bool) : ∀ (ts : List Tok), (∀ t ∈ ts, IsTok c99 t ∧ t.ws < 65536) →
    (∀ t ∈ ts.tail, 0 < t.ws) → ∀ n, ts.length < n → tokenizeAll c99 n (printTokens ts) = some ts
  | [], _, _, n, hn => by
    obtain ⟨m, rfl⟩ : ∃ m, n = m + 1 := ⟨n - 1, by simp at hn; omega⟩
    rfl
  | t :: ts, h, hw, n, hn => by
    simp only [List.length_cons] at hn
    obtain ⟨m, rfl⟩ : ∃ m, n = m + 1 := ⟨n - 1, by omega⟩
    have hsep : Sep (printTokens ts) := by
      cases ts with
      | nil => exact Or.inl rfl
      | cons u us =>
        right
        have : 0 < u.ws := hw u (by simp)
        obtain ⟨k, hk⟩ : ∃ k, u.ws = k + 1 := ⟨u.ws - 1, by omega⟩
        refine ⟨List.replicate k 32 ++ body u ++ us.flatMap printToken, ?_⟩
        rw [printTokens, List.flatMap_cons, print_eq, hk, List.replicate_succ]
        rfl
    obtain ⟨h1, c, b, hb, h2, h3⟩ := retok_one (h t (by simp)).1 hsep
    have ih := retok_all c99 ts (fun u hu => h u (by simp [hu]))
      (fun u hu => hw u (by simpa using List.mem_of_mem_tail hu)) m (by omega)
    have htok : tokenize c99 (printTokens (t :: ts)) = .tok t (printTokens ts) := by
      have : printTokens (t :: ts) = List.replicate t.ws 32 ++ (body t ++ printTokens ts) := by
        simp [printTokens, print_eq]
      rw [this, tokenize]
      rw [hb, List.cons_append, skipSpace_blanks _ h2 h3, ← List.cons_append, ← hb]
      simp only [h1]
      have hlt := (h t (by simp)).2
      rw [Nat.mod_eq_of_lt hlt]
    simp only [tokenizeAll, htok, ih, Option.map_some]

end Verif.Lex
