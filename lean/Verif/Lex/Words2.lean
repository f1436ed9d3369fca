import Verif.Lex.Words
/-! # Words, preprocessing numbers and re-reading printed tokens -/
namespace Verif.Lex
open Spec

theorem word_all (c99 : Bool) {c : UInt8} {run rest : Bytes} (hc : nondigit c = true)
    (hw : Word (c :: (run ++ rest)) (c :: run) rest) :
    tokenizeInternal c99 (c :: (run ++ rest)) =
      .tok ⟨wordId c99 (c :: run), decide ((c :: run) ∉ notExpandable), c :: run, 0⟩ rest := by
  rcases nondigit_cases c hc with h | h
  · rw [tk_plain _ _ _ h]
    refine good_id hw (fun p hp he => ?_)
    have hm := kwFrom_spec _ _ _ p hp he
    have : ∀ c99, ∀ c ∈ plainLetters, kwFrom c99 c = [] := by decide +kernel
    rw [this _ _ h] at hm
    simp at hm
  · simp only [List.mem_cons, List.not_mem_nil, or_false] at h
    rcases h with rfl | rfl | rfl | rfl | rfl | rfl | rfl | rfl | rfl | rfl | rfl | rfl | rfl | rfl | rfl | rfl
    · exact word_97 c99 run rest hw
    · exact word_98 c99 run rest hw
    · exact word_99 c99 run rest hw
    · exact word_100 c99 run rest hw
    · exact word_101 c99 run rest hw
    · exact word_102 c99 run rest hw
    · exact word_103 c99 run rest hw
    · exact word_105 c99 run rest hw
    · exact word_108 c99 run rest hw
    · exact word_114 c99 run rest hw
    · exact word_115 c99 run rest hw
    · exact word_116 c99 run rest hw
    · exact word_117 c99 run rest hw
    · exact word_118 c99 run rest hw
    · exact word_119 c99 run rest hw
    · exact word_95 c99 run rest hw

/-! ## Numbers -/

/-- Exponent letters. -/
def isExp (c99 : Bool) (c : UInt8) : Bool :=
  c = chr% 'e' || c = chr% 'E' || (c99 && (c = chr% 'p' || c = chr% 'P'))

def isSign (c : UInt8) : Bool := c = chr% '+' || c = chr% '-'

theorem classes : ∀ c : UInt8,
    (isDigit c = digit c) ∧ (c < 128 → (isDigit c || c = chr% '_' || isAlpha c) = identChar c) ∧
    (isExp true c = true → identChar c = true) ∧ (isExp false c = true → identChar c = true) ∧
    (isSign c = true → identChar c = false ∧ c ≠ 46) ∧
    (isExp false c = true ↔ c ∈ str% "eE") ∧
    (isExp true c = true ↔ c ∈ str% "eE" ∨ c ∈ str% "pP") ∧
    (isSign c = true ↔ c ∈ str% "+-") ∧
    (identChar c = true → c < 128) ∧ (identChar 46 = false) := by
  apply forall_byte; decide +kernel

theorem exp_spec (c99 : Bool) (c : UInt8) :
    isExp c99 c = true ↔ (c ∈ str% "eE" ∨ (c99 = true ∧ c ∈ str% "pP")) := by
  have := classes c
  cases c99
  · simpa using this.2.2.2.2.2.1
  · simpa using this.2.2.2.2.2.2.1

theorem exp_ident {c99 : Bool} {c : UInt8} (h : isExp c99 c = true) : identChar c = true := by
  have := classes c
  cases c99
  · exact this.2.2.2.1 h
  · exact this.2.2.1 h

/-- The loop stops only where no longer number is possible. -/
structure NumStop (c99 : Bool) (n rest : Bytes) : Prop where
  head : ∀ x ∈ rest.head?, identChar x = false ∧ x ≠ 46
  sign : ∀ x ∈ rest.head?, isSign x = true → ∀ e ∈ n.getLast?, isExp c99 e = false

theorem NumStop.cons {c99 : Bool} {c : UInt8} {n rest : Bytes} (h : NumStop c99 n rest)
    (hc : n = [] → isExp c99 c = true → ∀ x ∈ rest.head?, isSign x = false) :
    NumStop c99 (c :: n) rest := by
  refine ⟨h.head, ?_⟩
  intro x hx hs e he
  cases n with
  | nil =>
    simp only [List.getLast?_singleton, Option.mem_some_iff] at he
    subst he
    by_contra hne
    have := hc rfl (by simpa using hne) x hx
    rw [hs] at this
    simp at this
  | cons d n => exact h.sign x hx hs e (by simpa [List.getLast?_cons_cons] using he)

theorem numLoop_step {c99 : Bool} {c : UInt8} {s : Bytes} (h128 : c < 128)
    (hc : identChar c = true ∨ c = 46)
    (hne : isExp c99 c = true → ∀ x ∈ s.head?, isSign x = false) :
    numLoop c99 (c :: s) = (numLoop c99 s).map (fun r => (c :: r.1, r.2)) := by
  have hlt : ¬ c ≥ 128 := by simpa using h128
  have hcl := (classes c).2.1 h128
  cases s with
  | nil =>
    simp only [numLoop, hlt, if_false, Option.map_some]
    have : (isDigit c || decide (c = chr% '.') || decide (c = chr% '_') || isAlpha c) = true := by
      rcases hc with h | h
      · rw [← hcl] at h
        simp only [Bool.or_eq_true] at h ⊢
        tauto
      · simp [h]
    rw [if_pos this]
  | cons d s =>
    simp only [numLoop, hlt, if_false]
    by_cases h1 : (isDigit c || decide (c = chr% '.') || decide (c = chr% '_')) = true
    · rw [if_pos h1]
    · have ha : isAlpha c = true := by
        rcases hc with h | h
        · rw [← hcl] at h
          simp only [Bool.or_eq_true] at h h1
          tauto
        · simp [h] at h1
      rw [if_neg h1, if_pos ha, if_neg]
      intro hh
      simp only [Bool.and_eq_true] at hh
      have := hne hh.1 d (by simp)
      simp only [isSign] at this
      rw [hh.2] at this
      simp at this

theorem numLoop_exp {c99 : Bool} {c d : UInt8} {s : Bytes} (hc : isExp c99 c = true)
    (hd : isSign d = true) :
    numLoop c99 (c :: d :: s) = (numLoop c99 s).map (fun r => (c :: d :: r.1, r.2)) := by
  have hi := exp_ident hc
  have h128 := (classes c).2.2.2.2.2.2.2.2.1 hi
  have hlt : ¬ c ≥ 128 := by simpa using h128
  have hna : ∀ c : UInt8, isExp c99 c = true →
      (isDigit c || decide (c = chr% '.') || decide (c = chr% '_')) = false ∧ isAlpha c = true := by
    cases c99
    · apply forall_byte; decide +kernel
    · apply forall_byte; decide +kernel
  simp only [numLoop, hlt, if_false, (hna c hc).1, (hna c hc).2, Bool.false_eq_true, if_true]
  rw [if_pos]
  simp only [Bool.and_eq_true]
  exact ⟨hc, hd⟩

theorem numLoop_stop {c99 : Bool} {s : Bytes}
    (h : ∀ x ∈ s.head?, x < 128 ∧ identChar x = false ∧ x ≠ 46) : numLoop c99 s = some ([], s) := by
  rcases s with _ | ⟨c, _ | ⟨d, s⟩⟩
  · rfl
  all_goals
    obtain ⟨h1, h2, h3⟩ := h c (by simp)
    have hlt : ¬ c ≥ 128 := by simpa using h1
    have hcl := (classes c).2.1 h1
    rw [h2] at hcl
    simp only [Bool.or_eq_false_iff] at hcl
    have h3' : ¬ c = 46 := h3
    simp [numLoop, hlt, hcl.1.1, hcl.1.2, hcl.2, h3']
    try simp at hcl
    try tauto

/-- Characters that can occur in a number. -/
def numChar (c : UInt8) : Bool := identChar c || c = 46 || isSign c

/-- All bytes the number scanner looks at are ASCII. -/
def AsciiRun (s : Bytes) : Prop :=
  (∀ c ∈ s.takeWhile numChar, c < 128) ∧ ∀ c ∈ (s.dropWhile numChar).head?, c < 128

theorem AsciiRun.of_all {s : Bytes} (h : ∀ c ∈ s, c < 128) : AsciiRun s := by
  refine ⟨fun c hc => h c (List.takeWhile_subset _ hc), fun c hc => h c ?_⟩
  exact List.dropWhile_subset _ (List.mem_of_mem_head? hc)

theorem AsciiRun.head {c : UInt8} {s : Bytes} (h : AsciiRun (c :: s)) : c < 128 := by
  unfold AsciiRun at h
  by_cases hc : numChar c = true
  · exact h.1 c (by simp [hc])
  · exact h.2 c (by simp [hc])

theorem AsciiRun.tail {c : UInt8} {s : Bytes} (h : AsciiRun (c :: s)) (hc : numChar c = true) :
    AsciiRun s := by
  unfold AsciiRun at h ⊢
  simp only [List.takeWhile_cons, List.dropWhile_cons, hc, if_true] at h
  exact ⟨fun x hx => h.1 x (by simp [hx]), h.2⟩

theorem numLoop_spec (c99 : Bool) : ∀ (k : Nat) (s : Bytes), s.length ≤ k → AsciiRun s →
    ∃ n rest, numLoop c99 s = some (n, rest) ∧ s = n ++ rest ∧ NumStop c99 n rest ∧
      ∀ p, PPNum c99 p → PPNum c99 (p ++ n) := by
  intro k
  induction k with
  | zero =>
    intro s hs _
    have : s = [] := by simpa using hs
    subst this
    exact ⟨[], [], rfl, rfl, ⟨by simp, by simp⟩, by simp⟩
  | succ k ih =>
    intro s hs ha
    cases s with
    | nil => exact ⟨[], [], rfl, rfl, ⟨by simp, by simp⟩, by simp⟩
    | cons c s =>
      simp only [List.length_cons] at hs
      have h128 := ha.head
      by_cases hc : identChar c = true ∨ c = 46
      · by_cases he : isExp c99 c = true ∧ ∃ x ∈ s.head?, isSign x = true
        · obtain ⟨he, x, hx, hsx⟩ := he
          cases s with
          | nil => simp at hx
          | cons d s =>
            simp only [List.head?_cons, Option.mem_some_iff] at hx
            subst hx
            obtain ⟨n, rest, e1, e2, e3, e4⟩ := ih s (by simp at hs; omega)
              ((ha.tail (by simp [numChar, exp_ident he])).tail (by simp [numChar, hsx]))
            refine ⟨c :: d :: n, rest, ?_, by simp [e2], ?_, ?_⟩
            · rw [numLoop_exp he hsx, e1]; rfl
            · refine (e3.cons ?_).cons ?_
              · intro _ hd
                have h1 := exp_ident hd
                have h2 := (classes d).2.2.2.2.1 hsx
                rw [h1] at h2
                simp at h2
              · intro h; simp at h
            · intro p hp
              have := e4 (p ++ [c, d]) (PPNum.exp hp ((exp_spec c99 c).1 he)
                ((classes d).2.2.2.2.2.2.2.1.1 hsx))
              simpa using this
        · have hne : isExp c99 c = true → ∀ x ∈ s.head?, isSign x = false := by
            intro h x hx
            by_contra hcon
            exact he ⟨h, x, hx, by simpa using hcon⟩
          have hnc : numChar c = true := by
            rcases hc with h | h
            · simp [numChar, h]
            · simp [numChar, h]
          obtain ⟨n, rest, e1, e2, e3, e4⟩ := ih s (by omega) (ha.tail hnc)
          refine ⟨c :: n, rest, ?_, by simp [e2], e3.cons ?_, ?_⟩
          · rw [numLoop_step h128 hc hne, e1]; rfl
          · intro hn hex
            subst hn
            have := hne hex
            rwa [e2, List.nil_append] at this
          · intro p hp
            have hp' : PPNum c99 (p ++ [c]) := by
              rcases hc with h | h
              · exact PPNum.next hp h
              · subst h; exact PPNum.period hp
            simpa using e4 _ hp'
      · push Not at hc
        have hc1 : identChar c = false := by simpa using hc.1
        refine ⟨[], c :: s, numLoop_stop ?_, rfl, ⟨?_, by simp⟩, by simp⟩
        · intro x hx
          simp only [List.head?_cons, Option.mem_some_iff] at hx
          subst hx
          exact ⟨h128, hc1, hc.2⟩
        · intro x hx
          simp only [List.head?_cons, Option.mem_some_iff] at hx
          subst hx
          exact ⟨hc1, hc.2⟩

theorem ppnum_ne {c99 : Bool} {p : Bytes} (h : PPNum c99 p) : p ≠ [] ∧ p ≠ [46] := by
  induction h with
  | digit hd =>
    refine ⟨by simp, ?_⟩
    intro he
    simp only [List.cons.injEq, and_true] at he
    subst he
    simp [digit] at hd
  | dot => simp
  | next hp _ ih =>
    refine ⟨by simp, ?_⟩
    intro he
    have := congrArg List.length he
    simp at this
    exact ih.1 this
  | period hp ih =>
    refine ⟨by simp, ?_⟩
    intro he
    have := congrArg List.length he
    simp at this
    exact ih.1 this
  | exp hp =>
    refine ⟨by simp, ?_⟩
    intro he
    have := congrArg List.length he
    simp at this

theorem split_last {p n m' : Bytes} {c x : UInt8} (h : p ++ [c] = n ++ x :: m') :
    (m' = [] ∧ p = n ∧ x = c) ∨ ∃ m'', m' = m'' ++ [c] ∧ p = n ++ x :: m'' := by
  rcases List.eq_nil_or_concat m' with rfl | ⟨m'', y, rfl⟩
  · left
    have := List.append_inj' h rfl
    simp at this
    exact ⟨rfl, this.1, this.2.symm⟩
  · right
    rw [List.concat_eq_append] at h ⊢
    have h' : p ++ [c] = (n ++ x :: m'') ++ [y] := by simpa using h
    have := List.append_inj' h' rfl
    simp at this
    exact ⟨m'', by simp [this.2], this.1⟩

theorem ppnum_ext {c99 : Bool} {m : Bytes} (h : PPNum c99 m) : ∀ {n m' : Bytes} {x : UInt8},
    m = n ++ x :: m' → PPNum c99 n →
    identChar x = true ∨ x = 46 ∨ (isSign x = true ∧ ∃ e ∈ n.getLast?, isExp c99 e = true) := by
  induction h with
  | @digit d hd =>
    intro n m' x he hn
    cases n with
    | nil => exact absurd rfl (ppnum_ne hn).1
    | cons y n => have := congrArg List.length he; simp at this
  | @dot d hd =>
    intro n m' x he hn
    rcases n with _ | ⟨y, _ | ⟨z, n⟩⟩
    · exact absurd rfl (ppnum_ne hn).1
    · simp only [List.cons_append, List.nil_append, List.cons.injEq] at he
      obtain ⟨rfl, -, -⟩ := he
      exact absurd rfl (ppnum_ne hn).2
    · have := congrArg List.length he; simp at this
  | @next p c hp hc ih =>
    intro n m' x he hn
    rcases split_last he with ⟨-, -, rfl⟩ | ⟨m'', -, hp'⟩
    · exact Or.inl hc
    · exact ih hp' hn
  | @period p hp ih =>
    intro n m' x he hn
    rcases split_last he with ⟨-, -, rfl⟩ | ⟨m'', -, hp'⟩
    · exact Or.inr (Or.inl rfl)
    · exact ih hp' hn
  | @exp p e sg hp hexp hsg ih =>
    intro n m' x he hn
    have hexp' := (exp_spec c99 e).2 hexp
    have he' : (p ++ [e]) ++ [sg] = n ++ x :: m' := by simpa using he
    rcases split_last he' with ⟨-, rfl, rfl⟩ | ⟨m'', -, hp'⟩
    · exact Or.inr (Or.inr ⟨(classes _).2.2.2.2.2.2.2.1.2 hsg, e, by simp, hexp'⟩)
    · rcases split_last hp' with ⟨-, -, rfl⟩ | ⟨m3, -, hp''⟩
      · exact Or.inl (exp_ident hexp')
      · exact ih hp'' hn

theorem num_longest {c99 : Bool} {n rest m : Bytes} (hn : PPNum c99 n) (hs : NumStop c99 n rest)
    (hm : PPNum c99 m) (hp : m <+: n ++ rest) : m.length ≤ n.length := by
  by_contra hlt
  push Not at hlt
  have hn' : n <+: m := by
    rcases List.prefix_or_prefix_of_prefix hp (List.prefix_append n rest) with h | h
    · have := h.length_le; omega
    · exact h
  obtain ⟨q, rfl⟩ := hn'
  cases q with
  | nil => simp at hlt
  | cons x q =>
    have hx : x ∈ rest.head? := by
      have := (List.prefix_append_right_inj n).1 hp
      cases rest with
      | nil => simp at this
      | cons y rest => simp at this; simp [this.1]
    rcases ppnum_ext hm rfl hn with h | h | ⟨h, e, he, h'⟩
    · rw [(hs.head x hx).1] at h; simp at h
    · exact (hs.head x hx).2 h
    · have := hs.sign x hx h e he
      rw [h'] at this; simp at this

/-- Digits and numbers starting with a period go to `stringtonum`. -/
theorem tk_digit (c99 : Bool) (r : Bytes) : ∀ c : UInt8, digit c = true →
    tokenizeInternal c99 (c :: r) = stringtonum c99 (c :: r) := by
  intro c hc
  have h : ∀ c : UInt8, digit c = true → c ∈ str% "0123456789" := by
    apply forall_byte; decide +kernel
  have := h c hc
  simp only [List.mem_cons, List.not_mem_nil, or_false] at this
  rcases this with rfl | rfl | rfl | rfl | rfl | rfl | rfl | rfl | rfl | rfl <;> rfl

theorem num_token (c99 : Bool) (d : UInt8) (r : Bytes) (hd : digit d = true) (ha : AsciiRun (d :: r)) :
    ∃ n rest, numLoop c99 (d :: r) = some (n, rest) ∧ d :: r = n ++ rest ∧ PPNum c99 n ∧
      PPNum c99 (46 :: n) ∧ NumStop c99 n rest := by
  have hi : identChar d = true := by simp [identChar, hd]
  have h128 := ha.head
  have hne : isExp c99 d = false := by
    have : ∀ d : UInt8, digit d = true → isExp true d = false ∧ isExp false d = false := by
      apply forall_byte; decide +kernel
    cases c99
    · exact (this d hd).2
    · exact (this d hd).1
  obtain ⟨n, rest, e1, e2, e3, e4⟩ := numLoop_spec c99 _ r (Nat.le_refl _)
    (ha.tail (by simp [numChar, hi]))
  refine ⟨d :: n, rest, ?_, by simp [e2], e4 [d] (PPNum.digit hd), ?_, e3.cons ?_⟩
  · rw [numLoop_step h128 (Or.inl hi) (by simp [hne]), e1]; rfl
  · exact e4 [46, d] (PPNum.dot hd)
  · intro _ h; rw [hne] at h; simp at h

theorem num_munch (c99 : Bool) (s : Bytes) (ha : AsciiRun s)
    (hd : digit (at' s 0) = true ∨ (at' s 0 = 46 ∧ digit (at' s 1) = true)) :
    ∃ n rest, tokenizeInternal c99 s = .tok ⟨tPREP_NUMBER, false, n, 0⟩ rest ∧ s = n ++ rest ∧
      PPNum c99 n ∧ NumStop c99 n rest := by
  rcases hd with hd | ⟨h0, hd⟩
  · cases s with
    | nil => simp [at', digit] at hd
    | cons d r =>
      change digit d = true at hd
      obtain ⟨n, rest, e1, e2, e3, e4, e5⟩ := num_token c99 d r hd ha
      refine ⟨n, rest, ?_, e2, e3, e5⟩
      rw [tk_digit c99 r d hd]
      have : ¬ at' (d :: r) 0 = 46 := by
        intro h
        change d = 46 at h
        subst h
        simp [digit] at hd
      simp [stringtonum, this, e1]
  · rcases s with _ | ⟨c, _ | ⟨d, r⟩⟩
    · simp [at', digit] at hd
    · simp [at', digit] at hd
    · change c = 46 at h0
      change digit d = true at hd
      subst h0
      obtain ⟨n, rest, e1, e2, e3, e4, e5⟩ := num_token c99 d r hd (ha.tail (by decide))
      refine ⟨46 :: n, rest, ?_, by simp [e2], e4, ?_⟩
      · rw [tk_46]
        have h1 : at' (d :: r) 0 = d := rfl
        have h128 : ¬ d ≥ 128 := by
          have := (ha.tail (by decide)).head
          simpa using this
        rw [h1, if_neg h128, if_pos (by rw [(classes d).1]; exact hd)]
        simp [stringtonum, at', e1]
      · refine e5.cons ?_
        intro hn
        exact absurd hn (ppnum_ne e3).1

end Verif.Lex
