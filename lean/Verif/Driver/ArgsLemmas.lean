import Verif.Tac
import Verif.Driver.ArgsSpec
namespace Verif.Driver
open Spec

theorem skipEqual_cons (c : UInt8) (r a : Bytes) : skipEqual (c :: r) (c :: a) = skipEqual r a := by
  rw [skipEqual, if_pos rfl]

theorem matchRule_cons {k : Nat} (c : UInt8) (r a : Bytes) :
    matchRule (k + 1) (c :: r) (c :: a) = matchRule (k + 1) r a := by
  rw [matchRule, matchRule, skipEqual_cons]

theorem matchRule_append {k : Nat} (s r a : Bytes) :
    matchRule (k + 1) (s ++ r) (s ++ a) = matchRule (k + 1) r a := by
  induction s with
  | nil => rfl
  | cons c s ih => rw [List.cons_append, List.cons_append, matchRule_cons, ih]

/-- Head of a byte string differs (or there is none). -/
theorem skipEqual_ne {c : UInt8} {r a : Bytes} (h : a.head? ≠ some c) :
    skipEqual (c :: r) a = (c :: r, a) := by
  cases a with
  | nil => rfl
  | cons b a =>
    rw [skipEqual, if_neg]
    rintro rfl
    simp at h

theorem matchRule_lit {k : Nat} {r : Bytes} {P : Bytes → Prop}
    (h : ∀ a, ∃ b, matchRule (k + 1) r a = some b ∧ (b = true ↔ P a)) :
    ∀ (s : Bytes), chr% '[' ∉ s → chr% '{' ∉ s → ∀ arg,
      ∃ b, matchRule (k + 1) (s ++ r) arg = some b ∧ (b = true ↔ ∃ a, arg = s ++ a ∧ P a) := by
  intro s
  induction s with
  | nil =>
    intro _ _ arg
    obtain ⟨b, h1, h2⟩ := h arg
    exact ⟨b, h1, by simpa using h2⟩
  | cons c s ih =>
    intro h1 h2 arg
    simp only [List.mem_cons, not_or] at h1 h2
    by_cases hc : arg.head? = some c
    · cases arg with
      | nil => simp at hc
      | cons d arg =>
        simp only [List.head?_cons, Option.some.injEq] at hc
        subst hc
        obtain ⟨b, h3, h4⟩ := ih h1.2 h2.2 arg
        refine ⟨b, by rw [List.cons_append, matchRule_cons, h3], ?_⟩
        rw [h4]
        simp
    · refine ⟨false, ?_, ?_⟩
      · rw [List.cons_append, matchRule, skipEqual_ne hc]
        simp only
        rw [if_neg (fun h => h1.1 h.symm), if_neg (fun h => h2.1 h.symm)]
      · simp only [Bool.false_eq_true, false_iff, not_exists, not_and]
        rintro a rfl
        simp at hc

theorem scanTo_append {cs : List UInt8} {o rest : Bytes} {d : UInt8} (h : ∀ b ∈ o, b ∉ cs) (hd : d ∈ cs) :
    scanTo cs (o ++ d :: rest) = some (o, d :: rest) := by
  induction o with
  | nil => simp [scanTo, hd]
  | cons b o ih =>
    rw [List.cons_append, scanTo, if_neg (h b (by simp)), ih (fun x hx => h x (by simp [hx]))]
    rfl

theorem isPrefixOf_cases (o arg : Bytes) :
    (o.isPrefixOf arg = true ∧ ∃ a, arg = o ++ a) ∨ (o.isPrefixOf arg = false ∧ ¬ o <+: arg) := by
  cases h : o.isPrefixOf arg with
  | true =>
    rw [List.isPrefixOf_iff_prefix] at h
    obtain ⟨a, rfl⟩ := h
    exact .inl ⟨rfl, a, rfl⟩
  | false =>
    refine .inr ⟨rfl, fun hp => ?_⟩
    rw [← List.isPrefixOf_iff_prefix, h] at hp
    simp at hp

theorem altText_cons (s t : Bytes) (ss : List Bytes) :
    altText (s :: t :: ss) = s ++ chr% '|' :: altText (t :: ss) := rfl

theorem scan_close (ss : List Bytes) (h : ∀ s ∈ ss, chr% '}' ∉ s) (r : Bytes) :
    scanTo [chr% '}'] (altText ss ++ chr% '}' :: r) = some (altText ss, chr% '}' :: r) := by
  apply scanTo_append _ (by simp)
  induction ss with
  | nil => simp [altText]
  | cons s ss ih =>
    cases ss with
    | nil =>
      intro b hb
      simp only [altText] at hb
      have := h s (by simp)
      simp only [List.mem_singleton]
      rintro rfl
      exact this hb
    | cons t ss =>
      intro b hb
      rw [altText_cons, List.mem_append, List.mem_cons] at hb
      rcases hb with hb | rfl | hb
      · have := h s (by simp)
        simp only [List.mem_singleton]
        rintro rfl
        exact this hb
      · decide
      · exact ih (fun x hx => h x (by simp at hx ⊢; tauto)) b hb

/-- The loop over alternatives finds the first that is a prefix. -/
theorem alternatives_spec (r arg : Bytes) : ∀ (ss : List Bytes) (k : Nat), ss ≠ [] → ss.length ≤ k →
    (∀ s ∈ ss, chr% '|' ∉ s ∧ chr% '}' ∉ s) →
    (∃ s ∈ ss, ∃ a, arg = s ++ a ∧ alternatives k (altText ss ++ chr% '}' :: r) arg = some (some (r, a))) ∨
    ((∀ s ∈ ss, ¬ s <+: arg) ∧ alternatives k (altText ss ++ chr% '}' :: r) arg = some none) := by
  intro ss
  induction ss with
  | nil => intro k h; exact absurd rfl h
  | cons s ss ih =>
    intro k _ hk hs
    obtain ⟨k, rfl⟩ : ∃ j, k = j + 1 := ⟨k - 1, by simp at hk; omega⟩
    obtain ⟨h1, h2⟩ := hs s (by simp)
    have hb : ∀ b ∈ s, b ∉ [chr% '}', chr% '|'] := by
      intro b hb hc
      simp only [List.mem_cons, List.not_mem_nil, or_false] at hc
      rcases hc with rfl | rfl
      · exact h2 hb
      · exact h1 hb
    cases ss with
    | nil =>
      simp only [altText]
      rw [alternatives, scanTo_append hb (by simp)]
      simp only
      rcases isPrefixOf_cases s arg with ⟨h3, a, rfl⟩ | ⟨h3, h4⟩
      · rw [if_pos h3]
        refine .inl ⟨s, by simp, a, rfl, ?_⟩
        simp [scanTo]
      · rw [if_neg (by simp [h3])]
        exact .inr ⟨by simpa using h4, by simp⟩
    | cons t ss =>
      rw [altText_cons, List.append_assoc, List.cons_append, alternatives, scanTo_append hb (by simp)]
      simp only
      rcases isPrefixOf_cases s arg with ⟨h3, a, rfl⟩ | ⟨h3, h4⟩
      · rw [if_pos h3]
        refine .inl ⟨s, by simp, a, rfl, ?_⟩
        have := scan_close (t :: ss) (fun x hx => (hs x (by simp at hx ⊢; tauto)).2) r
        rw [scanTo, if_neg (by decide), this]
        simp
      · rw [if_neg (by simp [h3])]
        simp only [List.head?_cons, if_true, List.drop_succ_cons, List.drop_zero]
        rcases ih k (by simp) (by simp at hk ⊢; omega) (fun x hx => hs x (by simp at hx ⊢; tauto)) with
          ⟨x, hx, a, h5, h6⟩ | ⟨h5, h6⟩
        · exact .inl ⟨x, by simp at hx ⊢; tauto, a, h5, h6⟩
        · refine .inr ⟨?_, h6⟩
          intro x hx
          simp only [List.mem_cons] at hx
          rcases hx with rfl | hx
          · exact h4
          · exact h5 x (by simpa using hx)

theorem altText_chars {c : UInt8} (hc : c ≠ chr% '|') (ss : List Bytes) (h : ∀ s ∈ ss, c ∉ s) :
    c ∉ altText ss := by
  induction ss with
  | nil => simp [altText]
  | cons s ss ih =>
    cases ss with
    | nil => simpa [altText] using h
    | cons t ss =>
      rw [altText_cons, List.mem_append, List.mem_cons]
      rintro (h1 | h1 | h1)
      · exact h s (by simp) h1
      · exact hc h1
      · exact ih (fun x hx => h x (by simp at hx ⊢; tauto)) h1

theorem altText_length (ss : List Bytes) (h : ∀ s ∈ ss, s ≠ []) : ss.length ≤ (altText ss).length := by
  induction ss with
  | nil => simp
  | cons s ss ih =>
    cases ss with
    | nil =>
      have := h s (by simp)
      have := List.length_pos_iff.2 this
      simp only [altText, List.length_singleton]; omega
    | cons t ss =>
      have := ih (fun x hx => h x (by simp at hx ⊢; tauto))
      rw [altText_cons]
      simp only [List.length_append, List.length_cons] at this ⊢
      omega

/-- `match_rule` accepts exactly the spellings, and the raw text of brackets. -/
theorem matchRule_lang : ∀ (ps : List Piece), Clear ps → ∀ (k : Nat), ps.length ≤ k → ∀ arg,
    ∃ b, matchRule (k + 1) (spell ps) arg = some b ∧ (b = true ↔ Lang true ps arg) := by
  intro ps
  induction ps with
  | nil =>
    intro _ k _ arg
    refine ⟨decide (arg = []), ?_, ?_⟩
    · rw [spell, matchRule]
      cases arg <;> rfl
    · rw [decide_eq_true_eq]
      exact ⟨fun h => h ▸ .nil, fun h => by cases h; rfl⟩
  | cons p ps ih =>
    intro hc k hk arg
    simp only [List.length_cons] at hk
    cases p with
    | lit s =>
      obtain ⟨h1, h2, h3⟩ := hc
      obtain ⟨b, h4, h5⟩ := matchRule_lit (ih h3 k (by omega)) s h1 h2 arg
      refine ⟨b, h4, h5.trans ⟨?_, ?_⟩⟩
      · rintro ⟨a, rfl, ha⟩; exact .lit ha
      · intro h; cases h with | lit h => exact ⟨_, rfl, h⟩
    | opt o =>
      obtain ⟨h1, h2, h3, ⟨c, s, ps', hps, hcb, d, hd, hdc⟩, h4⟩ := hc
      obtain ⟨k, rfl⟩ : ∃ j, k = j + 1 := ⟨k - 1, by omega⟩
      have hih := ih h4
      have hnot : ∀ a, Lang true ps a → a.head? = some c := by
        intro a ha
        rw [hps] at ha
        cases ha with
        | lit ha => rfl
      by_cases hb : arg.head? = some (chr% '[')
      · cases arg with
        | nil => simp at hb
        | cons x arg =>
          simp only [List.head?_cons, Option.some.injEq] at hb
          subst hb
          rw [spell, matchRule_cons]
          obtain ⟨b, e1, e2⟩ := matchRule_lit (hih (k + 1) (by omega)) (o ++ [chr% ']'])
            (by simp [h1]) (by simp [h2]) arg
          simp only [List.append_assoc, List.singleton_append] at e1
          refine ⟨b, e1, e2.trans ⟨?_, ?_⟩⟩
          · rintro ⟨a, rfl, ha⟩
            have := Lang.optRaw (s := o) rfl ha
            simpa using this
          · intro h
            generalize hg : (chr% '[' :: arg) = g at h
            cases h with
            | @optIn _ _ a ha =>
              cases o with
              | nil => simp at hd
              | cons y o =>
                simp only [List.cons_append, List.cons.injEq] at hg
                exact absurd (by simp [hg.1]) h1
            | optOut ha =>
              have := hnot _ ha
              rw [← hg] at this
              simp only [List.head?_cons, Option.some.injEq] at this
              exact absurd this.symm hcb
            | @optRaw _ _ a _ ha =>
              simp only [List.cons.injEq, true_and] at hg
              exact ⟨a, by simp [hg], ha⟩
      · rw [spell, matchRule, skipEqual_ne hb]
        simp only [if_true]
        rw [scanTo_append (by
          intro b hb' hc'
          simp only [List.mem_singleton] at hc'
          subst hc'
          exact h3 hb') (by simp)]
        simp only [List.drop_succ_cons, List.drop_zero]
        have raw : ∀ a : Bytes, arg ≠ chr% '[' :: a := by rintro a rfl; simp at hb
        rcases isPrefixOf_cases o arg with ⟨e1, a, rfl⟩ | ⟨e1, e2⟩
        · rw [if_pos e1]
          obtain ⟨b, e3, e4⟩ := hih k (by omega) a
          refine ⟨b, by simpa using e3, e4.trans ⟨fun h => .optIn h, ?_⟩⟩
          intro h
          generalize hg : o ++ a = g at h
          cases h with
          | @optIn _ _ a' ha =>
            rw [← List.append_cancel_left hg] at ha
            exact ha
          | optOut ha =>
            have := hnot _ ha
            rw [← hg] at this
            cases o with
            | nil => simp at hd
            | cons y o =>
              simp only [List.cons_append, List.head?_cons, Option.some.injEq] at this hd
              exact absurd (hd.symm.trans this) hdc
          | optRaw _ ha => exact absurd hg (raw _)
        · rw [if_neg (by simp [e1])]
          obtain ⟨b, e3, e4⟩ := hih k (by omega) arg
          refine ⟨b, e3, e4.trans ⟨fun h => .optOut h, ?_⟩⟩
          intro h
          generalize hg : arg = g at h
          cases h with
          | @optIn _ _ a' ha => exact absurd ⟨a', hg.symm⟩ e2
          | optOut ha => exact ha
          | optRaw _ ha => exact absurd hg (raw _)
    | alt ss =>
      obtain ⟨h0, h1, h2, h2', h3⟩ := hc
      obtain ⟨k, rfl⟩ : ∃ j, k = j + 1 := ⟨k - 1, by omega⟩
      have hih := ih h3
      have c1 : chr% '[' ∉ altText ss := altText_chars (by decide) _ fun s hs => (h1 s hs).1
      have c2 : chr% '{' ∉ altText ss := altText_chars (by decide) _ fun s hs => (h1 s hs).2.1
      by_cases hb : arg.head? = some (chr% '{')
      · cases arg with
        | nil => simp at hb
        | cons x arg =>
          simp only [List.head?_cons, Option.some.injEq] at hb
          subst hb
          rw [spell, matchRule_cons]
          obtain ⟨b, e1, e2⟩ := matchRule_lit (hih (k + 1) (by omega)) (altText ss ++ [chr% '}'])
            (by simp [c1]) (by simp [c2]) arg
          simp only [List.append_assoc, List.singleton_append] at e1
          refine ⟨b, e1, e2.trans ⟨?_, ?_⟩⟩
          · rintro ⟨a, rfl, ha⟩
            have := Lang.altRaw (ss := ss) rfl ha
            simpa using this
          · intro h
            generalize hg : (chr% '{' :: arg) = g at h
            cases h with
            | @alt s _ _ a hs ha =>
              cases s with
              | nil => exact absurd rfl (h2' _ hs)
              | cons y s =>
                simp only [List.cons_append, List.cons.injEq] at hg
                exact absurd (by simp [hg.1]) (h1 _ hs).2.1
            | @altRaw _ _ a _ ha =>
              simp only [List.cons.injEq, true_and] at hg
              exact ⟨a, by simp [hg], ha⟩
      · rw [spell, matchRule, skipEqual_ne hb]
        simp only
        rw [if_neg (by decide), if_pos trivial]
        have raw : ∀ a : Bytes, arg ≠ chr% '{' :: a := by rintro a rfl; simp at hb
        have hl := altText_length ss h2'
        rcases alternatives_spec (spell ps) arg ss ((altText ss ++ chr% '}' :: spell ps).length + 1) h0
          (by simp; omega) (fun s hs => (h1 s hs).2.2) with ⟨s, hs, a, rfl, e1⟩ | ⟨e1, e2⟩
        · rw [e1]
          simp only
          obtain ⟨b, e3, e4⟩ := hih k (by omega) a
          refine ⟨b, e3, e4.trans ⟨fun h => .alt hs h, ?_⟩⟩
          intro h
          generalize hg : s ++ a = g at h
          cases h with
          | @alt s' _ _ a' hs' ha =>
            have hss : s = s' := by
              rcases List.append_eq_append_iff.1 hg with ⟨x, hx, _⟩ | ⟨x, hx, _⟩
              · exact h2 s hs s' hs' ⟨x, hx.symm⟩
              · exact (h2 s' hs' s hs ⟨x, hx.symm⟩).symm
            subst hss
            rw [← List.append_cancel_left hg] at ha
            exact ha
          | altRaw _ ha => exact absurd hg (raw _)
        · rw [e2]
          refine ⟨false, rfl, ?_⟩
          simp only [Bool.false_eq_true, false_iff]
          intro h
          generalize hg : arg = g at h
          cases h with
          | @alt s' _ _ a' hs' ha => exact e1 s' hs' ⟨a', hg.symm⟩
          | altRaw _ ha => exact absurd hg (raw _)

theorem spell_length (ps : List Piece) (h : Clear ps) (hne : ∀ p ∈ ps, p ≠ .lit []) :
    ps.length ≤ (spell ps).length := by
  induction ps with
  | nil => simp
  | cons p ps ih =>
    have hne' : ∀ p ∈ ps, p ≠ .lit [] := fun x hx => hne x (by simp [hx])
    cases p with
    | lit s =>
      have := ih h.2.2 hne'
      have hs : s ≠ [] := by rintro rfl; exact hne _ (by simp) rfl
      have := List.length_pos_iff.2 hs
      simp only [spell, List.length_append, List.length_cons]; omega
    | opt o =>
      have := ih h.2.2.2.2 hne'
      simp only [spell, List.length_append, List.length_cons]; omega
    | alt ss =>
      have := ih h.2.2.2.2 hne'
      simp only [spell, List.length_append, List.length_cons]; omega

theorem Lang.raw {ps : List Piece} {a : Bytes} (h : Lang false ps a) : Lang true ps a := by
  induction h with
  | nil => exact .nil
  | lit _ ih => exact .lit ih
  | optIn _ ih => exact .optIn ih
  | optOut _ ih => exact .optOut ih
  | alt hs _ ih => exact .alt hs ih
  | optRaw h => simp at h
  | altRaw h => simp at h

/-- The argument is no raw bracket text of a rule. -/
def NoRaw (k : Kind) (arg : Bytes) : Prop :=
  ∀ ps, k = .exact ps → Lang true ps arg → Lang false ps arg

/-- Well-formed entry without empty literals. -/
def Kind.Good (k : Kind) : Prop := k.WF ∧ ∀ ps, k = .exact ps → ∀ p ∈ ps, p ≠ .lit []

/-- What `match_arg` answers, in terms of the meaning of the entry. -/
def Answer (k : Kind) (arg : Bytes) (more : List Bytes) : Match → Prop
  | .no => k.Ignores arg more
  | .call text used => k.Takes arg more text used
  | .missing => k.Lacks arg more

theorem prefix_len {p arg : Bytes} {a : Bytes} (h : arg = p ++ a) : arg.length = p.length ↔ a = [] := by
  subst h; simp

theorem matchArg_answer {k : Kind} (hk : Kind.Good k) {arg : Bytes} (hr : NoRaw k arg) (more : List Bytes) :
    ∃ m, matchArg k.rule arg more = some m ∧ Answer k arg more m := by
  obtain ⟨hk, hne⟩ := hk
  have joined : ∀ p : Bytes,
      ∃ m, (if p.isPrefixOf arg then
          if arg.length = p.length then some Match.missing else some (.call (arg.drop p.length) 1)
        else some .no) = some m ∧
        (m = .no ∧ ¬ p <+: arg ∨ m = .missing ∧ arg = p ∨ ∃ a, a ≠ [] ∧ arg = p ++ a ∧ m = .call a 1) := by
    intro p
    rcases isPrefixOf_cases p arg with ⟨e1, a, rfl⟩ | ⟨e1, e2⟩
    · rw [if_pos e1]
      by_cases ha : a = []
      · subst ha
        exact ⟨_, by rw [if_pos (by simp)], .inr (.inl ⟨rfl, by simp⟩)⟩
      · exact ⟨_, by rw [if_neg (by simpa using ha)], .inr (.inr ⟨a, ha, rfl, by simp⟩)⟩
    · exact ⟨_, by rw [if_neg (by simp [e1])], .inl ⟨rfl, e2⟩⟩
  have hjoined : ∀ (k : Kind) (p : Bytes), (∀ t u, k.Takes arg more t u ↔ t ≠ [] ∧ arg = p ++ t ∧ u = 1) →
      (k.Lacks arg more ↔ arg = p) →
      ∃ m, (if p.isPrefixOf arg then
          if arg.length = p.length then some Match.missing else some (.call (arg.drop p.length) 1)
        else some .no) = some m ∧ Answer k arg more m := by
    intro k p ht hl
    obtain ⟨m, e1, e2⟩ := joined p
    refine ⟨m, e1, ?_⟩
    rcases e2 with ⟨rfl, e3⟩ | ⟨rfl, e3⟩ | ⟨a, h1, h2, rfl⟩
    · refine ⟨fun t u h => ?_, fun h => ?_⟩
      · rw [ht] at h; exact e3 ⟨t, h.2.1.symm⟩
      · rw [hl] at h; exact e3 ⟨[], by simp [h]⟩
    · exact hl.2 e3
    · exact (ht a 1).2 ⟨h1, h2, rfl⟩
  cases k with
  | exact ps =>
    obtain ⟨hc, c, e1, e2, e3, e4⟩ := hk
    obtain ⟨b, e5, e6⟩ := matchRule_lang ps hc (spell ps).length (spell_length ps hc (hne ps rfl)) arg
    refine ⟨if b then .call arg 1 else .no, ?_, ?_⟩
    · simp only [matchArg, Kind.rule, e1]
      rw [if_neg e2, if_neg (by simp [e3, e4]), e5]
      rfl
    · cases b with
      | true => exact ⟨hr ps rfl (e6.1 rfl), rfl, rfl⟩
      | false =>
        refine ⟨fun t u h => ?_, id⟩
        have := e6.2 (Lang.raw h.1)
        simp at this
  | sep p =>
    simp only [matchArg, Kind.rule, List.getLast?_concat, if_true, List.dropLast_concat]
    rcases isPrefixOf_cases p arg with ⟨e1, a, rfl⟩ | ⟨e1, e2⟩
    · rw [if_pos e1]
      by_cases ha : a = []
      · subst ha
        rw [if_pos (by simp)]
        cases more with
        | nil => exact ⟨_, rfl, by simp [Answer, Kind.Lacks]⟩
        | cons n more => exact ⟨_, rfl, by simp [Answer, Kind.Takes]⟩
      · rw [if_neg (by simpa using ha)]
        exact ⟨_, rfl, by simp [Answer, Kind.Takes, ha]⟩
    · rw [if_neg (by simp [e1])]
      refine ⟨_, rfl, fun t u h => ?_, fun h => ?_⟩
      · rcases h with ⟨_, h, _⟩ | ⟨h, _⟩
        · exact e2 ⟨t, h.symm⟩
        · exact e2 ⟨[], by simp [h]⟩
      · exact e2 ⟨[], by simp [h.1]⟩
  | joinedLt p =>
    simp only [matchArg, Kind.rule, List.getLast?_concat]
    rw [if_neg (by decide), if_pos (.inl trivial)]
    simp only [if_true, List.dropLast_concat]
    exact hjoined _ p (fun t u => Iff.rfl) Iff.rfl
  | joinedEq p =>
    have hp : p.getLast? = some (chr% '=') := hk
    simp only [matchArg, Kind.rule, hp]
    rw [if_neg (by decide), if_pos (.inr trivial)]
    exact hjoined _ p (fun t u => Iff.rfl) Iff.rfl

theorem findOption_spec {arg : Bytes} {more : List Bytes} : ∀ (ks pre : List Kind),
    (∀ k ∈ ks, Kind.Good k ∧ NoRaw k arg) → (∀ k ∈ pre, k.Ignores arg more) →
    (findOption (ks.map Kind.rule) pre.length arg more = some none ∧ ∀ k ∈ pre ++ ks, k.Ignores arg more) ∨
    (∃ i k m, findOption (ks.map Kind.rule) pre.length arg more = some (some (i, m)) ∧ m ≠ .no ∧
      Decides (pre ++ ks) arg more i k ∧ Answer k arg more m) := by
  intro ks
  induction ks with
  | nil => intro pre _ hp; exact .inl ⟨rfl, by simpa using hp⟩
  | cons k ks ih =>
    intro pre hk hp
    obtain ⟨h1, h2⟩ := hk k (by simp)
    obtain ⟨m, e1, e2⟩ := matchArg_answer h1 h2 more
    rw [List.map_cons, findOption, e1]
    cases m with
    | no =>
      have := ih (pre ++ [k]) (fun x hx => hk x (by simp [hx])) (by
        intro x hx
        simp only [List.mem_append, List.mem_singleton] at hx
        rcases hx with hx | rfl
        · exact hp x hx
        · exact e2)
      simpa using this
    | call t u => exact .inr ⟨_, k, _, rfl, by simp, ⟨rfl, hp⟩, e2⟩
    | missing => exact .inr ⟨_, k, _, rfl, by simp, ⟨rfl, hp⟩, e2⟩

theorem parseArgs_spec (ks : List Kind) (hk : ∀ k ∈ ks, Kind.Good k) (cb : Nat → Bytes → Int) :
    ∀ (n : Nat) (argv : List Bytes), argv.length < n → (∀ a ∈ argv, ∀ k ∈ ks, NoRaw k a) →
      ∃ calls r, parseArgs (ks.map Kind.rule) cb n argv = some (calls, r) ∧ Parses ks cb argv calls r := by
  intro n
  induction n with
  | zero => intro argv h; omega
  | succ n ih =>
    intro argv hn hr
    cases argv with
    | nil => exact ⟨[], 0, rfl, .nil⟩
    | cons arg more =>
      simp only [List.length_cons] at hn
      rw [parseArgs]
      by_cases hd : arg.head? = some (chr% '-')
      · rw [if_pos hd]
        have h1 := findOption_spec (arg := arg) (more := more) ks []
          (fun k h => ⟨hk k h, hr arg (by simp) k h⟩) (by simp)
        simp only [List.length_nil, List.nil_append] at h1
        rcases h1 with ⟨e1, e2⟩ | ⟨i, k, m, e1, e2, e3, e4⟩
        · rw [e1]
          exact ⟨[], 1, rfl, .unknown hd e2⟩
        · rw [e1]
          cases m with
          | no => exact absurd rfl e2
          | missing => exact ⟨[], 1, rfl, .lacks hd e3 e4⟩
          | call text used =>
            simp only
            by_cases hcb : cb i text ≠ 0
            · rw [if_pos hcb]
              exact ⟨_, _, rfl, .optionStop hd e3 e4 hcb⟩
            · rw [if_neg hcb]
              obtain ⟨calls, r, h2, h3⟩ := ih (more.drop (used - 1)) (by simp; omega)
                (fun a ha => hr a (by simp [List.mem_of_mem_drop ha]))
              rw [h2]
              exact ⟨_, _, rfl, .option hd e3 e4 (by simpa using hcb) h3⟩
      · rw [if_neg hd, List.length_map]
        by_cases hcb : cb ks.length arg ≠ 0
        · simp only [if_pos hcb]
          exact ⟨_, _, rfl, .inputStop hd hcb⟩
        · simp only [if_neg hcb]
          obtain ⟨calls, r, h2, h3⟩ := ih more (by omega) (fun a ha => hr a (by simp [ha]))
          rw [h2]
          exact ⟨_, _, rfl, .input hd (by simpa using hcb) h3⟩

end Verif.Driver
