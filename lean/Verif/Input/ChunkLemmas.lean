import Verif.Tac
import Verif.Input.Chunk
/-! # More text in the buffer does not change a complete line -/
namespace Verif.Input

theorem skip_append (q : Bytes) (r : Bytes) (n : Nat) (d : UInt8) (r' : Bytes) (n' : Nat)
    (h : readComment.skip r n = (d :: r', n')) (hd : d = 47) :
    readComment.skip (r ++ q) n = (d :: (r' ++ q), n') := by
  fun_induction readComment.skip r n with
  | case1 n => simp at h
  | case2 c n =>
    simp only [Prod.mk.injEq, List.cons.injEq] at h
    obtain ⟨⟨rfl, rfl⟩, rfl⟩ := h
    subst hd
    cases q <;> simp [readComment.skip]
  | case3 n c e r hc ih =>
    rw [List.cons_append, List.cons_append, readComment.skip, if_pos hc, ih h]
  | case4 n c e r hc =>
    simp only [Prod.mk.injEq, List.cons.injEq] at h
    obtain ⟨⟨rfl, rfl⟩, rfl⟩ := h
    rw [List.cons_append, List.cons_append, readComment.skip, if_neg hc]

theorem skip_append_nil (q r : Bytes) (n : Nat) (d : UInt8) (r' : Bytes) (n' : Nat)
    (h : readComment.skip r n = (d :: r', n')) (h2 : d ≠ 47) :
    (∃ r'' n'', readComment.skip (r ++ q) n = (d :: r'', n'')) ∨ (r' = [] ∧ d = 92) := by
  fun_induction readComment.skip r n with
  | case1 n => simp at h
  | case2 c n =>
    simp only [Prod.mk.injEq, List.cons.injEq] at h
    obtain ⟨⟨rfl, rfl⟩, rfl⟩ := h
    by_cases hc : c = 92
    · exact .inr ⟨rfl, hc⟩
    · left
      cases q with
      | nil => exact ⟨[], n, rfl⟩
      | cons a q => exact ⟨a :: q, n, by simp [readComment.skip, hc]⟩
  | case3 n c e r hc ih =>
    rw [List.cons_append, List.cons_append, readComment.skip, if_pos hc]
    exact ih h
  | case4 n' c e r hc =>
    simp only [Prod.mk.injEq, List.cons.injEq] at h
    obtain ⟨⟨rfl, rfl⟩, rfl⟩ := h
    left
    exact ⟨_, _, by rw [List.cons_append, List.cons_append, readComment.skip, if_neg hc]⟩

/-- A text in which only splices and possibly one more backslash are left holds no comment end. -/
theorem readComment_skip_none (r : Bytes) (n m : Nat) (h : (readComment.skip r n).1 = [] ∨
    (readComment.skip r n).1 = [92]) : readComment r m = none := by
  fun_induction readComment.skip r n generalizing m with
  | case1 n => simp [readComment]
  | case2 c n =>
    simp at h
    subst h
    simp [readComment]
  | case3 n c e r hc ih =>
    simp only [Bool.and_eq_true, decide_eq_true_eq] at hc
    obtain ⟨rfl, rfl⟩ := hc
    rw [readComment, if_neg (by decide), if_neg (by decide), readComment, if_neg (by decide),
      if_pos rfl]
    exact ih _ h
  | case4 n c e r hc => simp at h

theorem readComment_append (q r : Bytes) (n : Nat) (r' : Bytes) (n' : Nat)
    (h : readComment r n = some (r', n')) : readComment (r ++ q) n = some (r' ++ q, n') := by
  induction r generalizing n with
  | nil => simp [readComment] at h
  | cons c r ih =>
    rw [List.cons_append, readComment]
    rw [readComment] at h
    by_cases hc : c = 42
    · rw [if_pos hc] at h ⊢
      cases hk : readComment.skip r n with
      | mk l nn =>
        rw [hk] at h
        cases l with
        | nil => simp at h
        | cons d l =>
          simp only at h
          by_cases hd : d = 47
          · rw [if_pos hd] at h
            simp only [Option.some.injEq, Prod.mk.injEq] at h
            rw [skip_append q r n d l nn hk hd]
            simp [hd, h]
          · rw [if_neg hd] at h
            rcases skip_append_nil q r n d l nn hk hd with ⟨r'', n'', e⟩ | ⟨rfl, rfl⟩
            · rw [e]
              simp only
              rw [if_neg hd]
              exact ih n h
            · rw [readComment_skip_none r n n (by rw [hk]; simp)] at h
              simp at h
    · rw [if_neg hc] at h ⊢
      by_cases hn : c = 10
      · rw [if_pos hn] at h ⊢; exact ih _ h
      · rw [if_neg hn] at h ⊢; exact ih _ h

theorem readComment_length (r : Bytes) (n : Nat) (r' : Bytes) (n' : Nat)
    (h : readComment r n = some (r', n')) : r'.length ≤ r.length := by
  have skipLen : ∀ (r : Bytes) (n : Nat), (readComment.skip r n).1.length ≤ r.length := by
    intro r n
    fun_induction readComment.skip r n <;> simp_all <;> omega
  induction r generalizing n with
  | nil => simp [readComment] at h
  | cons c r ih =>
    rw [readComment] at h
    simp only [List.length_cons]
    split at h
    · have := skipLen r n
      split at h
      · rename_i d r1 n1 hk
        rw [hk] at this
        simp only [List.length_cons] at this
        split at h
        · simp only [Option.some.injEq, Prod.mk.injEq] at h
          obtain ⟨rfl, rfl⟩ := h
          omega
        · have := ih _ h; omega
      · simp at h
    · split at h <;> have := ih _ h <;> omega

theorem readLineComment_append (q r : Bytes) (n : Nat) (r' : Bytes) (n' : Nat)
    (h : readLineComment r n = some (r', n')) : readLineComment (r ++ q) n = some (r' ++ q, n') := by
  fun_induction readLineComment r n with
  | case1 n => simp at h
  | case2 n =>
    simp only [Option.some.injEq, Prod.mk.injEq] at h
    obtain ⟨rfl, rfl⟩ := h
    cases q <;> simp [readLineComment]
  | case3 n => simp at h
  | case4 n c d r hc ih =>
    rw [List.cons_append, List.cons_append, readLineComment, if_pos hc]
    exact ih h
  | case5 n d r hc =>
    simp only [Option.some.injEq, Prod.mk.injEq] at h
    obtain ⟨rfl, rfl⟩ := h
    rw [List.cons_append, List.cons_append, readLineComment, if_neg hc, if_pos rfl]
  | case6 n c d r hc hn ih =>
    rw [List.cons_append, List.cons_append, readLineComment, if_neg hc, if_neg hn]
    exact ih h

theorem readLineComment_length (r : Bytes) (n : Nat) (r' : Bytes) (n' : Nat)
    (h : readLineComment r n = some (r', n')) : r'.length < r.length := by
  fun_induction readLineComment r n <;> simp_all <;> omega

def Lit.app (q : Bytes) : Lit → Lit
  | .done o r n => .done o (r ++ q) n
  | .incomplete => .incomplete
  | .error => .error

def LRes.app (q : Bytes) : LRes → LRes
  | .line t r n => .line t (r ++ q) n
  | .incomplete => .incomplete
  | .error => .error

theorem readLiteral_append (quote : UInt8) (q : Bytes) : ∀ (m : Nat) (out l : Bytes) (n : Nat),
    l.length ≤ m → readLiteral quote out l n ≠ .incomplete →
    readLiteral quote out (l ++ q) n = (readLiteral quote out l n).app q := by
  intro m
  induction m with
  | zero =>
    intro out l n hm h
    cases l with
    | nil => simp [readLiteral] at h
    | cons c r => simp at hm
  | succ m ih =>
    intro out l n hm h
    cases l with
    | nil => simp [readLiteral] at h
    | cons c r =>
      simp only [List.length_cons] at hm
      rw [List.cons_append]
      unfold readLiteral at h ⊢
      by_cases hn : c = 10
      · simp only [if_pos hn] at h ⊢
        by_cases hb : out.head? = some 92
        · simp only [if_pos hb] at h ⊢
          exact ih _ _ _ (by omega) h
        · simp only [if_neg hb]
          rfl
      · simp only [if_neg hn] at h ⊢
        by_cases hc : c = 63
        · simp only [if_pos hc] at h ⊢
          rcases r with _ | ⟨d, _ | ⟨x, r'⟩⟩
          · simp [readLiteral] at h
          · have h' : readLiteral quote (c :: out) [d] n ≠ .incomplete := h
            have e := ih (c :: out) [d] n (by simpa using hm) h'
            rcases q with _ | ⟨x, q⟩
            · exact e
            · simp only [List.cons_append, List.nil_append]
              by_cases hd : d = 63
              · subst hd
                exfalso
                apply h'
                unfold readLiteral
                simp [readLiteral]
              · simp only [if_neg hd]
                exact e
          · simp only [List.cons_append] at h ⊢
            by_cases hd : d = 63
            · simp only [if_pos hd] at h ⊢
              cases ht : trigraph x with
              | some t =>
                simp only [ht] at h ⊢
                exact ih _ _ _ (by simp only [List.length_cons] at hm; omega) h
              | none =>
                simp only [ht] at h ⊢
                exact ih _ (d :: x :: r') _ (by omega) h
            · simp only [if_neg hd] at h ⊢
              exact ih _ (d :: x :: r') _ (by omega) h
        · simp only [if_neg hc] at h ⊢
          by_cases hq : (decide (c = quote) && decide (backslashes out % 2 = 0)) = true
          · simp only [if_pos hq]
            rfl
          · simp only [if_neg hq] at h ⊢
            exact ih _ _ _ (by omega) h

theorem readLiteral_length (quote : UInt8) : ∀ (m : Nat) (out l : Bytes) (n : Nat) (o r : Bytes)
    (n' : Nat), l.length ≤ m → readLiteral quote out l n = .done o r n' →
    o.length + r.length ≤ out.length + l.length ∧ r.length < l.length := by
  intro m
  induction m with
  | zero =>
    intro out l n o r n' hm h
    cases l with
    | nil => simp [readLiteral] at h
    | cons c r => simp at hm
  | succ m ih =>
    intro out l n o r' n' hm h
    cases l with
    | nil => simp [readLiteral] at h
    | cons c r =>
      simp only [List.length_cons] at hm ⊢
      unfold readLiteral at h
      split at h
      · split at h
        · have := ih _ _ _ _ _ _ (by omega) h
          simp only [List.length_tail] at this
          omega
        · simp at h
      · split at h
        · split at h
          · simp only [List.length_cons] at hm
            split at h
            · split at h
              · have := ih _ _ _ _ _ _ (by omega) h
                simp only [List.length_cons] at this ⊢
                omega
              · have := ih _ _ _ _ _ _ (by simp only [List.length_cons]; omega) h
                simp only [List.length_cons] at this ⊢
                omega
            · have := ih _ _ _ _ _ _ (by simp only [List.length_cons]; omega) h
              simp only [List.length_cons] at this ⊢
              omega
          · have := ih _ _ _ _ _ _ (by omega) h
            simp only [List.length_cons] at this ⊢
            omega
        · split at h
          · simp only [Lit.done.injEq] at h
            obtain ⟨rfl, rfl, rfl⟩ := h
            simp only [List.length_cons]
            omega
          · have := ih _ _ _ _ _ _ (by omega) h
            simp only [List.length_cons] at this ⊢
            omega

theorem loop2_append (q : Bytes) : ∀ (k k' : Nat) (l start : Bytes) (count : Nat) (out : Bytes)
    (lines : Nat), k ≤ k' → count + l.length ≤ start.length →
    loop2 k l start count out lines ≠ .incomplete →
    loop2 k' (l ++ q) (start ++ q) count out lines = (loop2 k l start count out lines).app q := by
  intro k
  induction k with
  | zero => intro k' l start count out lines _ _ h; simp [loop2] at h
  | succ k ih =>
    intro k' l start count out lines hk hc h
    obtain ⟨k', rfl⟩ : ∃ j, k' = j + 1 := ⟨k' - 1, by omega⟩
    have hk' : k ≤ k' := by omega
    cases l with
    | nil => simp [loop2] at h
    | cons c r =>
      rw [List.cons_append]
      simp only [List.length_cons] at hc
      have htake : (start ++ q).take count = start.take count := List.take_append_of_le_length (by omega)
      have hdrop : (start ++ q).drop count = start.drop count ++ q :=
        List.drop_append_of_le_length (by omega)
      have hdl : (start.drop count).length = start.length - count := List.length_drop
      unfold loop2 at h ⊢
      rw [htake, hdrop]
      by_cases hn : c = 10
      · simp only [if_pos hn]; rfl
      simp only [if_neg hn] at h ⊢
      generalize hO : (start.take count).reverse ++ out = o at h ⊢
      by_cases hsp : (decide (c = 34) || decide (c = 39) || decide (c = 42) || decide (c = 47) ||
        decide (c = 63) || decide (c = 92)) = true
      · simp only [if_pos hsp] at h ⊢
        by_cases hq : (decide (c = 34) || decide (c = 39)) = true
        · simp only [if_pos hq] at h ⊢
          have hne : readLiteral c (c :: o) r lines ≠ .incomplete := by
            intro e; rw [e] at h; exact h rfl
          rw [readLiteral_append c q _ _ _ _ (Nat.le_refl _) hne]
          cases he : readLiteral c (c :: o) r lines with
          | done o' r' n' =>
            rw [he] at h
            exact ih _ _ _ _ _ _ hk' (by omega) h
          | incomplete => exact absurd he hne
          | error => rfl
        simp only [if_neg hq] at h ⊢
        by_cases h42 : (decide (c = 42) && decide (o.head? = some 47)) = true
        · simp only [if_pos h42] at h ⊢
          cases he : readComment r lines with
          | none => rw [he] at h; exact absurd rfl h
          | some p =>
            obtain ⟨r', n'⟩ := p
            rw [he] at h
            rw [readComment_append q r lines r' n' he]
            exact ih _ _ _ _ _ _ hk' (by omega) h
        simp only [if_neg h42] at h ⊢
        rcases r with _ | ⟨d, r⟩
        · -- the last character of the buffer
          exfalso
          apply h
          have tri : ∀ st ct ot, loop2 k [] st ct ot lines = .incomplete := by
            intro st ct ot; cases k <;> rfl
          simp [tri, readLineComment]
        simp only [List.cons_append, List.head?_cons, List.tail_cons, Option.some.injEq] at h ⊢
        simp only [List.length_cons] at hc
        by_cases h92 : (decide (c = 92) && decide (d = 10)) = true
        · simp only [if_pos h92] at h ⊢
          exact ih _ _ _ _ _ _ hk' (by omega) h
        simp only [if_neg h92] at h ⊢
        by_cases h63 : (decide (c = 63) && decide (d = 63)) = true
        · simp only [if_pos h63] at h ⊢
          rcases r with _ | ⟨x, r⟩
          · exfalso
            apply h
            have tri : ∀ k st ct ot, loop2 k [] st ct ot lines = .incomplete := by
              intro k st ct ot; cases k <;> rfl
            simp only [Bool.and_eq_true, decide_eq_true_eq] at h63
            obtain ⟨rfl, rfl⟩ := h63
            cases k with
            | zero => rfl
            | succ k => simp [loop2, tri]
          · simp only [List.cons_append] at h ⊢
            simp only [List.length_cons] at hc
            cases ht : trigraph x with
            | some t =>
              simp only [ht] at h ⊢
              exact ih _ _ _ _ _ _ hk' (by omega) h
            | none =>
              simp only [ht] at h ⊢
              exact ih _ (d :: x :: r) _ _ _ _ hk' (by simp only [List.length_cons]; omega) h
        simp only [if_neg h63] at h ⊢
        by_cases h47 : (decide (c = 47) && decide (o.head? = some 47)) = true
        · simp only [if_pos h47] at h ⊢
          cases he : readLineComment (d :: r) lines with
          | none => rw [he] at h; exact absurd rfl h
          | some p =>
            obtain ⟨r', n'⟩ := p
            have := readLineComment_append q _ lines r' n' he
            rw [List.cons_append] at this
            rw [this]
            rfl
        simp only [if_neg h47] at h ⊢
        exact ih _ (d :: r) _ _ _ _ hk' (by simp only [List.length_cons]; omega) h
      · simp only [if_neg hsp] at h ⊢
        exact ih _ _ _ _ _ _ hk' (by omega) h

theorem loop1_append (q start : Bytes) : ∀ (l : Bytes) (count : Nat), count + l.length ≤ start.length →
    loop1 start l count ≠ .incomplete →
    loop1 (start ++ q) (l ++ q) count = (loop1 start l count).app q := by
  intro l
  induction l with
  | nil => intro count _ h; simp [loop1] at h
  | cons c r ih =>
    intro count hc h
    simp only [List.length_cons] at hc
    rw [List.cons_append]
    unfold loop1 at h ⊢
    rw [List.take_append_of_le_length (by omega)]
    by_cases hn : c = 10
    · simp only [if_pos hn]; rfl
    simp only [if_neg hn] at h ⊢
    split
    · rename_i hs
      rw [if_pos hs] at h
      exact loop2_append q _ _ (c :: r) _ _ _ _ (by simp) (by simpa using hc) h
    · rename_i hs
      rw [if_neg hs] at h
      exact ih _ (by omega) h

/-- A complete line is complete, and the same, when more text follows. -/
theorem readLine_append (p q : Bytes) (h : readLine p ≠ .incomplete) :
    readLine (p ++ q) = (readLine p).app q :=
  loop1_append q p p 0 (by simp) h

theorem loop2_length : ∀ (k : Nat) (l start : Bytes) (count : Nat) (out : Bytes) (lines : Nat)
    (t rest : Bytes) (n : Nat), 
    loop2 k l start count out lines = .line t rest n →
    t.length + rest.length + 1 ≤ out.length + count + l.length ∧ rest.length < l.length := by
  intro k
  induction k with
  | zero => intro l start count out lines t rest n h; simp [loop2] at h
  | succ k ih =>
    intro l start count out lines t rest n h
    cases l with
    | nil => simp [loop2] at h
    | cons c r =>
      simp only [List.length_cons]
      have hO : ((start.take count).reverse ++ out).length ≤ out.length + count := by
        simp; omega
      unfold loop2 at h
      split at h
      · simp only [LRes.line.injEq] at h
        obtain ⟨rfl, rfl, rfl⟩ := h
        simp only [List.length_reverse]
        omega
      generalize (start.take count).reverse ++ out = o at h hO
      split at h
      · simp only at h
        split at h
        · split at h
          · rename_i o' r' n' he
            have e := readLiteral_length _ _ _ _ _ _ _ _ (Nat.le_refl _) he
            have := ih _ _ _ _ _ _ _ _ h
            simp only [List.length_cons] at e
            omega
          · simp at h
          · simp at h
        split at h
        · rename_i hh
          split at h
          · rename_i r' n' he
            have e := readComment_length _ _ _ _ he
            have := ih _ _ _ _ _ _ _ _ h
            cases o with
            | nil => simp at hh
            | cons a o =>
              simp only [List.tail_cons, List.length_cons] at this hO
              omega
          · simp at h
        split at h
        · have := ih _ _ _ _ _ _ _ _ h
          simp only [List.length_tail] at this
          omega
        split at h
        · split at h
          · rename_i x r' he
            have hr : r.length ≥ r'.length + 2 := by
              cases r with
              | nil => simp at he
              | cons a r => simp at he; simp [he]
            split at h
            · have := ih _ _ _ _ _ _ _ _ h
              simp only [List.length_cons] at this
              omega
            · have := ih _ _ _ _ _ _ _ _ h
              omega
          · have := ih _ _ _ _ _ _ _ _ h
            omega
        split at h
        · split at h
          · rename_i r' n' he
            have e := readLineComment_length _ _ _ _ he
            simp only [LRes.line.injEq] at h
            obtain ⟨rfl, rfl, rfl⟩ := h
            simp only [List.length_reverse, List.length_tail]
            omega
          · simp at h
        · have := ih _ _ _ _ _ _ _ _ h
          omega
      · have := ih _ _ _ _ _ _ _ _ h
        omega

theorem loop1_length (start : Bytes) : ∀ (l : Bytes) (count : Nat) (t rest : Bytes) (n : Nat),
    loop1 start l count = .line t rest n →
    t.length + rest.length + 1 ≤ count + l.length ∧ rest.length < l.length := by
  intro l
  induction l with
  | nil => intro count t rest n h; simp [loop1] at h
  | cons c r ih =>
    intro count t rest n h
    simp only [List.length_cons]
    unfold loop1 at h
    split at h
    · simp only [LRes.line.injEq] at h
      obtain ⟨rfl, rfl, rfl⟩ := h
      simp only [List.length_take]
      omega
    split at h
    · have := loop2_length _ _ _ _ _ _ _ _ _ h
      simp only [List.length_cons, List.length_nil] at this
      omega
    · have := ih _ _ _ _ h
      omega

/-- The logical line and its terminator take no more room than the text it was read from. -/
theorem readLine_length {s t rest : Bytes} {n : Nat} (h : readLine s = .line t rest n) :
    t.length + rest.length + 1 ≤ s.length ∧ rest.length < s.length := by
  have := loop1_length _ _ _ _ _ _ h
  omega

end Verif.Input

namespace Verif.Input

def Src.content (s : Src) : Bytes := s.pend ++ s.file

/-- Holds before each round of `initial_preprocess_line`. -/
structure Round (s : Src) : Prop where
  room : s.pend.length + s.processed < s.size
  grown : s.processed = 0 → s.pend.length + 1 < s.size
  eof : s.eof = true → s.file = []
  retry : s.processed = 0 → s.eof = true → s.pend ≠ [] ∧ readLine s.pend = .incomplete

/-- Rounds left. -/
def Src.rounds (s : Src) : Nat :=
  3 * s.file.length + (if s.eof then 0 else 2) + (if s.processed = 0 then 0 else 1)

/-- A text that is empty or ends in a newline. -/
def Ended (c : Bytes) : Prop := c = [] ∨ c.getLast? = some 10

/-- What one call returns, in terms of the unread text. -/
def Returns (c : Bytes) (line : Nat) (r : Next) : Prop :=
  (c = [] → r = .null) ∧
  (c ≠ [] →
    match readLine c with
    | .line t rest n => ∃ s', r = .line t s' ∧ s'.content = rest ∧ Round s' ∧
        s'.line = line + n ∧ t.length + 2 ≤ s'.size
    | _ => r = .error)

theorem nextLine_step (s : Src) (fuel : Nat) (hne : s.pend ≠ [])
    (hroom : s.pend.length + s.processed < s.size) (heof : s.eof = true → s.file = [])
    (hrec : readLine s.pend = .incomplete →
      Returns s.content s.line (if s.processed = 0 then nextLine fuel { s with size := s.size + 4096 }
        else nextLine fuel { s with processed := 0 })) :
    Returns s.content s.line (match readLine s.pend with
      | .line t rest n =>
        .line t { s with pend := rest, processed := s.processed + (s.pend.length - rest.length),
                         line := s.line + n }
      | .error => .error
      | .incomplete =>
        if s.processed = 0 then nextLine fuel { s with size := s.size + 4096 }
        else nextLine fuel { s with processed := 0 }) := by
  have hcne : s.content ≠ [] := by simp [Src.content, hne]
  cases he : readLine s.pend with
  | line t rest n =>
    refine ⟨fun h => absurd h hcne, fun _ => ?_⟩
    have happ := readLine_append s.pend s.file (by rw [he]; simp)
    rw [he] at happ
    have hlen := readLine_length he
    rw [Src.content, happ]
    refine ⟨_, rfl, rfl, ⟨?_, ?_, heof, ?_⟩, rfl, ?_⟩
    · simp only; omega
    · simp only; intro h; omega
    · simp only; intro h; omega
    · simp only; omega
  | error =>
    refine ⟨fun h => absurd h hcne, fun _ => ?_⟩
    have happ := readLine_append s.pend s.file (by rw [he]; simp)
    rw [he] at happ
    rw [Src.content, happ]
    rfl
  | incomplete => exact hrec he

theorem nextLine_spec : ∀ (fuel : Nat) (s : Src), Round s → s.rounds < fuel → Ended s.content →
    Returns s.content s.line (nextLine fuel s) := by
  intro fuel
  induction fuel with
  | zero => intro s _ h; omega
  | succ fuel ih =>
    intro s hs hf hE
    rw [nextLine]
    unfold fill
    have hroom := hs.room
    by_cases hfill : (decide (s.pend = []) || decide (s.processed = 0)) = true
    · rw [if_pos hfill]
      by_cases he : s.eof = true
      · rw [if_pos he]
        by_cases hp : s.pend = []
        · rw [if_neg (by simp [hp])]
          have : s.content = [] := by simp [Src.content, hp, hs.eof he]
          exact ⟨fun _ => rfl, fun h => absurd this h⟩
        · rw [if_pos hp]
          have h0 : s.processed = 0 := by simpa [hp] using hfill
          have hinc := (hs.retry h0 he).2
          have hc : s.content = s.pend := by simp [Src.content, hs.eof he]
          refine ⟨fun h => absurd (hc ▸ h) hp, fun _ => ?_⟩
          rw [hc, hinc]
      · rw [if_neg he]
        simp only
        generalize hk : (if s.processed = 0 then s.size - s.pend.length - 1 else s.size - 1) = k
        have hkpos : 1 ≤ k ∧ s.pend.length + k < s.size := by
          rw [← hk]
          split
          · rename_i h0; have := hs.grown h0; omega
          · rename_i h0
            have hp : s.pend = [] := by simpa [h0] using hfill
            simp only [hp, List.length_nil]; omega
        have hcont : (s.pend ++ s.file.take k) ++ s.file.drop k = s.content := by
          simp [Src.content]
        by_cases heof : (s.file.take k).length < k
        · simp only [List.length_take] at heof
          have hall : s.file.take k = s.file := List.take_of_length_le (by omega)
          have hd : s.file.drop k = [] := List.drop_eq_nil_of_le (by omega)
          have heof' : (s.file.take k).length < k := by rw [hall]; omega
          simp only [heof', decide_true, if_true]
          rw [hall, hd]
          by_cases hb : s.pend ++ s.file = []
          · rw [if_pos hb]
            exact ⟨fun _ => rfl, fun h => absurd hb h⟩
          · rw [if_neg hb]
            have hl : (s.pend ++ s.file).getLast? = some 10 := hE.resolve_left hb
            rw [if_neg (not_not.mpr hl)]
            have hlen : (s.pend ++ s.file).length < s.size := by
              simp only [List.length_append]; omega
            have key := nextLine_step ⟨s.pend ++ s.file, 0, s.size, [], true, s.line⟩ fuel hb
              (by simpa using hlen) (fun _ => rfl) (fun hinc => by
                rw [if_pos rfl]
                refine ih ⟨s.pend ++ s.file, 0, s.size + 4096, [], true, s.line⟩
                  ⟨?_, ?_, fun _ => rfl, fun _ _ => ⟨hb, hinc⟩⟩ ?_ ?_
                · simp only; omega
                · simp only; omega
                · simp only [Src.rounds, if_neg he] at hf
                  simp only [Src.rounds, List.length_nil, if_true]
                  omega
                · simpa [Src.content] using hE)
            simp only [Src.content, List.append_nil] at key
            simp only [if_neg hb]
            exact key
        · simp only [heof, decide_false]
          have hb : s.pend ++ s.file.take k ≠ [] := by
            intro h
            rw [List.append_eq_nil_iff] at h
            rw [h.2] at heof
            simp only [List.length_nil] at heof
            omega
          simp only [List.length_take] at heof
          have hlen : (s.pend ++ s.file.take k).length < s.size := by
            simp only [List.length_append, List.length_take]; omega
          have key := nextLine_step ⟨s.pend ++ s.file.take k, 0, s.size, s.file.drop k, false, s.line⟩
            fuel hb (by simpa using hlen) (by simp) (fun hinc => by
                rw [if_pos rfl]
                refine ih ⟨s.pend ++ s.file.take k, 0, s.size + 4096, s.file.drop k, false, s.line⟩
                  ⟨?_, ?_, by simp, by simp⟩ ?_ ?_
                · simp only; omega
                · simp only; omega
                · simp only [Src.rounds, if_neg he] at hf
                  simp only [Src.rounds, List.length_drop]
                  simp only [Bool.false_eq_true, if_false, if_true]
                  omega
                · simpa [Src.content] using hE)
          simp only [Src.content, List.append_assoc, List.take_append_drop] at key
          simp only [Bool.false_eq_true, if_false, if_neg hb]
          exact key
    · rw [if_neg hfill]
      simp only [Bool.or_eq_true, decide_eq_true_eq, not_or] at hfill
      simp only [if_neg hfill.1]
      refine nextLine_step s fuel hfill.1 hroom hs.eof (fun hinc => ?_)
      rw [if_neg hfill.2]
      refine ih { s with processed := 0 } ⟨?_, ?_, hs.eof, fun _ _ => ⟨hfill.1, hinc⟩⟩ ?_ hE
      · simp only; omega
      · simp only; intro _; omega
      · simp only [Src.rounds, if_neg hfill.2] at hf
        simp only [Src.rounds, if_true]
        omega

theorem rounds_le (s : Src) : s.rounds ≤ 3 * s.content.length + 3 := by
  simp only [Src.rounds, Src.content, List.length_append]
  split <;> split <;> omega

theorem ended_readLine {c t rest : Bytes} {n : Nat} (h : Ended c) (hr : readLine c = .line t rest n)
    (hs : rest <:+ c) : Ended rest := by
  rcases h with rfl | h
  · have := readLine_length hr
    simp at this
  · by_cases hn : rest = []
    · exact .inl hn
    · right
      obtain ⟨p, rfl⟩ := hs
      rw [List.getLast?_append] at h
      cases hl : rest.getLast? with
      | none => simp at hl; exact absurd hl hn
      | some a => rw [hl] at h; simpa using h

end Verif.Input

namespace Verif.Input

theorem skip_suffix (r : Bytes) (n : Nat) : (readComment.skip r n).1 <:+ r := by
  fun_induction readComment.skip r n with
  | case1 => simp
  | case2 => simp
  | case3 n c d r h ih => exact ih.trans ⟨[_, _], rfl⟩
  | case4 => simp

theorem readComment_suffix (r : Bytes) (n : Nat) (r' : Bytes) (n' : Nat)
    (h : readComment r n = some (r', n')) : r' <:+ r := by
  induction r generalizing n with
  | nil => simp [readComment] at h
  | cons c r ih =>
    rw [readComment] at h
    refine List.IsSuffix.trans ?_ (List.suffix_cons c r)
    split at h
    · have hs := skip_suffix r n
      split at h
      · rename_i d r1 n1 hk
        rw [hk] at hs
        split at h
        · simp only [Option.some.injEq, Prod.mk.injEq] at h
          obtain ⟨rfl, rfl⟩ := h
          exact (List.suffix_cons _ _).trans hs
        · exact ih _ h
      · simp at h
    · split at h <;> exact ih _ h

theorem readLineComment_suffix (r : Bytes) (n : Nat) (r' : Bytes) (n' : Nat)
    (h : readLineComment r n = some (r', n')) : r' <:+ r := by
  fun_induction readLineComment r n with
  | case1 n => simp at h
  | case2 n => simp at h; simp [h]
  | case3 n => simp at h
  | case4 n c d r hc ih => exact (ih h).trans ⟨[_, _], rfl⟩
  | case5 n d r hc => simp at h; rw [← h.1]; exact List.suffix_cons _ _
  | case6 n c d r hc hn ih => exact (ih h).trans (List.suffix_cons _ _)

theorem readLiteral_suffix (quote : UInt8) : ∀ (m : Nat) (out l : Bytes) (n : Nat) (o r : Bytes)
    (n' : Nat), l.length ≤ m → readLiteral quote out l n = .done o r n' → r <:+ l := by
  intro m
  induction m with
  | zero =>
    intro out l n o r n' hm h
    cases l with
    | nil => simp [readLiteral] at h
    | cons c r => simp at hm
  | succ m ih =>
    intro out l n o r' n' hm h
    cases l with
    | nil => simp [readLiteral] at h
    | cons c r =>
      simp only [List.length_cons] at hm
      refine List.IsSuffix.trans ?_ (List.suffix_cons c r)
      unfold readLiteral at h
      split at h
      · split at h
        · exact ih _ _ _ _ _ _ (by omega) h
        · simp at h
      · split at h
        · split at h
          · rename_i d x r1
            simp only [List.length_cons] at hm
            split at h
            · split at h
              · exact (ih _ _ _ _ _ _ (by omega) h).trans ⟨[d, x], rfl⟩
              · exact ih _ _ _ _ _ _ (by simp only [List.length_cons]; omega) h
            · exact ih _ _ _ _ _ _ (by simp only [List.length_cons]; omega) h
          · exact ih _ _ _ _ _ _ (by omega) h
        · split at h
          · simp only [Lit.done.injEq] at h
            rw [h.2.1]
            exact List.suffix_refl _
          · exact ih _ _ _ _ _ _ (by omega) h

theorem loop2_suffix : ∀ (k : Nat) (l start : Bytes) (count : Nat) (out : Bytes) (lines : Nat)
    (t rest : Bytes) (n : Nat),
    loop2 k l start count out lines = .line t rest n → rest <:+ l := by
  intro k
  induction k with
  | zero => intro l start count out lines t rest n h; simp [loop2] at h
  | succ k ih =>
    intro l start count out lines t rest n h
    cases l with
    | nil => simp [loop2] at h
    | cons c r =>
      refine List.IsSuffix.trans ?_ (List.suffix_cons c r)
      unfold loop2 at h
      split at h
      · simp only [LRes.line.injEq] at h
        rw [h.2.1]
        exact List.suffix_refl _
      generalize (start.take count).reverse ++ out = o at h
      split at h
      · simp only at h
        split at h
        · split at h
          · rename_i o' r' n' he
            exact (ih _ _ _ _ _ _ _ _ h).trans (readLiteral_suffix _ _ _ _ _ _ _ _ (Nat.le_refl _) he)
          · simp at h
          · simp at h
        split at h
        · split at h
          · rename_i r' n' he
            exact (ih _ _ _ _ _ _ _ _ h).trans (readComment_suffix _ _ _ _ he)
          · simp at h
        split at h
        · exact (ih _ _ _ _ _ _ _ _ h).trans (List.tail_suffix _)
        split at h
        · split at h
          · rename_i x r' he
            split at h
            · exact ((ih _ _ _ _ _ _ _ _ h).trans (by rw [he]; exact List.suffix_cons _ _)).trans
                (List.tail_suffix r)
            · exact ih _ _ _ _ _ _ _ _ h
          · exact ih _ _ _ _ _ _ _ _ h
        split at h
        · split at h
          · rename_i r' n' he
            simp only [LRes.line.injEq] at h
            rw [← h.2.1]
            exact readLineComment_suffix _ _ _ _ he
          · simp at h
        · exact ih _ _ _ _ _ _ _ _ h
      · exact ih _ _ _ _ _ _ _ _ h

theorem loop1_suffix (start : Bytes) : ∀ (l : Bytes) (count : Nat) (t rest : Bytes) (n : Nat),
    loop1 start l count = .line t rest n → rest <:+ l := by
  intro l
  induction l with
  | nil => intro count t rest n h; simp [loop1] at h
  | cons c r ih =>
    intro count t rest n h
    unfold loop1 at h
    split at h
    · simp only [LRes.line.injEq] at h
      rw [h.2.1]
      exact List.suffix_cons _ _
    split at h
    · exact loop2_suffix _ _ _ _ _ _ _ _ _ h
    · exact (ih _ _ _ _ h).trans (List.suffix_cons _ _)

theorem allLines_spec (fuel : Nat) : ∀ (k : Nat) (s : Src), Round s → 3 * s.content.length + 3 < fuel →
    Ended s.content → allLines fuel k s = readLines k s.content := by
  intro k
  induction k with
  | zero => intro s _ _ _; simp [allLines, readLines]
  | succ k ih =>
    intro s hs hf hE
    have h := nextLine_spec fuel s hs (by have := rounds_le s; omega) hE
    rw [allLines]
    by_cases hc : s.content = []
    · rw [h.1 hc, hc]
      simp [readLines]
    · have h2 := h.2 hc
      rw [readLines]
      · cases hr : readLine s.content with
        | line t rest n =>
          rw [hr] at h2
          obtain ⟨s', e1, e2, e3, e4, e5⟩ := h2
          have hsuf := loop1_suffix _ _ _ _ _ _ hr
          rw [e1]
          simp only
          have hl := readLine_length hr
          rw [ih s' e3 (by rw [e2]; omega) (by rw [e2]; exact ended_readLine hE hr hsuf), e2]
        | incomplete => rw [hr] at h2; simp only at h2; rw [h2]
        | error => rw [hr] at h2; simp only at h2; rw [h2]
      · exact hc

end Verif.Input
