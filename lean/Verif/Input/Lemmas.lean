import Verif.Tac
import Verif.Input.Model
import Verif.Input.Spec
/-! # `read_line` implements phases 2 and 3 -/
namespace Verif.Input
open Spec

abbrev nls (s : Bytes) : Nat := s.count (chr% '\n')

theorem splice_splice (r : Bytes) : splice (92 :: 10 :: r) = splice r := by
  simp [splice]

theorem splice_cons {c : UInt8} {r : Bytes} (h : ¬ (c = 92 ∧ r.head? = some 10)) :
    splice (c :: r) = c :: splice r := by
  cases r with
  | nil => rfl
  | cons d r =>
    rw [splice, if_neg]
    simpa using h

/-! ## Comments -/

theorem skip_spec (r : Bytes) (n : Nat) :
    splice (readComment.skip r n).1 = splice r ∧ (readComment.skip r n).1 <:+ r ∧
    (readComment.skip r n).2 + nls (readComment.skip r n).1 = n + nls r ∧
    ¬ ((readComment.skip r n).1.head? = some 92 ∧ (readComment.skip r n).1.tail.head? = some 10) := by
  fun_induction readComment.skip r n with
  | case1 n => simp [splice]
  | case2 c n => simp
  | case3 n c d r h ih =>
    simp only [Bool.and_eq_true, decide_eq_true_eq] at h
    obtain ⟨rfl, rfl⟩ := h
    refine ⟨by rw [ih.1, splice_splice], ih.2.1.trans ⟨[92, 10], rfl⟩, ?_, ih.2.2.2⟩
    rw [ih.2.2.1]
    simp [nls]
    omega
  | case4 n c d r h =>
    refine ⟨rfl, List.suffix_refl _, rfl, ?_⟩
    simp only [Bool.and_eq_true, decide_eq_true_eq] at h
    simpa using h

theorem phase3_block_cons {c : UInt8} {x : Bytes} (h : ¬ (c = 42 ∧ x.head? = some 47)) :
    phase3 .block (c :: x) = phase3 .block x := by
  cases x with
  | nil => simp [phase3]
  | cons d r => rw [phase3, if_neg]; simpa using h

theorem nls_cons_ne {c : UInt8} {r : Bytes} (h : c ≠ 10) : nls (c :: r) = nls r := by
  simp [nls, h]

theorem nls_nl {r : Bytes} : nls (10 :: r) = nls r + 1 := by simp [nls]

theorem comment_spec : ∀ (m : Nat) (r : Bytes) (n : Nat) (p : Bytes × Bytes), r.length ≤ m →
    phase3 .block (splice r) = some p →
    ∃ r' n', readComment r n = some (r', n') ∧ phase3 .code (splice r') = some p ∧
      r' <:+ r ∧ n' + nls r' = n + nls r := by
  intro m
  induction m with
  | zero =>
    intro r n p hm h
    cases r with
    | nil => simp [splice, phase3] at h
    | cons c r => simp at hm
  | succ m ih =>
    intro r n p hm h
    cases r with
    | nil => simp [splice, phase3] at h
    | cons c r =>
      simp only [List.length_cons] at hm
      by_cases hs : c = 92 ∧ r.head? = some 10
      · obtain ⟨rfl, hr⟩ := hs
        cases r with
        | nil => simp at hr
        | cons d r =>
          simp only [List.head?_cons, Option.some.injEq] at hr
          subst hr
          simp only [List.length_cons] at hm
          rw [splice_splice] at h
          obtain ⟨r', n', e1, e2, e3, e4⟩ := ih r (n + 1) p (by omega) h
          refine ⟨r', n', ?_, e2, e3.trans ⟨[92, 10], rfl⟩, ?_⟩
          · rw [readComment, if_neg (by decide), if_neg (by decide), readComment,
              if_neg (by decide), if_pos rfl, e1]
          · rw [nls_cons_ne (by decide), nls_nl]; omega
      · rw [splice_cons hs] at h
        by_cases hc : c = 42
        · subst hc
          obtain ⟨k1, k2, k3, k4⟩ := skip_spec r n
          rw [readComment, if_pos rfl]
          cases hk : readComment.skip r n with
          | mk l nn =>
            rw [hk] at k1 k2 k3 k4
            cases l with
            | nil =>
              simp only [splice] at k1
              rw [← k1] at h
              simp [phase3] at h
            | cons d l =>
              rw [splice_cons (by simpa using k4)] at k1
              simp only
              by_cases hd : d = 47
              · subst hd
                rw [if_pos rfl]
                rw [← k1, phase3, if_pos (by simp)] at h
                refine ⟨l, nn, rfl, h, (List.suffix_cons _ _).trans (k2.trans (List.suffix_cons _ _)), ?_⟩
                rw [nls_cons_ne (by decide)] at k3 ⊢
                exact k3
              · rw [if_neg hd]
                rw [phase3_block_cons (by rw [← k1]; simpa using hd)] at h
                obtain ⟨r', n', e1, e2, e3, e4⟩ := ih r n p (by omega) h
                refine ⟨r', n', e1, e2, e3.trans (List.suffix_cons _ _), ?_⟩
                rw [nls_cons_ne (by decide)]; exact e4
        · rw [phase3_block_cons (by simp [hc])] at h
          by_cases hn : c = 10
          · subst hn
            obtain ⟨r', n', e1, e2, e3, e4⟩ := ih r (n + 1) p (by omega) h
            refine ⟨r', n', ?_, e2, e3.trans (List.suffix_cons _ _), ?_⟩
            · rw [readComment, if_neg (by decide), if_pos rfl, e1]
            · rw [nls_nl]; omega
          · obtain ⟨r', n', e1, e2, e3, e4⟩ := ih r n p (by omega) h
            refine ⟨r', n', ?_, e2, e3.trans (List.suffix_cons _ _), ?_⟩
            · rw [readComment, if_neg hc, if_neg hn, e1]
            · rw [nls_cons_ne hn]; exact e4

theorem phase3_line_cons {c : UInt8} {x : Bytes} (h : c ≠ 10) :
    phase3 .line (c :: x) = phase3 .line x := by
  rw [phase3, if_neg h]

theorem linecomment_spec : ∀ (m : Nat) (r : Bytes) (n : Nat) (t r2 : Bytes), r.length ≤ m →
    phase3 .line (splice r) = some (t, r2) →
    t = [] ∧ ∃ r' n', readLineComment r n = some (r', n') ∧ splice r' = r2 ∧
      r' <:+ r ∧ n' + 1 + nls r' = n + nls r := by
  intro m
  induction m with
  | zero =>
    intro r n t r2 hm h
    cases r with
    | nil => simp [splice, phase3] at h
    | cons c r => simp at hm
  | succ m ih =>
    intro r n t r2 hm h
    cases r with
    | nil => simp [splice, phase3] at h
    | cons c r =>
      simp only [List.length_cons] at hm
      by_cases hs : c = 92 ∧ r.head? = some 10
      · obtain ⟨rfl, hr⟩ := hs
        cases r with
        | nil => simp at hr
        | cons d r =>
          simp only [List.head?_cons, Option.some.injEq] at hr
          subst hr
          simp only [List.length_cons] at hm
          rw [splice_splice] at h
          obtain ⟨e0, r', n', e1, e2, e3, e4⟩ := ih r (n + 1) t r2 (by omega) h
          refine ⟨e0, r', n', ?_, e2, e3.trans ⟨[92, 10], rfl⟩, ?_⟩
          · rw [readLineComment, if_pos (by decide), e1]
          · rw [nls_cons_ne (by decide), nls_nl]; omega
      · rw [splice_cons hs] at h
        by_cases hn : c = 10
        · subst hn
          rw [phase3, if_pos rfl] at h
          simp only [Option.some.injEq, Prod.mk.injEq] at h
          refine ⟨h.1.symm, r, n, ?_, h.2, List.suffix_cons _ _, ?_⟩
          · cases r with
            | nil => rfl
            | cons d r => rw [readLineComment, if_neg (by simp), if_pos rfl]
          · rw [nls_nl]; omega
        · rw [phase3_line_cons hn] at h
          obtain ⟨e0, r', n', e1, e2, e3, e4⟩ := ih r n t r2 (by omega) h
          refine ⟨e0, r', n', ?_, e2, e3.trans (List.suffix_cons _ _), ?_⟩
          · cases r with
            | nil => simp [readLineComment] at e1
            | cons d r =>
              rw [readLineComment, if_neg (by simpa using hs), if_neg hn, e1]
          · rw [nls_cons_ne hn]; exact e4

/-! ## Literals -/

theorem phase3_lit_cons {q c : UInt8} {x : Bytes} (h1 : c ≠ 10) (h2 : c ≠ 92) (h3 : c ≠ q) :
    phase3 (.lit q) (c :: x) = (phase3 (.lit q) x).map fun p => (c :: p.1, p.2) := by
  cases x with
  | nil => simp [phase3]
  | cons d r => rw [phase3, if_neg h1, if_neg h2, if_neg h3]

theorem phase3_lit_q {q : UInt8} {x : Bytes} (h1 : q ≠ 10) (h2 : q ≠ 92) :
    phase3 (.lit q) (q :: x) = (phase3 .code x).map fun p => (q :: p.1, p.2) := by
  cases x with
  | nil => simp [phase3]
  | cons d r => rw [phase3, if_neg h1, if_neg h2, if_pos rfl]

theorem phase3_lit_esc {q c : UInt8} {x : Bytes} (h : c ≠ 10) :
    phase3 (.lit q) (92 :: c :: x) = (phase3 (.lit q) x).map fun p => (92 :: c :: p.1, p.2) := by
  rw [phase3, if_neg (by decide), if_pos rfl, if_neg h]

theorem noMarks_tail {c : UInt8} {r : Bytes} (h : NoMarks (c :: r)) : NoMarks r :=
  fun h' => h (h'.trans (List.suffix_cons c r).isInfix)

theorem noMarks_suffix {r s : Bytes} (h : NoMarks s) (hs : r <:+ s) : NoMarks r :=
  fun h' => h (h'.trans hs.isInfix)

theorem noMarks_head {r : Bytes} (h : NoMarks (63 :: r)) : r.head? ≠ some 63 := by
  intro h'
  cases r with
  | nil => simp at h'
  | cons d r =>
    simp at h'
    subst h'
    exact h ⟨[], r, rfl⟩

theorem backslashes_cons (c : UInt8) (out : Bytes) :
    backslashes (c :: out) = if c = 92 then backslashes out + 1 else 0 := by
  unfold backslashes
  by_cases h : c = 92
  · simp [h]
  · simp [h]

/-- The written text before a pending backslash. -/
def lbase (out : Bytes) : Bytes := if backslashes out % 2 = 1 then out.tail else out
def lpend (out : Bytes) : Bytes := if backslashes out % 2 = 1 then [92] else []

theorem out_odd {out : Bytes} (h : backslashes out % 2 = 1) : ∃ o, out = 92 :: o := by
  cases out with
  | nil => simp [backslashes] at h
  | cons c o =>
    rw [backslashes_cons] at h
    split at h
    · rename_i hc; exact ⟨o, by rw [hc]⟩
    · simp at h

theorem lit_push {q c : UInt8} {out r : Bytes} {n : Nat} (h1 : c ≠ 10)
    (h2 : c = 63 → r.head? ≠ some 63) (h3 : ¬ (c = q ∧ backslashes out % 2 = 0)) (h4 : c = 63 → c ≠ q) :
    readLiteral q out (c :: r) n = readLiteral q (c :: out) r n := by
  have h3' : ¬ ((decide (c = q) && decide (backslashes out % 2 = 0)) = true) := by simpa using h3
  rcases r with _ | ⟨d, _ | ⟨x, r'⟩⟩
  · by_cases hc : c = 63
    · conv => lhs; unfold readLiteral
      rw [if_neg h1, if_pos hc]
    · conv => lhs; unfold readLiteral
      rw [if_neg h1, if_neg hc, if_neg h3']
  · by_cases hc : c = 63
    · rw [readLiteral, if_neg h1, if_pos hc]
      intros; simp_all
    · rw [readLiteral, if_neg h1, if_neg hc, if_neg h3']
      intros; simp_all
  · by_cases hc : c = 63
    · have hh := h2 hc
      rw [readLiteral, if_neg h1, if_pos hc, if_neg (by simpa using hh)]
    · rw [readLiteral, if_neg h1, if_neg hc, if_neg h3']

theorem lit_nl {q : UInt8} {out r : Bytes} {n : Nat} :
    readLiteral q (92 :: out) (10 :: r) n = readLiteral q out r (n + 1) := by
  conv => lhs; unfold readLiteral
  rfl

theorem lit_close {q : UInt8} {out r : Bytes} {n : Nat} (h1 : q ≠ 10) (h2 : q ≠ 63)
    (h : backslashes out % 2 = 0) :
    readLiteral q out (q :: r) n = .done (q :: out) r n := by
  rcases r with _ | ⟨d, _ | ⟨x, r'⟩⟩ <;> simp [readLiteral, h1, h2, h]

theorem literal_spec (q : UInt8) (hq : q = 34 ∨ q = 39) :
    ∀ (m : Nat) (l out : Bytes) (n : Nat) (t r2 : Bytes), l.length ≤ m → NoMarks l →
    phase3 (.lit q) (lpend out ++ splice l) = some (t, r2) →
    ∃ out' r' n' t', readLiteral q out l n = .done out' r' n' ∧
      phase3 .code (splice r') = some (t', r2) ∧ out'.reverse ++ t' = (lbase out).reverse ++ t ∧
      out'.head? = some q ∧ r' <:+ l ∧ r'.length < l.length ∧ n' + nls r' = n + nls l := by
  have q10 : q ≠ 10 := by rcases hq with rfl | rfl <;> decide
  have q92 : q ≠ 92 := by rcases hq with rfl | rfl <;> decide
  have q63 : q ≠ 63 := by rcases hq with rfl | rfl <;> decide
  intro m
  induction m with
  | zero =>
    intro l out n t r2 hm hN h
    cases l with
    | nil =>
      unfold lpend at h
      split at h <;> simp [splice, phase3] at h
    | cons c r => simp at hm
  | succ m ih =>
    intro l out n t r2 hm hN h
    cases l with
    | nil =>
      unfold lpend at h
      split at h <;> simp [splice, phase3] at h
    | cons c r =>
      simp only [List.length_cons] at hm
      by_cases hs : c = 92 ∧ r.head? = some 10
      · obtain ⟨rfl, hr⟩ := hs
        cases r with
        | nil => simp at hr
        | cons d r =>
          simp only [List.head?_cons, Option.some.injEq] at hr
          subst hr
          simp only [List.length_cons] at hm
          rw [splice_splice] at h
          obtain ⟨out', r', n', t', e1, e2, e3, e4, e5, e6, e7⟩ :=
            ih r out (n + 1) t r2 (by omega) (noMarks_tail (noMarks_tail hN)) h
          refine ⟨out', r', n', t', ?_, e2, e3, e4, e5.trans ⟨[92, 10], rfl⟩, ?_, ?_⟩
          · rw [lit_push (by decide) (by simp) (by simp [q92.symm]) (by simp), lit_nl, e1]
          · simp only [List.length_cons]; omega
          · rw [nls_cons_ne (by decide), nls_nl]; omega
      · rw [splice_cons hs] at h
        have hN' := noMarks_tail hN
        have h63 : c = 63 → r.head? ≠ some 63 := by
          rintro rfl; exact noMarks_head hN
        by_cases hn : c = 10
        · subst hn
          unfold lpend at h
          split at h
          · simp [phase3] at h
          · simp only [List.nil_append] at h
            cases hsr : splice r <;> rw [hsr] at h <;> simp [phase3] at h
        · have fin : ∀ out1 t1, readLiteral q out (c :: r) n = readLiteral q out1 r n →
              phase3 (.lit q) (lpend out1 ++ splice r) = some (t1, r2) →
              (lbase out1).reverse ++ t1 = (lbase out).reverse ++ t →
              ∃ out' r' n' t', readLiteral q out (c :: r) n = .done out' r' n' ∧
              phase3 .code (splice r') = some (t', r2) ∧ out'.reverse ++ t' = (lbase out).reverse ++ t ∧
              out'.head? = some q ∧ r' <:+ (c :: r) ∧ r'.length < (c :: r).length ∧
              n' + nls r' = n + nls (c :: r) := by
            intro out1 t1 f1 f2 f3
            obtain ⟨out', r', n', t', e1, e2, e3, e4, e5, e6, e7⟩ :=
              ih r out1 n t1 r2 (by omega) hN' f2
            refine ⟨out', r', n', t', by rw [f1, e1], e2, by rw [e3, f3], e4,
              e5.trans (List.suffix_cons _ _), ?_, ?_⟩
            · simp only [List.length_cons]; omega
            · rw [nls_cons_ne hn]; exact e7
          by_cases hodd : backslashes out % 2 = 1
          · -- after a backslash
            obtain ⟨o, rfl⟩ := out_odd hodd
            simp only [lpend, hodd, if_true, List.cons_append, List.nil_append] at h
            rw [phase3_lit_esc hn, Option.map_eq_some_iff] at h
            obtain ⟨⟨t1, r1⟩, h1, h2⟩ := h
            simp only [Prod.mk.injEq] at h2
            obtain ⟨rfl, rfl⟩ := h2
            refine fin (c :: 92 :: o) t1 (lit_push hn h63 (by omega) (by rintro rfl; exact q63.symm)) ?_ ?_
            · have : backslashes (c :: 92 :: o) % 2 ≠ 1 := by
                rw [backslashes_cons]
                split <;> omega
              simpa [lpend, this] using h1
            · have : backslashes (c :: 92 :: o) % 2 ≠ 1 := by
                rw [backslashes_cons]
                split <;> omega
              simp [lbase, this, hodd]
          · have hev : backslashes out % 2 = 0 := by omega
            simp only [lpend, hodd, if_false, List.nil_append] at h
            by_cases hcq : c = q
            · subst hcq
              rw [phase3_lit_q q10 q92, Option.map_eq_some_iff] at h
              obtain ⟨⟨t1, r1⟩, h1, h2⟩ := h
              simp only [Prod.mk.injEq] at h2
              obtain ⟨rfl, rfl⟩ := h2
              refine ⟨c :: out, r, n, t1, ?_, h1, ?_, rfl, List.suffix_cons _ _, by simp, ?_⟩
              · exact lit_close q10 q63 hev
              · simp [lbase, hodd]
              · rw [nls_cons_ne hn]
            · by_cases hb : c = 92
              · subst hb
                refine fin (92 :: out) t (lit_push hn h63 (by simp [hcq]) (by simp)) ?_ ?_
                · have : backslashes (92 :: out) % 2 = 1 := by rw [backslashes_cons, if_pos rfl]; omega
                  simpa [lpend, this] using h
                · have : backslashes (92 :: out) % 2 = 1 := by rw [backslashes_cons, if_pos rfl]; omega
                  simp [lbase, this, hodd]
              · rw [phase3_lit_cons hn hb hcq, Option.map_eq_some_iff] at h
                obtain ⟨⟨t1, r1⟩, h1, h2⟩ := h
                simp only [Prod.mk.injEq] at h2
                obtain ⟨rfl, rfl⟩ := h2
                have hb0 : backslashes (c :: out) % 2 ≠ 1 := by rw [backslashes_cons, if_neg hb]; decide
                refine fin (c :: out) t1 (lit_push hn h63 (by simp [hcq])
                  (by rintro rfl; exact q63.symm)) ?_ ?_
                · simpa [lpend, hb0] using h1
                · simp [lbase, hb0, hodd]

/-! ## The line -/

def base (o : Bytes) : Bytes := if o.head? = some 47 then o.tail else o
def pend (o : Bytes) : Bytes := if o.head? = some 47 then [47] else []

theorem base_pend (o : Bytes) : (base o).reverse ++ pend o = o.reverse := by
  unfold base pend
  split
  · rename_i h
    cases o with
    | nil => simp at h
    | cons c o => simp at h; simp [h]
  · simp

theorem phase3_nl (x : Bytes) : phase3 .code (10 :: x) = some ([], x) := by
  cases x <;> simp [phase3]

theorem phase3_quote {c : UInt8} {x : Bytes} (h : c = 34 ∨ c = 39) :
    phase3 .code (c :: x) = (phase3 (.lit c) x).map fun p => (c :: p.1, p.2) := by
  cases x with
  | nil => rcases h with rfl | rfl <;> simp [phase3]
  | cons d r => rcases h with rfl | rfl <;> simp [phase3]

theorem phase3_ord {c : UInt8} {x : Bytes} (h1 : c ≠ 10) (h2 : c ≠ 34) (h3 : c ≠ 39) (h4 : c ≠ 47) :
    phase3 .code (c :: x) = (phase3 .code x).map fun p => (c :: p.1, p.2) := by
  cases x with
  | nil => simp [phase3, h1]
  | cons d r => simp [phase3, h1, h2, h3, h4]

theorem phase3_pend {o : Bytes} {c : UInt8} {x : Bytes} (h1 : c ≠ 42) (h2 : c ≠ 47) :
    phase3 .code (pend o ++ c :: x) = (phase3 .code (c :: x)).map fun p => (pend o ++ p.1, p.2) := by
  unfold pend
  split
  · simp [phase3, h1, h2]
  · simp

theorem line_spec : ∀ (k : Nat) (l p out : Bytes) (lines : Nat) (t r2 : Bytes), l.length < k →
    NoMarks l →
    phase3 .code (pend (p.reverse ++ out) ++ splice l) = some (t, r2) →
    ∃ rest n, loop2 k l (p ++ l) p.length out lines =
        .line ((base (p.reverse ++ out)).reverse ++ t) rest n ∧
      splice rest = r2 ∧ rest <:+ l ∧ rest.length < l.length ∧ n + nls rest = lines + nls l := by
  intro k
  induction k with
  | zero => intro l p out lines t r2 hk; omega
  | succ k ih =>
    intro l p out lines t r2 hk hN h
    cases l with
    | nil =>
      unfold pend at h
      split at h <;> simp [splice, phase3] at h
    | cons c r =>
      simp only [List.length_cons] at hk
      have htake : (p ++ c :: r).take p.length = p := by simp
      have hdrop : (p ++ c :: r).drop p.length = c :: r := by simp
      generalize ho : p.reverse ++ out = o at h
      have hN' := noMarks_tail hN
      rw [loop2, htake, hdrop, ho]
      -- the last step of the branches that copy the character
      have fin : ∀ (p1 out1 : Bytes) (t1 : Bytes) (s : Bytes), s = p1 ++ r →
          phase3 .code (pend (p1.reverse ++ out1) ++ splice r) = some (t1, r2) →
          (base (p1.reverse ++ out1)).reverse ++ t1 = (base o).reverse ++ t → c ≠ 10 →
          ∃ rest n, loop2 k r s p1.length out1 lines = .line ((base o).reverse ++ t) rest n ∧
            splice rest = r2 ∧ rest <:+ (c :: r) ∧ rest.length < (c :: r).length ∧
            n + nls rest = lines + nls (c :: r) := by
        rintro p1 out1 t1 s rfl f1 f2 f3
        obtain ⟨rest, n, e1, e2, e3, e4, e5⟩ := ih r p1 out1 lines t1 r2 (by omega) hN' f1
        refine ⟨rest, n, by rw [e1, f2], e2, e3.trans (List.suffix_cons _ _), ?_, ?_⟩
        · simp only [List.length_cons]; omega
        · rw [nls_cons_ne f3]; exact e5
      by_cases hs : c = 92 ∧ r.head? = some 10
      · obtain ⟨rfl, hr⟩ := hs
        cases r with
        | nil => simp at hr
        | cons d r =>
          simp only [List.head?_cons, Option.some.injEq] at hr
          subst hr
          simp only [List.length_cons] at hk
          rw [splice_splice] at h
          simp only [List.head?_cons, List.tail_cons]
          rw [if_neg (by decide), if_pos (by decide), if_neg (by decide), if_neg (by simp),
            if_pos (by decide)]
          obtain ⟨rest, n, e1, e2, e3, e4, e5⟩ :=
            ih r [] o (lines + 1) t r2 (by omega) (noMarks_tail hN') h
          refine ⟨rest, n, e1, e2, e3.trans ⟨[92, 10], rfl⟩, ?_, ?_⟩
          · simp only [List.length_cons]; omega
          · rw [nls_cons_ne (by decide), nls_nl]; omega
      rw [splice_cons hs] at h
      by_cases hn : c = 10
      · subst hn
        rw [if_pos rfl]
        rw [phase3_pend (by decide) (by decide), phase3_nl, Option.map_some, Option.some.injEq,
          Prod.mk.injEq] at h
        refine ⟨r, lines + 1, ?_, h.2, List.suffix_cons _ _, by simp, ?_⟩
        · rw [← h.1, List.append_nil, base_pend]
        · rw [nls_nl]; omega
      rw [if_neg hn]
      by_cases hq : c = 34 ∨ c = 39
      · have c42 : c ≠ 42 := by rcases hq with rfl | rfl <;> decide
        have c47 : c ≠ 47 := by rcases hq with rfl | rfl <;> decide
        have c92 : c ≠ 92 := by rcases hq with rfl | rfl <;> decide
        rw [if_pos (by rcases hq with rfl | rfl <;> decide)]
        simp only
        rw [if_pos (by rcases hq with rfl | rfl <;> decide)]
        rw [phase3_pend c42 c47, phase3_quote hq, Option.map_map, Option.map_eq_some_iff] at h
        obtain ⟨⟨t1, r1⟩, h1, h2⟩ := h
        simp only [Function.comp, Prod.mk.injEq] at h2
        obtain ⟨rfl, rfl⟩ := h2
        have hb : backslashes (c :: o) % 2 ≠ 1 := by rw [backslashes_cons, if_neg c92]; decide
        obtain ⟨out', r', n', t', e1, e2, e3, e4, e5, e6, e7⟩ := literal_spec c hq r.length r (c :: o)
          lines t1 r1 (Nat.le_refl _) hN' (by simpa [lpend, hb] using h1)
        rw [e1]
        simp only
        have hp : pend out' = [] ∧ base out' = out' := by
          unfold pend base
          rw [e4]
          rcases hq with rfl | rfl <;> simp
        obtain ⟨rest, n, f1, f2, f3, f4, f5⟩ := ih r' [] out' n' t' r1 (by omega)
          (noMarks_suffix hN' e5) (by simpa [hp.1] using e2)
        refine ⟨rest, n, ?_, f2, f3.trans (e5.trans (List.suffix_cons _ _)), ?_, ?_⟩
        · simp only [List.nil_append, List.length_nil, List.reverse_nil, hp.2] at f1
          rw [f1, e3]
          simp only [lbase, hb, if_false, List.reverse_cons, List.append_assoc]
          rw [← base_pend o]
          simp
        · simp only [List.length_cons]; omega
        · rw [nls_cons_ne hn]; omega
      simp only [not_or] at hq
      by_cases h42 : c = 42
      · subst h42
        rw [if_pos (by decide)]
        simp only
        rw [if_neg (by decide)]
        by_cases hh : o.head? = some 47
        · rw [if_pos (by simp [hh])]
          simp only [pend, hh, if_true, List.cons_append, List.nil_append] at h
          rw [phase3, if_neg (by decide), if_pos (by decide), Option.map_eq_some_iff] at h
          obtain ⟨⟨t1, r1⟩, h1, h2⟩ := h
          simp only [Prod.mk.injEq] at h2
          obtain ⟨rfl, rfl⟩ := h2
          obtain ⟨r', n', e1, e2, e3, e4⟩ := comment_spec _ r lines _ (Nat.le_refl _) h1
          rw [e1]
          simp only
          have hlen : r'.length ≤ r.length := e3.length_le
          obtain ⟨rest, n, f1, f2, f3, f4, f5⟩ := ih r' [] (32 :: o.tail) n' t1 r1 (by omega)
            (noMarks_suffix hN' e3) (by simpa [pend] using e2)
          refine ⟨rest, n, ?_, f2, f3.trans (e3.trans (List.suffix_cons _ _)), ?_, ?_⟩
          · simp only [List.nil_append, List.length_nil, List.reverse_nil] at f1
            rw [f1]
            simp [base, hh]
          · simp only [List.length_cons]; omega
          · rw [nls_cons_ne hn]; omega
        · rw [if_neg (by simpa using hh), if_neg (by simp), if_neg (by simp), if_neg (by simp)]
          have hp : pend o = [] := by simp [pend, hh]
          rw [hp, List.nil_append, phase3_ord hn hq.1 hq.2 (by decide), Option.map_eq_some_iff] at h
          obtain ⟨⟨t1, r1⟩, h1, h2⟩ := h
          simp only [Prod.mk.injEq] at h2
          obtain ⟨rfl, rfl⟩ := h2
          refine fin [42] o t1 (42 :: r) rfl (by simpa [pend] using h1) ?_ hn
          simp [base, hh]
      by_cases h47 : c = 47
      · subst h47
        rw [if_pos (by decide)]
        simp only
        rw [if_neg (by decide), if_neg (by simp), if_neg (by simp), if_neg (by simp)]
        by_cases hh : o.head? = some 47
        · rw [if_pos (by simp [hh])]
          simp only [pend, hh, if_true, List.cons_append, List.nil_append] at h
          rw [phase3, if_neg (by decide), if_neg (by decide), if_pos (by decide)] at h
          obtain ⟨e0, r', n', e1, e2, e3, e4⟩ := linecomment_spec _ r lines t r2 (Nat.le_refl _) h
          rw [e1]
          refine ⟨r', n' + 1, ?_, e2, e3.trans (List.suffix_cons _ _), ?_, ?_⟩
          · simp [base, hh, e0]
          · have := e3.length_le
            simp only [List.length_cons]; omega
          · rw [nls_cons_ne hn]; omega
        · rw [if_neg (by simpa using hh)]
          have hp : pend o = [] := by simp [pend, hh]
          rw [hp, List.nil_append] at h
          refine fin [47] o t (47 :: r) rfl (by simpa [pend] using h) ?_ hn
          simp [base, hh]
      -- ordinary characters
      rw [phase3_pend h42 h47, phase3_ord hn hq.1 hq.2 h47, Option.map_map, Option.map_eq_some_iff] at h
      obtain ⟨⟨t1, r1⟩, h1, h2⟩ := h
      simp only [Function.comp, Prod.mk.injEq] at h2
      obtain ⟨rfl, rfl⟩ := h2
      have ord : ∀ o' : Bytes, pend (c :: o') = [] ∧ base (c :: o') = c :: o' := by
        intro o'
        simp [pend, base, h47]
      by_cases hsp : c = 63 ∨ c = 92
      · rw [if_pos (by rcases hsp with rfl | rfl <;> decide)]
        simp only
        rw [if_neg (by simpa using hq), if_neg (by simp [h42])]
        have h63 : c = 63 → r.head? ≠ some 63 := by
          rintro rfl; exact noMarks_head hN
        rw [if_neg (by simpa using hs), if_neg (by simpa using h63), if_neg (by simp [h47])]
        refine fin [c] o t1 (c :: r) rfl (by simpa [ord] using h1) ?_ hn
        simp only [List.reverse_cons, List.reverse_nil, List.nil_append, List.cons_append, (ord o).2]
        rw [← base_pend o]
        simp
      · simp only [not_or] at hsp
        rw [if_neg (by simp [hq, h42, h47, hsp])]
        have := fin (p ++ [c]) out t1 (p ++ c :: r) (by simp)
          (by simpa [ho, ord] using h1) ?_ hn
        · simpa using this
        · simp only [List.reverse_append, List.reverse_cons, List.reverse_nil, List.nil_append,
            List.cons_append, ho, (ord o).2]
          rw [← base_pend o]
          simp

theorem loop1_spec : ∀ (l p : Bytes) (t r2 : Bytes), NoMarks l → (∀ c ∈ p.getLast?, c ≠ 47) →
    phase3 .code (splice l) = some (t, r2) →
    ∃ rest n, loop1 (p ++ l) l p.length = .line (p ++ t) rest n ∧
      splice rest = r2 ∧ rest <:+ l ∧ rest.length < l.length ∧ n + nls rest = nls l := by
  intro l
  induction l with
  | nil => intro p t r2 _ _ h; simp [splice, phase3] at h
  | cons c r ih =>
    intro p t r2 hN hp h
    have hN' := noMarks_tail hN
    rw [loop1]
    by_cases hn : c = 10
    · subst hn
      rw [if_pos rfl]
      rw [splice_cons (by simp), phase3_nl, Option.some.injEq, Prod.mk.injEq] at h
      refine ⟨r, 1, ?_, h.2, List.suffix_cons _ _, by simp, ?_⟩
      · simp [← h.1]
      · rw [nls_nl]; omega
    rw [if_neg hn]
    split
    · have hb : base (p.reverse ++ []) = p.reverse ∧ pend (p.reverse ++ []) = [] := by
        have : p.reverse.head? ≠ some 47 := by
          rw [List.head?_reverse]
          intro h'
          exact hp 47 h' rfl
        simp only [List.append_nil, base, pend, this, if_false, and_self]
      obtain ⟨rest, n, e1, e2, e3, e4, e5⟩ := line_spec ((c :: r).length + 1) (c :: r) p [] 0 t r2
        (by simp) hN (by rw [hb.2]; exact h)
      refine ⟨rest, n, ?_, e2, e3, e4, by omega⟩
      rw [hb.1, List.reverse_reverse] at e1
      exact e1
    · rename_i hc
      simp only [Bool.or_eq_true, decide_eq_true_eq, not_or] at hc
      obtain ⟨⟨⟨⟨c1, c2⟩, c3⟩, c4⟩, c5⟩ := hc
      rw [splice_cons (by simp [c5]), phase3_ord hn c1 c2 c3, Option.map_eq_some_iff] at h
      obtain ⟨⟨t1, r1⟩, h1, h2⟩ := h
      simp only [Prod.mk.injEq] at h2
      obtain ⟨rfl, rfl⟩ := h2
      obtain ⟨rest, n, e1, e2, e3, e4, e5⟩ := ih (p ++ [c]) t1 r1 hN' (by simp; exact c3) h1
      refine ⟨rest, n, ?_, e2, e3.trans (List.suffix_cons _ _), ?_, ?_⟩
      · simpa using e1
      · simp only [List.length_cons]; omega
      · rw [nls_cons_ne hn]; exact e5

/-- A text whose splices leave nothing, ends in a backslash and a newline. -/
theorem splice_nil : ∀ (m : Nat) (s : Bytes), s.length ≤ m → s ≠ [] → splice s = [] →
    [92, 10] <:+ s := by
  intro m
  induction m with
  | zero => intro s hm hs; cases s <;> simp_all
  | succ m ih =>
    intro s hm hs h
    cases s with
    | nil => exact absurd rfl hs
    | cons c r =>
      by_cases hc : c = 92 ∧ r.head? = some 10
      · obtain ⟨rfl, hr⟩ := hc
        cases r with
        | nil => simp at hr
        | cons d r =>
          simp only [List.head?_cons, Option.some.injEq] at hr
          subst hr
          rw [splice_splice] at h
          by_cases hr : r = []
          · subst hr; exact List.suffix_refl _
          · exact (ih r (by simp only [List.length_cons] at hm; omega) hr h).trans ⟨[92, 10], rfl⟩
      · rw [splice_cons hc] at h
        simp at h

theorem readLines_spec : ∀ (k : Nat) (s : Bytes) (ls : List Bytes), NoMarks s →
    ¬ [92, 10] <:+ s → logicalLines k (splice s) = some ls → readLines k s = some ls := by
  intro k
  induction k with
  | zero => intro s ls _ _ h; simp [logicalLines] at h
  | succ k ih =>
    intro s ls hN hE h
    cases s with
    | nil => simpa [splice, logicalLines, readLines] using h
    | cons c r =>
      have hne : splice (c :: r) ≠ [] := fun h' => hE (splice_nil _ _ (Nat.le_refl _) (by simp) h')
      rw [readLines]
      · cases hsp : splice (c :: r) with
        | nil => exact absurd hsp hne
        | cons a b =>
          rw [hsp, logicalLines] at h
          · cases hp : phase3 .code (a :: b) with
            | none => rw [hp] at h; simp at h
            | some p =>
              obtain ⟨t, r2⟩ := p
              rw [hp] at h
              simp only at h
              rw [Option.map_eq_some_iff] at h
              obtain ⟨ls', h1, rfl⟩ := h
              obtain ⟨rest, n, e1, e2, e3, e4, e5⟩ := loop1_spec (c :: r) [] t r2 hN (by simp)
                (by rw [hsp]; exact hp)
              have e1' : readLine (c :: r) = .line t rest n := e1
              rw [e1']
              simp only
              rw [ih rest ls' (noMarks_suffix hN e3) (fun h' => hE (h'.trans e3)) (by rw [e2]; exact h1)]
              rfl
          · simp
      · simp

end Verif.Input
