import Verif.Tac
import Verif.Concat.Spec
namespace Verif.Concat
open Spec

def isStr : Tok → Bool
  | .string _ => true
  | _ => false

/-- No two adjacent string literals. -/
def Sep : List Tok → Prop
  | [] => True
  | [_] => True
  | a :: b :: r => ¬ (isStr a = true ∧ isStr b = true) ∧ Sep (b :: r)

def lastStr (q : List Tok) : Bool := (q.getLast?.map isStr).getD false

theorem joined_other {t : Tok} (h : isStr t = false) (r : List Tok) : joined (t :: r) = t :: joined r := by
  rw [joined]
  cases t <;> simp_all [glue, isStr]

theorem joined_cons_other {t u : Tok} (h : isStr u = false) (r : List Tok) :
    joined (t :: u :: r) = t :: joined (u :: r) := by
  rw [joined, joined_other h]
  cases t <;> cases u <;> simp_all [glue, isStr]

theorem glue_glue (a b : Bytes) (r : List Tok) :
    glue (.string a) (glue (.string b) r) = glue (.string (a ++ b)) r := by
  cases r with
  | nil => rfl
  | cons x y => cases x <;> simp [glue]

theorem joined_str_str (a b : Bytes) (r : List Tok) :
    joined (.string a :: .string b :: r) = joined (.string (a ++ b) :: r) := by
  simp only [joined, glue_glue]

theorem joined_cons_cons {t u : Tok} (h : ¬ (isStr t = true ∧ isStr u = true)) (r : List Tok) :
    joined (t :: u :: r) = t :: joined (u :: r) := by
  cases hu : isStr u with
  | false => exact joined_cons_other hu r
  | true =>
    have : isStr t = false := by cases ht : isStr t <;> simp_all
    rw [joined_other this]

theorem joined_sep {q : List Tok} (h : Sep q) : joined q = q := by
  induction q with
  | nil => rfl
  | cons t r ih =>
    cases r with
    | nil => cases t <;> rfl
    | cons u r => rw [joined_cons_cons h.1, ih h.2]

theorem joined_sep_append {q : List Tok} (h : Sep q) (hl : lastStr q = false) (r : List Tok) :
    joined (q ++ r) = q ++ joined r := by
  induction q with
  | nil => rfl
  | cons t q ih =>
    cases q with
    | nil =>
      have : isStr t = false := by simpa [lastStr] using hl
      simp [joined_other this]
    | cons u q =>
      have := ih h.2 (by simpa [lastStr] using hl)
      simp only [List.cons_append] at this ⊢
      rw [joined_cons_cons h.1, this]

/-- Joining is a congruence on the left. -/
theorem joined_congr {x y : List Tok} (h : ∀ r, joined (x ++ r) = joined (y ++ r)) (p r : List Tok) :
    joined (p ++ x ++ r) = joined (p ++ y ++ r) := by
  induction p with
  | nil => exact h r
  | cons t p ih =>
    simp only [List.cons_append, joined]
    simp only [List.append_assoc] at ih ⊢
    rw [ih]

theorem add_joined (q : List Tok) (t : Tok) (r : List Tok) :
    joined (add q t ++ r) = joined (q ++ t :: r) := by
  unfold add
  split
  · rename_i b
    split
    · rename_i a hl
      have hq : q = q.dropLast ++ [.string a] := by
        rw [List.getLast?_eq_some_iff] at hl
        obtain ⟨ys, rfl⟩ := hl
        simp
      have := joined_congr (x := [.string (a ++ b)]) (y := [.string a, .string b])
        (fun r => by simpa using (joined_str_str a b r).symm) q.dropLast r
      rw [this]
      conv => rhs; rw [hq]
      simp
    · simp
  · simp

theorem sep_append {q : List Tok} {t : Tok} (h : Sep q) (hl : ¬ (lastStr q = true ∧ isStr t = true)) :
    Sep (q ++ [t]) := by
  induction q with
  | nil => trivial
  | cons u q ih =>
    cases q with
    | nil => exact ⟨by simpa [lastStr] using hl, trivial⟩
    | cons v q => exact ⟨h.1, ih h.2 (by simpa [lastStr] using hl)⟩

theorem sep_dropLast_append {q : List Tok} {a : Bytes} {b : Bytes} (h : Sep (q ++ [.string a])) :
    Sep (q ++ [.string b]) := by
  induction q with
  | nil => trivial
  | cons u q ih =>
    cases q with
    | nil => exact ⟨h.1, trivial⟩
    | cons v q => exact ⟨h.1, ih h.2⟩

theorem add_sep {q : List Tok} {t : Tok} (h : Sep q) : Sep (add q t) := by
  unfold add
  split
  · rename_i b
    split
    · rename_i a hl
      rw [List.getLast?_eq_some_iff] at hl
      obtain ⟨ys, rfl⟩ := hl
      simp only [List.dropLast_concat]
      exact sep_dropLast_append h
    · rename_i hl
      apply sep_append h
      intro hh
      have := hh.1
      unfold lastStr at this
      cases hq : q.getLast? with
      | none => simp [hq] at this
      | some x =>
        cases x with
        | string a => exact absurd hq (hl a)
        | other n => simp [hq, isStr] at this
        | end_ => simp [hq, isStr] at this
  · rename_i hne
    apply sep_append h
    intro hh
    cases t with
    | string b => exact absurd rfl (hne b)
    | other n => simp [isStr] at hh
    | end_ => simp [isStr] at hh

theorem foldl_add (l : List Tok) : ∀ (q r : List Tok), Sep q →
    joined (l.foldl add q ++ r) = joined (q ++ l ++ r) ∧ Sep (l.foldl add q) := by
  induction l with
  | nil => intro q r h; exact ⟨by simp, h⟩
  | cons t l ih =>
    intro q r h
    obtain ⟨h1, h2⟩ := ih (add q t) r (add_sep h)
    refine ⟨?_, h2⟩
    rw [List.foldl_cons, h1, List.append_assoc, add_joined]
    simp

theorem ready_lastStr {q : List Tok} {n : Nat} (h : ready q n = true) : lastStr q = false ∧ n ≤ q.length := by
  unfold ready at h
  split_ifs at h with hn
  refine ⟨?_, by omega⟩
  unfold lastStr
  cases hq : q.getLast? with
  | none => rfl
  | some x => cases x <;> simp_all [isStr]

/-- Either nothing is left to read, or the buffer is long enough and does not end in a string. -/
theorem readLines_spec (n : Nat) : ∀ (ls : List (List Tok)) (q : List Tok), Sep q →
    Sep (readLines n ls q).lookahead ∧
      joined ((readLines n ls q).lookahead ++ (readLines n ls q).lines.flatten) = joined (q ++ ls.flatten) ∧
      ((readLines n ls q).lines = [] ∨
        (lastStr (readLines n ls q).lookahead = false ∧ n ≤ (readLines n ls q).lookahead.length)) := by
  intro ls
  induction ls with
  | nil => intro q h; exact ⟨h, rfl, .inl rfl⟩
  | cons l ls ih =>
    intro q h
    obtain ⟨h1, h2⟩ := foldl_add l q ls.flatten h
    simp only [readLines]
    by_cases hr : ready (l.foldl add q) n = true
    · rw [if_pos hr]
      exact ⟨h2, by simp [h1], .inr (ready_lastStr hr)⟩
    · rw [if_neg hr]
      obtain ⟨i1, i2, i3⟩ := ih (l.foldl add q) h2
      exact ⟨i1, by rw [i2, h1]; simp, i3⟩

/-- State after `k` tokens of the stream `J` have been passed. -/
def Inv (J : List Tok) (k : Nat) (s : State) : Prop :=
  (s.lines = [] ∧ ∃ m, s.lookahead = J.drop k ++ List.replicate m Tok.end_) ∨
  (lastStr s.lookahead = false ∧ Sep s.lookahead ∧ k ≤ J.length ∧
    s.lookahead ++ joined s.lines.flatten = J.drop k)

theorem streamAt_drop (J : List Tok) (k i m : Nat) :
    ((J.drop k ++ List.replicate m Tok.end_)[i]?) = some (streamAt J (k + i)) ∨
      (J.drop k ++ List.replicate m Tok.end_).length ≤ i := by
  by_cases h : i < (J.drop k ++ List.replicate m Tok.end_).length
  · left
    rw [List.getElem?_append]
    unfold streamAt
    split_ifs with h1
    · rw [List.getElem?_drop]
      rw [List.length_drop] at h1
      rw [List.getElem?_eq_getElem (by omega)]
      rfl
    · simp only [List.length_append, List.length_replicate, List.length_drop] at h h1
      rw [List.getElem?_replicate, if_pos (by simp only [List.length_drop]; omega),
        List.getElem?_eq_none (by omega)]
      rfl
  · right; omega

theorem inv_peek {J : List Tok} {k n : Nat} {s : State} (h : Inv J k s) (hn : 0 < n) :
    ∃ s', peekn n s = some (s', streamAt J (k + n - 1)) ∧ Inv J k s' ∧ n ≤ s'.lookahead.length := by
  have look : ∀ s' : State, Inv J k s' → n ≤ s'.lookahead.length →
      s'.lookahead[n - 1]? = some (streamAt J (k + n - 1)) := by
    intro s' hi hl
    rcases hi with ⟨_, m, hm⟩ | ⟨_, _, _, hm⟩
    · rw [hm] at hl ⊢
      rcases streamAt_drop J k (n - 1) m with h1 | h1
      · rw [h1, show k + (n - 1) = k + n - 1 by omega]
      · omega
    · have h1 : (J.drop k)[n - 1]? = s'.lookahead[n - 1]? := by
        rw [← hm, List.getElem?_append_left (by omega)]
      rw [← h1, List.getElem?_drop, show k + (n - 1) = k + n - 1 by omega]
      have h2 : (s'.lookahead[n - 1]?).isSome = true := by
        rw [List.getElem?_eq_getElem (by omega)]; rfl
      rw [← h1, List.getElem?_drop, show k + (n - 1) = k + n - 1 by omega] at h2
      unfold streamAt
      obtain ⟨t, ht⟩ := Option.isSome_iff_exists.1 h2
      rw [ht]; rfl
  by_cases hlen : s.lookahead.length < n
  · have key : Inv J k (preprocessLine n s) ∧ n ≤ (preprocessLine n s).lookahead.length := by
      refine ⟨?_, by simp [preprocessLine]; omega⟩
      rcases h with ⟨h1, m, h2⟩ | ⟨h1, h2, h3, h4⟩
      · left
        refine ⟨by simp [preprocessLine, h1, readLines], ?_⟩
        simp only [preprocessLine, h1, readLines, h2]
        rw [List.append_assoc, List.replicate_append_replicate]
        exact ⟨_, rfl⟩
      · obtain ⟨i1, i2, i3⟩ := readLines_spec n s.lines s.lookahead h2
        rw [joined_sep_append h2 h1, h4] at i2
        unfold preprocessLine
        rcases i3 with i3 | ⟨i3, i4⟩
        · left
          refine ⟨i3, ?_⟩
          rw [i3] at i2
          simp only [List.flatten_nil, List.append_nil, joined_sep i1] at i2
          exact ⟨_, by simp only; rw [i2]⟩
        · right
          have : n - (readLines n s.lines s.lookahead).lookahead.length = 0 := by omega
          simp only [this, List.replicate_zero, List.append_nil]
          refine ⟨i3, i1, h3, ?_⟩
          rw [← i2, joined_sep_append i1 i3]
    refine ⟨preprocessLine n s, ?_, key⟩
    unfold peekn
    rw [if_neg (by omega)]
    simp only [if_pos hlen]
    rw [look _ key.1 key.2]
    rfl
  · refine ⟨s, ?_, h, by omega⟩
    unfold peekn
    rw [if_neg (by omega)]
    simp only [if_neg hlen]
    rw [look _ h (by omega)]
    rfl

theorem sep_tail {t : Tok} {q : List Tok} (h : Sep (t :: q)) : Sep q := by
  cases q with
  | nil => trivial
  | cons u q => exact h.2

theorem inv_next {J : List Tok} {k : Nat} {s : State} (h : Inv J k s) (hl : 0 < s.lookahead.length) :
    ∃ s', next s = some s' ∧ Inv J (k + 1) s' := by
  obtain ⟨lines, q⟩ := s
  cases q with
  | nil => simp at hl
  | cons t q =>
    refine ⟨⟨lines, q⟩, rfl, ?_⟩
    rcases h with ⟨h1, m, h2⟩ | ⟨h1, h2, h3, h4⟩
    · left
      refine ⟨h1, ?_⟩
      simp only at h2 ⊢
      cases hJ : J.drop k with
      | nil =>
        rw [hJ] at h2
        have hk : J.drop (k + 1) = [] := by
          rw [← List.drop_drop, hJ]; rfl
        cases m with
        | zero => simp at h2
        | succ m =>
          simp only [List.nil_append, List.replicate_succ, List.cons.injEq] at h2
          exact ⟨m, by rw [hk, h2.2]; rfl⟩
      | cons u r =>
        rw [hJ] at h2
        simp only [List.cons_append, List.cons.injEq] at h2
        have hk : J.drop (k + 1) = r := by rw [← List.drop_drop, hJ]; rfl
        exact ⟨m, by rw [hk]; exact h2.2⟩
    · right
      simp only at h1 h2 h4 ⊢
      have hk : J.drop (k + 1) = q ++ joined lines.flatten := by
        rw [← List.drop_drop, ← h4]; rfl
      refine ⟨?_, sep_tail h2, ?_, hk.symm⟩
      · cases q with
        | nil => rfl
        | cons u q => simpa [lastStr] using h1
      · by_contra hc
        have : J.drop k = [] := by rw [List.drop_eq_nil_iff]; omega
        rw [this] at h4
        simp at h4

theorem run_seen (J : List Tok) : ∀ (ops : List Op) (k : Nat) (s : State), Inv J k s →
    (∀ o ∈ ops, o ≠ .peek 0) → run s ops = some (seen J k ops) := by
  intro ops
  induction ops with
  | nil => intro k s _ _; rfl
  | cons o ops ih =>
    intro k s hi ho
    have ho' : ∀ o ∈ ops, o ≠ .peek 0 := fun x hx => ho x (by simp [hx])
    cases o with
    | peek n =>
      have hn : 0 < n := by
        by_contra hc
        have : n = 0 := by omega
        subst this
        exact ho _ (by simp) rfl
      obtain ⟨s', h1, h2, -⟩ := inv_peek hi hn
      simp only [run, h1, Option.bind_some, seen]
      rw [ih k s' h2 ho']
      rfl
    | step =>
      obtain ⟨s', h1, h2, h3⟩ := inv_peek (n := 1) hi (by omega)
      obtain ⟨s'', h4, h5⟩ := inv_next h2 (by omega)
      simp only [run, h1, Option.bind_some, h4, seen]
      exact ih (k + 1) s'' h5 ho'

theorem joined_noAdj (l : List Tok) : Sep (joined l) := by
  induction l with
  | nil => trivial
  | cons t r ih =>
    rw [joined]
    cases hr : joined r with
    | nil => cases t <;> trivial
    | cons u r' =>
      rw [hr] at ih
      cases t with
      | string a =>
        cases u with
        | string b =>
          simp only [glue]
          cases r' with
          | nil => trivial
          | cons v r' => exact ⟨ih.1, ih.2⟩
        | other n => exact ⟨by simp [isStr], ih⟩
        | end_ => exact ⟨by simp [isStr], ih⟩
      | other n => exact ⟨by simp [isStr], ih⟩
      | end_ => exact ⟨by simp [isStr], ih⟩

end Verif.Concat
