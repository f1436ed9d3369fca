import Verif.Grammar.Lemmas

/-!
# What the grammar has is read
-/

namespace Verif.Grammar

variable {e : Env} {c : Ctx}

def Reads (e : Env) (lv : Lv) (ts : List Tok) (r : Tree × List Tok) : Prop :=
  ∃ N, ∀ n, N ≤ n → parse e n lv ts = some r
def LoopsP (e : Env) (t : Tree) (ts : List Tok) (r : Tree × List Tok) : Prop :=
  ∃ N, ∀ n m, N ≤ n → N ≤ m → postfixLoop e (parse e n) m t ts = some r
def LoopsB (e : Env) (k : Nat) (t : Tree) (ts : List Tok) (r : Tree × List Tok) : Prop :=
  ∃ N, ∀ n m, N ≤ n → N ≤ m → binLoop (parse e n) k m t ts = some r
def LoopsC (e : Env) (t : Tree) (ts : List Tok) (r : Tree × List Tok) : Prop :=
  ∃ N, ∀ n m, N ≤ n → N ≤ m → commaLoop (parse e n) m t ts = some r
def ReadsA (e : Env) (v : Bool) (k : Nat) (ts : List Tok) (r : Tree × List Tok) : Prop :=
  ∃ N, ∀ n m, N ≤ n → N ≤ m → arguments (parse e n) m v k ts = some r
def ReadsV (e : Env) (ts : List Tok) (r : Tree × List Tok) : Prop :=
  ∃ N, ∀ n m, N ≤ n → N ≤ m → varargs (parse e n) m ts = some r

/-- One call. -/
theorem Reads.step {lv ts r} {N : Nat} (h : ∀ n, N ≤ n → step e (parse e n) n lv ts = some r) : Reads e lv ts r := by
  refine ⟨N + 1, fun n hn => ?_⟩
  obtain ⟨m, rfl⟩ : ∃ m, n = m + 1 := ⟨n - 1, by omega⟩
  exact h m (by omega)

theorem consume_self (x : P) (ts : List Tok) : consume x (.p x :: ts) = some ts := by simp [consume]

theorem consume_stop {x : P} {k ts} (h : Stop k ts) (hx : k ≤ rank x) : consume x ts = none := by
  unfold consume
  split
  · next y t =>
    have := h y t rfl
    rw [if_neg]
    rintro rfl
    omega
  · rfl

/-! ## Loops -/

theorem LoopsB.stop {k t rest} (h : Stop (6 + k) rest) : LoopsB e k t rest (t, rest) := by
  refine ⟨1, fun n m _ hm => ?_⟩
  obtain ⟨m, rfl⟩ : ∃ i, m = i + 1 := ⟨m - 1, by omega⟩
  simp only [binLoop]
  split
  · next x ts =>
    have hx := h x ts rfl
    split
    · next o ho =>
      have := (binary_infix ho).2.1
      omega
    · rfl
  · rfl

theorem LoopsB.cons {k a b x o ts rest r} (ho : binary k x = some o) (h : Reads e (operand k) ts (b, rest))
    (hl : LoopsB e k (apply o a b) rest r) : LoopsB e k a (.p x :: ts) r := by
  obtain ⟨N, hN⟩ := h
  obtain ⟨L, hL⟩ := hl
  refine ⟨N + L + 1, fun n m hn hm => ?_⟩
  obtain ⟨m, rfl⟩ : ∃ i, m = i + 1 := ⟨m - 1, by omega⟩
  simp only [binLoop, ho, hN n (by omega), Option.bind_eq_bind, Option.bind_some]
  exact hL n m (by omega) (by omega)

theorem Reads.bin {k a ts rest r} (h : Reads e (operand k) ts (a, rest)) (hl : LoopsB e k a rest r) :
    Reads e (.bin k) ts r := by
  obtain ⟨N, hN⟩ := h
  obtain ⟨L, hL⟩ := hl
  refine .step (N := N + L) fun n hn => ?_
  simp only [Grammar.step, hN n (by omega), Option.bind_eq_bind, Option.bind_some]
  exact hL n n (by omega) (by omega)

theorem LoopsC.stop {t rest} (h : Stop 1 rest) : LoopsC e t rest (t, rest) := by
  refine ⟨1, fun n m _ hm => ?_⟩
  obtain ⟨m, rfl⟩ : ∃ i, m = i + 1 := ⟨m - 1, by omega⟩
  simp only [commaLoop, consume_stop h (x := .comma) (by decide)]

theorem LoopsC.cons {a b ts rest r} (h : Reads e .assign ts (b, rest)) (hl : LoopsC e (.comma a b) rest r) :
    LoopsC e a (.p .comma :: ts) r := by
  obtain ⟨N, hN⟩ := h
  obtain ⟨L, hL⟩ := hl
  refine ⟨N + L + 1, fun n m hn hm => ?_⟩
  obtain ⟨m, rfl⟩ : ∃ i, m = i + 1 := ⟨m - 1, by omega⟩
  simp only [commaLoop, consume_self, hN n (by omega), Option.bind_eq_bind, Option.bind_some]
  exact hL n m (by omega) (by omega)

theorem LoopsP.stop {t rest} (h : Stop 14 rest) : LoopsP e t rest (t, rest) := by
  refine ⟨1, fun n m _ hm => ?_⟩
  obtain ⟨m, rfl⟩ : ∃ i, m = i + 1 := ⟨m - 1, by omega⟩
  simp only [postfixLoop]
  split <;> first
    | rfl
    | (exact absurd (h _ _ rfl) (by decide))

/-- One round of the loop. -/
theorem LoopsP.one {a b ts rest r} {N : Nat}
    (h : ∀ n m, N ≤ n → N ≤ m → postfixLoop e (parse e n) (m + 1) a ts = postfixLoop e (parse e n) m b rest)
    (hl : LoopsP e b rest r) : LoopsP e a ts r := by
  obtain ⟨L, hL⟩ := hl
  refine ⟨N + L + 1, fun n m hn hm => ?_⟩
  obtain ⟨m, rfl⟩ : ∃ i, m = i + 1 := ⟨m - 1, by omega⟩
  rw [h n m (by omega) (by omega)]
  exact hL n m (by omega) (by omega)

/-! ## From level to level -/

theorem notUnary {x : Tok} {r : List Tok} (hx : isPlain e x = true) (self : Lv → Parser) :
    unary e self (x :: r) = self .postfix (x :: r) := by
  cases x with
  | p y => cases y <;> first | rfl | (simp [isPlain] at hx)
  | _ => rfl

theorem Reads.unary {x : Tok} {r res} (hx : isPlain e x = true) (h : Reads e .postfix (x :: r) res) :
    Reads e .unary (x :: r) res := by
  obtain ⟨N, hN⟩ := h
  refine .step (N := N) fun n hn => ?_
  simp only [Grammar.step, notUnary hx]
  exact hN n hn

theorem Reads.cast {ts res} (hx : parenType e ts = false) (h : Reads e .unary ts res) : Reads e .cast ts res := by
  obtain ⟨N, hN⟩ := h
  refine .step (N := N) fun n hn => ?_
  simp only [Grammar.step, castExpr, hx, Bool.false_eq_true, if_false]
  exact hN n hn

theorem parenType_append {ts rest : List Tok} {x r} (h : ts = x :: r) (hr : x = .p .lparen → r ≠ []) :
    parenType e (ts ++ rest) = parenType e ts := by
  subst h
  cases x with
  | p y =>
    cases y <;> try rfl
    cases r with
    | nil => exact absurd rfl (hr rfl)
    | cons a b => rfl
  | _ => rfl

end Verif.Grammar
