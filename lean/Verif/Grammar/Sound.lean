import Verif.Grammar.Main

/-!
# What is read is of the grammar
-/

namespace Verif.Grammar

variable {e : Env} {c : Ctx}

theorem consume_some {x : P} {ts us} (h : consume x ts = some us) : ts = .p x :: us := by
  unfold consume at h
  split at h
  · split at h
    · next hx => cases h; rw [hx]
    · cases h
  · cases h

/-- Nothing starts with the start of a type name. -/
theorem noType {x : Tok} {ts} (A : Agree e c) (hx : startsType e x = true) : ∀ n lv, parse e n lv (x :: ts) = none
  | 0, _ => rfl
  | n + 1, lv => by
    have ih := noType (ts := ts) A hx n
    have hu : ∀ self : Lv → Parser, unary e self (x :: ts) = self .postfix (x :: ts) := by
      intro self
      cases x with
      | p y => cases hx
      | _ => rfl
    have hp : parenType e (x :: ts) = false := by
      cases x with
      | p y => cases hx
      | _ => rfl
    cases lv with
    | primary =>
      cases x with
      | ident s =>
        have : e.known s = false := by
          by_contra h
          have := A.disjoint s (by simpa using h)
          simp [startsType, this] at hx
        simp [parse, step, primary, this]
      | word => rfl
      | _ => cases hx
    | _ => simp [parse, step, postfixExpr, hu, castExpr, hp, ih, logical, condExpr, assignExpr]

theorem unary_paren {n ts r} (A : Agree e c) (h : parse e n .unary ts = some r) : parenType e ts = false := by
  by_contra hp
  unfold parenType at hp
  split at hp
  · next x us =>
    have hx : startsType e x = true := by simpa using hp
    cases n with
    | zero => cases h
    | succ n =>
      have h : parse e n .postfix (.p .lparen :: x :: us) = some r := h
      cases n with
      | zero => cases h
      | succ n =>
        cases n with
        | zero => cases h
        | succ n =>
          simp [parse, step, postfixExpr, primary, noType A hx] at h
  · exact hp rfl

/-- The claim for calls with a smaller stack. -/
def Sound (c : Ctx) (self : Lv → Parser) : Prop :=
  ∀ lv ts t rest, (∀ k, lv = .bin k → k ≤ 7) → self lv ts = some (t, rest) →
    ∃ pre, ts = pre ++ rest ∧ D c accepted lv pre t

theorem varargs_sound {self : Lv → Parser} (S : Sound c self) : ∀ m ts as rest, varargs self m ts = some (as, rest) →
    (ts = rest ∧ as = .none) ∨ ∃ pre, ts = .p .comma :: (pre ++ rest) ∧ D c accepted .args pre as
  | 0, _, _, _, h => by cases h
  | m + 1, ts, as, rest, h => by
    simp only [varargs] at h
    split at h
    · cases h; exact .inl ⟨rfl, rfl⟩
    · simp only [Option.bind_eq_bind, Option.bind_eq_some_iff, Option.some.injEq, Prod.mk.injEq, Prod.exists] at h
      obtain ⟨us, h1, a, vs, h2, bs, ws, h3, rfl, rfl⟩ := h
      obtain ⟨p, rfl, hp⟩ := S .assign _ _ _ (fun k h => nomatch h) h2
      have := consume_some h1
      subst this
      rcases varargs_sound S m _ _ _ h3 with ⟨rfl, rfl⟩ | ⟨q, rfl, hq⟩
      · exact .inr ⟨p, rfl, .arg hp⟩
      · exact .inr ⟨p ++ .p .comma :: q, by simp, .args hp hq⟩

theorem arguments_sound {self : Lv → Parser} (S : Sound c self) {m v} : ∀ k ts as rest, 0 < k →
    arguments self m v k ts = some (as, rest) →
    ∃ pre, ts = pre ++ rest ∧ D c accepted .args pre as ∧ fits k v as.count
  | 0, _, _, _, hk, _ => by omega
  | k + 1, ts, as, rest, _, h => by
    simp only [arguments] at h
    split at h
    · cases h
    · simp only [Option.bind_eq_bind, Option.bind_eq_some_iff, Option.some.injEq, Prod.mk.injEq, Prod.exists] at h
      obtain ⟨a, us, h1, h2⟩ := h
      obtain ⟨p, rfl, hp⟩ := S .assign _ _ _ (fun k h => nomatch h) h1
      by_cases hk : 0 < k
      · simp only [hk, if_true, Option.bind_eq_some_iff, Option.some.injEq, Prod.mk.injEq, Prod.exists] at h2
        obtain ⟨vs, h2, bs, ws, h3, rfl, rfl⟩ := h2
        have := consume_some h2
        subst this
        obtain ⟨q, rfl, hq, hf⟩ := arguments_sound S k _ _ _ hk h3
        refine ⟨p ++ .p .comma :: q, by simp, .args hp hq, ?_⟩
        simp only [fits, Tree.count] at hf ⊢
        rcases hf with h | ⟨h1, h2, h3⟩
        · exact .inl (by omega)
        · exact .inr ⟨h1, by omega, by omega⟩
      · simp only [hk, if_false, Option.bind_some, Option.bind_eq_some_iff, Option.some.injEq, Prod.mk.injEq, Prod.exists] at h2
        obtain ⟨bs, ws, h3, rfl, rfl⟩ := h2
        obtain rfl : k = 0 := by omega
        simp only [arguments] at h3
        split at h3
        · next hv =>
          rcases varargs_sound S m _ _ _ h3 with ⟨rfl, rfl⟩ | ⟨q, rfl, hq⟩
          · exact ⟨p, rfl, .arg hp, .inl rfl⟩
          · exact ⟨p ++ .p .comma :: q, by simp, .args hp hq, .inr ⟨hv, by omega, by simp [Tree.count]⟩⟩
        · cases h3
          exact ⟨p, rfl, .arg hp, .inl rfl⟩

theorem postfix_sound {self : Lv → Parser} (A : Agree e c) (S : Sound c self) : ∀ m a ts t rest pre,
    postfixLoop e self m a ts = some (t, rest) → D c accepted .postfix pre a →
    ∃ p, ts = p ++ rest ∧ D c accepted .postfix (pre ++ p) t
  | 0, _, _, _, _, _, h, _ => by cases h
  | m + 1, a, ts, t, rest, pre, h, hd => by
    have ih := postfix_sound A S m
    simp only [postfixLoop] at h
    split at h
    · simp only [Option.bind_eq_bind, Option.bind_eq_some_iff, Prod.exists] at h
      obtain ⟨b, us, h1, vs, h2, h3⟩ := h
      obtain ⟨q, rfl, hq⟩ := S .expr _ _ _ (fun k h => nomatch h) h1
      have := consume_some h2
      subst this
      obtain ⟨p, rfl, hp⟩ := ih _ _ _ _ _ h3 (.index hd hq)
      exact ⟨.p .lbrack :: (q ++ [.p .rbrack]) ++ p, by simp, by simpa using hp⟩
    · simp only [Option.bind_eq_bind, Option.bind_eq_some_iff, Prod.exists] at h
      obtain ⟨k, v, h0, b, us, h1, vs, h2, h3⟩ := h
      have := consume_some h2
      subst this
      by_cases hk : k = 0
      · subst hk
        have hv := A.ellipsis _ _ h0
        subst hv
        simp only [arguments, Bool.false_eq_true, if_false] at h1
        cases h1
        obtain ⟨p, rfl, hp⟩ := ih _ _ _ _ _ h3 (.call0 hd (by rw [A.arity, h0]))
        exact ⟨[.p .lparen, .p .rparen] ++ p, by simp, by simpa using hp⟩
      · obtain ⟨q, rfl, hq, hf⟩ := arguments_sound S k _ _ _ (by omega) h1
        obtain ⟨p, rfl, hp⟩ := ih _ _ _ _ _ h3 (.call hd hq (by rw [A.arity, h0]) hf)
        exact ⟨.p .lparen :: (q ++ [.p .rparen]) ++ p, by simp, by simpa using hp⟩
    · next s us =>
      obtain ⟨p, rfl, hp⟩ := ih _ _ _ _ _ h (.dot hd)
      exact ⟨[.p .dot, .ident s] ++ p, by simp, by simpa using hp⟩
    · cases h
    · next s us =>
      obtain ⟨p, rfl, hp⟩ := ih _ _ _ _ _ h (.arrow hd)
      exact ⟨[.p .arrow, .ident s] ++ p, by simp, by simpa using hp⟩
    · cases h
    · obtain ⟨p, rfl, hp⟩ := ih _ _ _ _ _ h (.postInc hd)
      exact ⟨[.p .inc] ++ p, by simp, by simpa using hp⟩
    · obtain ⟨p, rfl, hp⟩ := ih _ _ _ _ _ h (.postDec hd)
      exact ⟨[.p .dec] ++ p, by simp, by simpa using hp⟩
    · cases h
      exact ⟨[], rfl, by simpa using hd⟩

theorem bin_sound {self : Lv → Parser} (S : Sound c self) {k} (hk : k ≤ 7) : ∀ m a ts t rest pre,
    binLoop self k m a ts = some (t, rest) → D c accepted (.bin k) pre a →
    ∃ p, ts = p ++ rest ∧ D c accepted (.bin k) (pre ++ p) t
  | 0, _, _, _, _, _, h, _ => by cases h
  | m + 1, a, ts, t, rest, pre, h, hd => by
    have ih := bin_sound S hk m
    simp only [binLoop] at h
    split at h
    · next x us =>
      split at h
      · next o ho =>
        simp only [Option.bind_eq_bind, Option.bind_eq_some_iff, Prod.exists] at h
        obtain ⟨b, vs, h1, h2⟩ := h
        have hm := (binary_infix ho).1
        by_cases h7 : k = 7
        · subst h7
          obtain ⟨q, rfl, hq⟩ := S .cast _ _ _ (fun k h => nomatch h) h1
          obtain ⟨p, rfl, hp⟩ := ih _ _ _ _ _ h2 (.mulOp hm hd hq)
          exact ⟨.p x :: q ++ p, by simp, by simpa using hp⟩
        · have : operand k = .bin (k + 1) := by unfold operand; rw [if_neg h7]
          rw [this] at h1
          obtain ⟨q, rfl, hq⟩ := S _ _ _ _ (fun k' h => by cases h; omega) h1
          obtain ⟨p, rfl, hp⟩ := ih _ _ _ _ _ h2 (.binOp hm (by omega) hd hq)
          exact ⟨.p x :: q ++ p, by simp, by simpa using hp⟩
      · cases h; exact ⟨[], rfl, by simpa using hd⟩
    · cases h; exact ⟨[], rfl, by simpa using hd⟩

theorem comma_sound {self : Lv → Parser} (S : Sound c self) : ∀ m a ts t rest pre,
    commaLoop self m a ts = some (t, rest) → D c accepted .expr pre a →
    ∃ p, ts = p ++ rest ∧ D c accepted .expr (pre ++ p) t
  | 0, _, _, _, _, _, h, _ => by cases h
  | m + 1, a, ts, t, rest, pre, h, hd => by
    have ih := comma_sound S m
    simp only [commaLoop] at h
    split at h
    · next us hc =>
      have := consume_some hc
      subst this
      simp only [Option.bind_eq_bind, Option.bind_eq_some_iff, Prod.exists] at h
      obtain ⟨b, vs, h1, h2⟩ := h
      obtain ⟨q, rfl, hq⟩ := S .assign _ _ _ (fun k h => nomatch h) h1
      obtain ⟨p, rfl, hp⟩ := ih _ _ _ _ _ h2 (.expr hd hq)
      exact ⟨.p .comma :: q ++ p, by simp, by simpa using hp⟩
    · cases h; exact ⟨[], rfl, by simpa using hd⟩

theorem notLiteral {ts rest} (A : Agree e c) (h : parenType e (ts ++ rest) = false) : ¬LiteralFirst c ts := by
  rintro ⟨us, ty, r, ht, rfl⟩
  obtain ⟨x, u, rfl, hx⟩ := A.typeFirst _ _ ht
  simp [parenType, hx] at h

theorem unary_sound {n ts t rest} (A : Agree e c) (S : Sound c (parse e n)) (h : unary e (parse e n) ts = some (t, rest)) :
    ∃ pre, ts = pre ++ rest ∧ D c accepted .unary pre t := by
  have pre1 : ∀ x o us, (x, o) ∈ prefixOps → unOp (parse e n) o us = some (t, rest) →
      ∃ pre, .p x :: us = pre ++ rest ∧ D c accepted .unary pre t := by
    intro x o us hm h
    simp only [unOp, Option.bind_eq_bind, Option.bind_eq_some_iff, Option.some.injEq, Prod.mk.injEq, Prod.exists] at h
    obtain ⟨a, vs, h1, rfl, rfl⟩ := h
    obtain ⟨q, rfl, hq⟩ := S .cast _ _ _ (fun k h => nomatch h) h1
    exact ⟨.p x :: q, rfl, .pre hm hq⟩
  unfold unary at h
  split at h
  · exact pre1 _ _ _ (by decide) h
  · exact pre1 _ _ _ (by decide) h
  · exact pre1 _ _ _ (by decide) h
  · exact pre1 _ _ _ (by decide) h
  · exact pre1 _ _ _ (by decide) h
  · exact pre1 _ _ _ (by decide) h
  · split at h
    · simp only [Option.bind_eq_bind, Option.bind_eq_some_iff, Option.some.injEq, Prod.mk.injEq, Prod.exists] at h
      obtain ⟨us, h1, ty, vs, h2, ws, h3, rfl, rfl⟩ := h
      have := consume_some h1
      subst this
      have := consume_some h3
      subst this
      obtain ⟨q, rfl, hq⟩ := A.typeSound _ _ _ h2
      exact ⟨.p .sizeof :: .p .lparen :: (q ++ [.p .rparen]), by simp, .sizeofT hq⟩
    · next hp =>
      simp only [Option.bind_eq_bind, Option.bind_eq_some_iff, Option.some.injEq, Prod.mk.injEq, Prod.exists] at h
      obtain ⟨a, us, h1, rfl, rfl⟩ := h
      obtain ⟨q, rfl, hq⟩ := S .unary _ _ _ (fun k h => nomatch h) h1
      exact ⟨.p .sizeof :: q, rfl, .sizeofE hq fun _ => notLiteral A (by simpa using hp)⟩
  · simp only [Option.bind_eq_bind, Option.bind_eq_some_iff, Option.some.injEq, Prod.mk.injEq, Prod.exists] at h
    obtain ⟨us, h1, ty, vs, h2, ws, h3, rfl, rfl⟩ := h
    have := consume_some h1
    subst this
    have := consume_some h3
    subst this
    obtain ⟨q, rfl, hq⟩ := A.typeSound _ _ _ h2
    exact ⟨.p .alignof :: .p .lparen :: (q ++ [.p .rparen]), by simp, .alignofT hq⟩
  · simp only [Option.bind_eq_bind, Option.bind_eq_some_iff, Option.some.injEq, Prod.mk.injEq, Prod.exists] at h
    obtain ⟨a, us, h1, rfl, rfl⟩ := h
    have hp := unary_paren A h1
    obtain ⟨q, rfl, hq⟩ := S .unary _ _ _ (fun k h => nomatch h) h1
    exact ⟨.p .inc :: q, rfl, .inc hq fun _ => notLiteral A hp⟩
  · simp only [Option.bind_eq_bind, Option.bind_eq_some_iff, Option.some.injEq, Prod.mk.injEq, Prod.exists] at h
    obtain ⟨a, us, h1, rfl, rfl⟩ := h
    have hp := unary_paren A h1
    obtain ⟨q, rfl, hq⟩ := S .unary _ _ _ (fun k h => nomatch h) h1
    exact ⟨.p .dec :: q, rfl, .dec hq fun _ => notLiteral A hp⟩
  · obtain ⟨q, rfl, hq⟩ := S .postfix _ _ _ (fun k h => nomatch h) h
    exact ⟨q, rfl, .unary hq⟩

theorem cast_sound {n m ts t rest} (A : Agree e c) (S : Sound c (parse e n)) (h : castExpr e (parse e n) m ts = some (t, rest)) :
    ∃ pre, ts = pre ++ rest ∧ D c accepted .cast pre t := by
  unfold castExpr at h
  split at h
  · simp only [Option.bind_eq_bind, Option.bind_eq_some_iff, Prod.exists] at h
    obtain ⟨us, h1, ty, vs, h2, ws, h3, h4⟩ := h
    have := consume_some h1
    subst this
    have := consume_some h3
    subst this
    obtain ⟨q, rfl, hq⟩ := A.typeSound _ _ _ h2
    split at h4
    · simp only [Option.bind_eq_some_iff, Prod.exists] at h4
      obtain ⟨i, xs, h5, h6⟩ := h4
      obtain ⟨r, rfl, hr⟩ := A.initSound _ _ _ h5
      obtain ⟨p, rfl, hp⟩ := postfix_sound A S m _ _ _ _ _ h6 (.literal hq hr)
      exact ⟨.p .lparen :: (q ++ .p .rparen :: r) ++ p, by simp, .castU (.unary hp)⟩
    · simp only [Option.bind_eq_some_iff, Option.some.injEq, Prod.mk.injEq, Prod.exists] at h4
      obtain ⟨a, xs, h5, rfl, rfl⟩ := h4
      obtain ⟨r, rfl, hr⟩ := S .cast _ _ _ (fun k h => nomatch h) h5
      exact ⟨.p .lparen :: (q ++ .p .rparen :: r), by simp, .cast hq hr⟩
  · obtain ⟨q, rfl, hq⟩ := S .unary _ _ _ (fun k h => nomatch h) h
    exact ⟨q, rfl, .castU hq⟩

theorem sound (A : Agree e c) : ∀ n, Sound c (parse e n)
  | 0 => fun _ _ _ _ _ h => by cases h
  | n + 1 => by
    have S := sound A n
    intro lv ts t rest hk h
    have h : step e (parse e n) n lv ts = some (t, rest) := h
    cases lv with
    | primary =>
      simp only [step] at h
      unfold primary at h
      split at h
      · next s us =>
        split at h
        · next hs => cases h; exact ⟨[.ident _], rfl, .ident ((A.known _).2 hs)⟩
        · cases h
      · next v us => cases h; exact ⟨[.number _], rfl, .number⟩
      · simp only [Option.bind_eq_bind, Option.bind_eq_some_iff, Option.some.injEq, Prod.mk.injEq, Prod.exists] at h
        obtain ⟨a, us, h1, vs, h2, rfl, rfl⟩ := h
        have := consume_some h2
        subst this
        obtain ⟨q, rfl, hq⟩ := S .expr _ _ _ (fun k h => nomatch h) h1
        exact ⟨.p .lparen :: (q ++ [.p .rparen]), by simp, .paren hq⟩
      · next s us => cases h; exact ⟨[.string _], rfl, .string⟩
      · cases h
    | «postfix» =>
      simp only [step, postfixExpr, Option.bind_eq_bind, Option.bind_eq_some_iff, Prod.exists] at h
      obtain ⟨a, us, h1, h2⟩ := h
      obtain ⟨q, rfl, hq⟩ := S .primary _ _ _ (fun k h => nomatch h) h1
      obtain ⟨p, rfl, hp⟩ := postfix_sound A S _ _ _ _ _ _ h2 (.simple hq)
      exact ⟨q ++ p, by simp, hp⟩
    | unary => exact unary_sound A S h
    | cast => exact cast_sound A S h
    | bin k =>
      have hk := hk k rfl
      simp only [step, Option.bind_eq_bind, Option.bind_eq_some_iff, Prod.exists] at h
      obtain ⟨a, us, h1, h2⟩ := h
      by_cases h7 : k = 7
      · subst h7
        obtain ⟨q, rfl, hq⟩ := S .cast _ _ _ (fun k h => nomatch h) h1
        obtain ⟨p, rfl, hp⟩ := bin_sound S hk _ _ _ _ _ _ h2 (.mul hq)
        exact ⟨q ++ p, by simp, hp⟩
      · have : operand k = .bin (k + 1) := by unfold operand; rw [if_neg h7]
        rw [this] at h1
        obtain ⟨q, rfl, hq⟩ := S _ _ _ _ (fun k' h => by cases h; omega) h1
        obtain ⟨p, rfl, hp⟩ := bin_sound S hk _ _ _ _ _ _ h2 (.up (by omega) hq)
        exact ⟨q ++ p, by simp, hp⟩
    | land =>
      simp only [step, logical, Option.bind_eq_bind, Option.bind_eq_some_iff, Prod.exists] at h
      obtain ⟨a, us, h1, h2⟩ := h
      obtain ⟨q, rfl, hq⟩ := S (.bin 0) _ _ _ (fun k h => by cases h; decide) h1
      split at h2
      · next vs hc =>
        have := consume_some hc
        subst this
        simp only [Option.bind_eq_some_iff, Option.some.injEq, Prod.mk.injEq, Prod.exists] at h2
        obtain ⟨b, ws, h3, rfl, rfl⟩ := h2
        obtain ⟨p, rfl, hp⟩ := S .land _ _ _ (fun k h => nomatch h) h3
        exact ⟨q ++ .p .andand :: p, by simp, .land hq hp⟩
      · cases h2; exact ⟨q, rfl, .land1 hq⟩
    | lor =>
      simp only [step, logical, Option.bind_eq_bind, Option.bind_eq_some_iff, Prod.exists] at h
      obtain ⟨a, us, h1, h2⟩ := h
      obtain ⟨q, rfl, hq⟩ := S .land _ _ _ (fun k h => nomatch h) h1
      split at h2
      · next vs hc =>
        have := consume_some hc
        subst this
        simp only [Option.bind_eq_some_iff, Option.some.injEq, Prod.mk.injEq, Prod.exists] at h2
        obtain ⟨b, ws, h3, rfl, rfl⟩ := h2
        obtain ⟨p, rfl, hp⟩ := S .lor _ _ _ (fun k h => nomatch h) h3
        exact ⟨q ++ .p .oror :: p, by simp, .lor hq hp⟩
      · cases h2; exact ⟨q, rfl, .lor1 hq⟩
    | cond =>
      simp only [step, condExpr, Option.bind_eq_bind, Option.bind_eq_some_iff, Prod.exists] at h
      obtain ⟨a, us, h1, h2⟩ := h
      obtain ⟨q, rfl, hq⟩ := S .lor _ _ _ (fun k h => nomatch h) h1
      split at h2
      · next vs hc =>
        have := consume_some hc
        subst this
        simp only [Option.bind_eq_some_iff, Option.some.injEq, Prod.mk.injEq, Prod.exists] at h2
        obtain ⟨b, ws, h3, xs, h4, d, ys, h5, rfl, rfl⟩ := h2
        have := consume_some h4
        subst this
        obtain ⟨p, rfl, hp⟩ := S .expr _ _ _ (fun k h => nomatch h) h3
        obtain ⟨r, rfl, hr⟩ := S .cond _ _ _ (fun k h => nomatch h) h5
        exact ⟨q ++ .p .quest :: (p ++ .p .colon :: r), by simp, .cond hq hp hr⟩
      · cases h2; exact ⟨q, rfl, .cond1 hq⟩
    | assign =>
      simp only [step, assignExpr, Option.bind_eq_bind, Option.bind_eq_some_iff, Prod.exists] at h
      obtain ⟨a, us, h1, h2⟩ := h
      obtain ⟨q, rfl, hq⟩ := S .cond _ _ _ (fun k h => nomatch h) h1
      split at h2
      · next x vs =>
        split at h2
        · simp only [Option.bind_eq_some_iff, Option.some.injEq, Prod.mk.injEq, Prod.exists] at h2
          obtain ⟨b, ws, h3, u, h4, rfl, rfl⟩ := h2
          obtain ⟨p, rfl, hp⟩ := S .assign _ _ _ (fun k h => nomatch h) h3
          obtain ⟨_, f, hf, rfl⟩ := some_assign h4
          exact ⟨q ++ .p x :: p, by simp, .assign hf hq hp⟩
        · cases h2; exact ⟨q, rfl, .assign1 hq⟩
      · cases h2; exact ⟨q, rfl, .assign1 hq⟩
    | args => cases h
    | expr =>
      simp only [step, Option.bind_eq_bind, Option.bind_eq_some_iff, Prod.exists] at h
      obtain ⟨a, us, h1, h2⟩ := h
      obtain ⟨q, rfl, hq⟩ := S .assign _ _ _ (fun k h => nomatch h) h1
      obtain ⟨p, rfl, hp⟩ := comma_sound S _ _ _ _ _ _ h2 (.expr1 hq)
      exact ⟨q ++ p, by simp, hp⟩

end Verif.Grammar
