import Verif.Grammar.Complete

/-!
# What the grammar has is read: every rule
-/

namespace Verif.Grammar

variable {e : Env} {c : Ctx}

theorem LiteralFirst.append {ts us} (h : LiteralFirst c ts) : LiteralFirst c (ts ++ us) := by
  obtain ⟨vs, ty, r, h1, rfl⟩ := h
  exact ⟨vs, ty, r ++ us, h1, by simp⟩

theorem literalFirst {d lv ts t} (A : Agree e c) (h : D c d lv ts t) :
    (lv = .primary → parenType e ts = false) ∧
      (lv = .postfix ∨ lv = .unary → parenType e ts = true → LiteralFirst c ts) := by
  induction h with
  | ident | number | string => exact ⟨fun _ => rfl, fun h => by rcases h with h | h <;> cases h⟩
  | @paren ts t h =>
    refine ⟨fun _ => ?_, fun h => by rcases h with h | h <;> cases h⟩
    obtain ⟨x, r, rfl, hx⟩ := first A h
    exact (isFirst_not hx).1
  | simple _ ih => exact ⟨fun h => (nomatch h), fun _ hp => by rw [ih.1 rfl] at hp; cases hp⟩
  | literal ht hi =>
    refine ⟨fun h => (nomatch h), fun _ _ => ?_⟩
    obtain ⟨r, rfl⟩ := A.initFirst _ _ hi
    exact ⟨_, _, r, ht, rfl⟩
  | index hd _ ih | call0 hd _ ih | call hd _ _ _ ih | dot hd ih | arrow hd ih | postInc hd ih | postDec hd ih =>
    refine ⟨fun h => (nomatch h), fun _ hp => ?_⟩
    obtain ⟨x, r, hx, _, hr⟩ := plain A hd (.inr rfl)
    rw [parenType_append hx hr] at hp
    exact (ih.2 (.inl rfl) hp).append
  | unary _ ih => exact ⟨fun h => (nomatch h), fun _ => ih.2 (.inl rfl)⟩
  | inc | dec | sizeofE | sizeofT | alignofT => exact ⟨fun h => (nomatch h), fun _ hp => (nomatch hp)⟩
  | pre hm =>
    refine ⟨fun h => (nomatch h), fun _ hp => ?_⟩
    simp only [prefixOps, List.mem_cons, Prod.mk.injEq, List.not_mem_nil, or_false] at hm
    rcases hm with ⟨rfl, _⟩ | ⟨rfl, _⟩ | ⟨rfl, _⟩ | ⟨rfl, _⟩ | ⟨rfl, _⟩ | ⟨rfl, _⟩ <;> cases hp
  | _ => exact ⟨fun h => (nomatch h), fun h => by rcases h with h | h <;> cases h⟩

theorem parenType_unary {d ts t rest} (A : Agree e c) (h : D c d .unary ts t) :
    parenType e (ts ++ rest) = parenType e ts := by
  cases h with
  | unary h =>
    obtain ⟨x, r, hx, _, hr⟩ := plain A h (.inr rfl)
    exact parenType_append hx hr
  | inc | dec | sizeofE | sizeofT | alignofT => rfl
  | pre hm =>
    simp only [prefixOps, List.mem_cons, Prod.mk.injEq, List.not_mem_nil, or_false] at hm
    rcases hm with ⟨rfl, _⟩ | ⟨rfl, _⟩ | ⟨rfl, _⟩ | ⟨rfl, _⟩ | ⟨rfl, _⟩ | ⟨rfl, _⟩ <;> rfl

theorem count_pos {d lv ts t} (h : D c d lv ts t) (hl : lv = .args) : 0 < t.count := by
  cases h <;> first
    | (cases hl; done)
    | exact Nat.succ_pos _

/-- What is claimed of each level. -/
def M (e : Env) : Lv → List Tok → Tree → Prop
  | .primary, ts, t => ∀ rest, Reads e .primary (ts ++ rest) (t, rest)
  | .postfix, ts, t => ∀ rest r, LoopsP e t rest r →
      Reads e .cast (ts ++ rest) r ∧ (parenType e ts = false → Reads e .unary (ts ++ rest) r ∧ Reads e .postfix (ts ++ rest) r)
  | .unary, ts, t => ∀ rest, Stop 14 rest →
      Reads e .cast (ts ++ rest) (t, rest) ∧ (parenType e ts = false → Reads e .unary (ts ++ rest) (t, rest))
  | .cast, ts, t => ∀ rest, Stop 14 rest → Reads e .cast (ts ++ rest) (t, rest)
  | .bin k, ts, t => k ≤ 7 → ∀ rest r, Stop (7 + k) rest → LoopsB e k t rest r → Reads e (.bin k) (ts ++ rest) r
  | .land, ts, t => ∀ rest, Stop 5 rest → Reads e .land (ts ++ rest) (t, rest)
  | .lor, ts, t => ∀ rest, Stop 4 rest → Reads e .lor (ts ++ rest) (t, rest)
  | .cond, ts, t => ∀ rest, Stop 3 rest → Reads e .cond (ts ++ rest) (t, rest)
  | .assign, ts, t => ∀ rest, Stop 2 rest → Reads e .assign (ts ++ rest) (t, rest)
  | .expr, ts, t => ∀ rest r, Stop 2 rest → LoopsC e t rest r → Reads e .expr (ts ++ rest) r
  | .args, ts, t => ∀ rest,
      (∀ n v, 0 < n → fits n v t.count → ReadsA e v n (ts ++ .p .rparen :: rest) (t, .p .rparen :: rest)) ∧
        ReadsV e (.p .comma :: (ts ++ .p .rparen :: rest)) (t, .p .rparen :: rest)

theorem M.expr {ts t rest} (h : M e .expr ts t) (hr : Stop 1 rest) : Reads e .expr (ts ++ rest) (t, rest) :=
  h rest _ (hr.mono (by decide)) (.stop hr)

theorem M.operand {k ts t rest} (hk : k < 7) (h : M e (.bin (k + 1)) ts t) (hr : Stop (7 + k) rest) :
    Reads e (Grammar.operand k) (ts ++ rest) (t, rest) := by
  have : Grammar.operand k = .bin (k + 1) := by unfold Grammar.operand; rw [if_neg (by omega)]
  rw [this]
  exact h (by omega) rest _ (hr.mono (by omega)) (.stop (hr.mono (by omega)))

theorem Reads.logical {sub lv x f ts a rest b us} (hs : ∀ self : Lv → Parser, ∀ m, Grammar.step e self m lv = Grammar.logical self sub lv x f)
    (h : Reads e sub ts (a, .p x :: us)) (h' : Reads e lv us (b, rest)) : Reads e lv ts (f a b, rest) := by
  obtain ⟨N, hN⟩ := h
  obtain ⟨L, hL⟩ := h'
  refine .step (N := N + L) fun n hn => ?_
  simp only [hs, Grammar.logical, hN n (by omega), Option.bind_eq_bind, Option.bind_some, consume_self, hL n (by omega)]

theorem Reads.logical1 {sub lv x f ts a rest} (hs : ∀ self : Lv → Parser, ∀ m, Grammar.step e self m lv = Grammar.logical self sub lv x f)
    (h : Reads e sub ts (a, rest)) (h' : Stop (rank x) rest) : Reads e lv ts (a, rest) := by
  obtain ⟨N, hN⟩ := h
  refine .step (N := N) fun n hn => ?_
  simp only [hs, Grammar.logical, hN n (by omega), Option.bind_eq_bind, Option.bind_some, consume_stop h' (Nat.le_refl _)]

theorem not_rparen {d lv ts t rest} (A : Agree e c) (h : D c d lv ts t) : ¬(ts ++ rest).head? = some (.p .rparen) := by
  obtain ⟨x, r, rfl, hx⟩ := first A h
  intro h
  exact (isFirst_not hx).2.1 (by simpa using h)

/-- `++` and `--`. -/
theorem Reads.incdec {xs a rest} (x : P) (o : Op) (hs : ∀ self : Lv → Parser, ∀ ts, Grammar.unary e self (.p x :: ts) = do
      let (a, ts) ← self .unary ts
      some (Tree.set a (.bin o a .one), ts)) (h : Reads e .unary xs (a, rest)) :
    Reads e .unary (.p x :: xs) (.set a (.bin o a .one), rest) := by
  obtain ⟨N, hN⟩ := h
  refine .step (N := N) fun n hn => ?_
  simp only [Grammar.step, hs, hN n (by omega), Option.bind_eq_bind, Option.bind_some]

theorem complete {lv ts t} (A : Agree e c) (h : D c accepted lv ts t) : M e lv ts t := by
  induction h with
  | @ident s hk =>
    intro rest
    refine .step (N := 0) fun n _ => ?_
    simp [step, primary, (A.known _).1 hk]
  | number => exact fun rest => .step (N := 0) fun n _ => rfl
  | string => exact fun rest => .step (N := 0) fun n _ => rfl
  | @paren ts t _ ih =>
    intro rest
    obtain ⟨N, hN⟩ := M.expr (rest := .p .rparen :: rest) ih (.cons (by decide))
    refine .step (N := N) fun n hn => ?_
    simp only [List.cons_append, List.append_assoc, List.nil_append, step, primary, hN n hn, Option.bind_eq_bind, Option.bind_some, consume_self]
  | @simple ts t hd ih =>
    intro rest r hl
    obtain ⟨x, u, hx, hp, hu⟩ := plain A hd (.inl rfl)
    have hpt : parenType e (ts ++ rest) = false := by rw [parenType_append hx hu, (literalFirst A hd).1 rfl]
    have h1 : Reads e .postfix (ts ++ rest) r := by
      obtain ⟨N, hN⟩ := ih rest
      obtain ⟨L, hL⟩ := hl
      refine .step (N := N + L) fun n hn => ?_
      simp only [step, postfixExpr, hN n (by omega), Option.bind_eq_bind, Option.bind_some]
      exact hL n n (by omega) (by omega)
    have h2 : Reads e .unary (ts ++ rest) r := by
      subst hx
      exact .unary hp h1
    exact ⟨.cast hpt h2, fun _ => ⟨h2, h1⟩⟩
  | @literal us ty is i ht hi =>
    intro rest r hl
    obtain ⟨x, u, hx, hs⟩ := A.typeFirst _ _ ht
    have hp : ∀ w, parenType e (.p .lparen :: (us ++ w)) = true := fun w => by rw [hx]; exact hs
    refine ⟨?_, fun h => by rw [hp] at h; cases h⟩
    obtain ⟨v, hv⟩ := A.initFirst _ _ hi
    obtain ⟨L, hL⟩ := hl
    refine .step (N := L) fun n hn => ?_
    have e1 := A.type us ty (is ++ rest) ht
    have e2 := A.init is i rest hi
    have e3 : (is ++ rest).head? = some (.p .lbrace) := by rw [hv]; rfl
    simp only [List.cons_append, List.append_assoc, step, castExpr, hp, if_true, consume_self, Option.bind_eq_bind,
      Option.bind_some, e1, e3, e2]
    exact hL n n hn hn
  | @index xs a ys b hd _ ih1 ih2 =>
    intro rest r hl
    obtain ⟨x, u, hx, _, hu⟩ := plain A hd (.inr rfl)
    rw [parenType_append hx hu, List.append_assoc]
    refine ih1 _ r ?_
    obtain ⟨N, hN⟩ := M.expr (rest := .p .rbrack :: rest) ih2 (.cons (by decide))
    refine .one (N := N) (fun n m hn hm => ?_) hl
    simp only [List.cons_append, List.append_assoc, List.nil_append, postfixLoop, hN n hn, Option.bind_eq_bind,
      Option.bind_some, consume_self]
  | @call0 xs a v hd ha ih =>
    intro rest r hl
    obtain ⟨x, u, hx, _, hu⟩ := plain A hd (.inr rfl)
    rw [parenType_append hx hu, List.append_assoc]
    refine ih _ r ?_
    rw [A.arity] at ha
    have hv := A.ellipsis _ _ ha
    subst hv
    refine .one (N := 0) (fun n m hn hm => ?_) hl
    simp only [List.cons_append, List.nil_append, postfixLoop, ha, Option.bind_eq_bind, Option.bind_some, arguments,
      Bool.false_eq_true, if_false, consume_self]
  | @call xs a ys b n v hd hb ha hf ih1 ih2 =>
    intro rest r hl
    obtain ⟨x, u, hx, _, hu⟩ := plain A hd (.inr rfl)
    rw [parenType_append hx hu, List.append_assoc]
    refine ih1 _ r ?_
    rw [A.arity] at ha
    have hpos : 0 < n := by
      have := count_pos hb rfl
      rcases hf with h | h <;> omega
    obtain ⟨N, hN⟩ := (ih2 rest).1 n v hpos hf
    refine .one (N := N) (fun n m hn hm => ?_) hl
    simp only [List.cons_append, List.append_assoc, List.nil_append, postfixLoop, ha, Option.bind_eq_bind, Option.bind_some,
      hN n m hn hm, consume_self]
  | @dot xs a s hd ih =>
    intro rest r hl
    obtain ⟨x, u, hx, _, hu⟩ := plain A hd (.inr rfl)
    rw [parenType_append hx hu, List.append_assoc]
    exact ih _ r (.one (N := 0) (fun n m hn hm => rfl) hl)
  | @arrow xs a s hd ih =>
    intro rest r hl
    obtain ⟨x, u, hx, _, hu⟩ := plain A hd (.inr rfl)
    rw [parenType_append hx hu, List.append_assoc]
    exact ih _ r (.one (N := 0) (fun n m hn hm => rfl) hl)
  | @postInc xs a hd ih =>
    intro rest r hl
    obtain ⟨x, u, hx, _, hu⟩ := plain A hd (.inr rfl)
    rw [parenType_append hx hu, List.append_assoc]
    exact ih _ r (.one (N := 0) (fun n m hn hm => rfl) hl)
  | @postDec xs a hd ih =>
    intro rest r hl
    obtain ⟨x, u, hx, _, hu⟩ := plain A hd (.inr rfl)
    rw [parenType_append hx hu, List.append_assoc]
    exact ih _ r (.one (N := 0) (fun n m hn hm => rfl) hl)
  | @arg xs a hd ih =>
    intro rest
    obtain ⟨N, hN⟩ := ih (.p .rparen :: rest) (.cons (by decide))
    have hne := not_rparen (rest := .p .rparen :: rest) A hd
    have hv : ∀ n m, 1 ≤ m → varargs (parse e n) m (.p .rparen :: rest) = some (Tree.none, .p .rparen :: rest) := by
      intro n m hm
      obtain ⟨m, rfl⟩ : ∃ i, m = i + 1 := ⟨m - 1, by omega⟩
      rfl
    refine ⟨fun n v hn hf => ?_, ?_⟩
    · obtain rfl : n = 1 := by
        simp only [fits, Tree.count] at hf
        omega
      refine ⟨N + 1, fun n m hn hm => ?_⟩
      simp only [arguments, hne, if_false, hN n (by omega), Option.bind_eq_bind, Option.bind_some, Nat.lt_irrefl]
      cases v
      · simp
      · simp [hv n m (by omega)]
    · refine ⟨N + 2, fun n m hn hm => ?_⟩
      obtain ⟨m, rfl⟩ : ∃ i, m = i + 1 := ⟨m - 1, by omega⟩
      simp only [varargs, List.head?_cons, Option.some.injEq, Tok.p.injEq, reduceCtorEq, if_false, consume_self,
        hN n (by omega), Option.bind_eq_bind, Option.bind_some, hv n m (by omega)]
  | @args xs a ys b hd hb ih1 ih2 =>
    intro rest
    obtain ⟨N, hN⟩ := ih1 (.p .comma :: (ys ++ .p .rparen :: rest)) (.cons (by decide))
    obtain ⟨hA, L, hL⟩ := ih2 rest
    have hne := not_rparen (rest := .p .comma :: (ys ++ .p .rparen :: rest)) A hd
    have hpos := count_pos hb rfl
    rw [List.append_assoc, List.cons_append]
    refine ⟨fun n v hn hf => ?_, ?_⟩
    · obtain ⟨n, rfl⟩ : ∃ i, n = i + 1 := ⟨n - 1, by omega⟩
      by_cases h0 : n = 0
      · subst h0
        have hv : v = true := by
          simp only [fits, Tree.count] at hf
          rcases hf with h | h
          · omega
          · exact h.1
        subst hv
        refine ⟨N + L + 1, fun n m hn hm => ?_⟩
        simp only [arguments, hne, if_false, hN n (by omega), Option.bind_eq_bind, Option.bind_some, Nat.lt_irrefl, if_true,
          hL n m (by omega) (by omega)]
      · have hf' : fits n v b.count := by
          simp only [fits, Tree.count] at hf ⊢
          rcases hf with h | ⟨h1, h2, h3⟩
          · exact .inl (by omega)
          · exact .inr ⟨h1, by omega, by omega⟩
        obtain ⟨K, hK⟩ := hA n v (by omega) hf'
        refine ⟨N + K + 1, fun i m hn hm => ?_⟩
        have : 0 < n := by omega
        simp only [arguments, hne, if_false, hN i (by omega), Option.bind_eq_bind, Option.bind_some, this, if_true,
          consume_self, hK i m (by omega) (by omega)]
    · refine ⟨N + L + 1, fun n m hn hm => ?_⟩
      obtain ⟨m, rfl⟩ : ∃ i, m = i + 1 := ⟨m - 1, by omega⟩
      simp only [varargs, List.head?_cons, Option.some.injEq, Tok.p.injEq, reduceCtorEq, if_false, consume_self,
        hN n (by omega), Option.bind_eq_bind, Option.bind_some, hL n m (by omega) (by omega)]
  | @unary ts t hd ih =>
    intro rest hr
    have := ih rest (t, rest) (.stop hr)
    exact ⟨this.1, fun h => (this.2 h).1⟩
  | @inc xs a hd hlit ih =>
    intro rest hr
    have hp : parenType e xs = false := by
      by_contra hp
      exact hlit rfl ((literalFirst A hd).2 (.inr rfl) (by simpa using hp))
    have h := Reads.incdec (e := e) .inc .add (fun _ _ => rfl) ((ih rest hr).2 hp)
    exact ⟨.cast rfl h, fun _ => h⟩
  | @dec xs a hd hlit ih =>
    intro rest hr
    have hp : parenType e xs = false := by
      by_contra hp
      exact hlit rfl ((literalFirst A hd).2 (.inr rfl) (by simpa using hp))
    have h := Reads.incdec (e := e) .dec .sub (fun _ _ => rfl) ((ih rest hr).2 hp)
    exact ⟨.cast rfl h, fun _ => h⟩
  | @pre x o xs a hm _ ih =>
    intro rest hr
    obtain ⟨N, hN⟩ := ih rest hr
    have h : Reads e .unary (.p x :: xs ++ rest) (.un o a, rest) := by
      refine .step (N := N) fun n hn => ?_
      simp only [prefixOps, List.mem_cons, Prod.mk.injEq, List.not_mem_nil, or_false] at hm
      rcases hm with ⟨rfl, rfl⟩ | ⟨rfl, rfl⟩ | ⟨rfl, rfl⟩ | ⟨rfl, rfl⟩ | ⟨rfl, rfl⟩ | ⟨rfl, rfl⟩ <;>
        simp only [List.cons_append, step, Grammar.unary, unOp, hN n hn, Option.bind_eq_bind, Option.bind_some]
    refine ⟨.cast ?_ h, fun _ => h⟩
    simp only [prefixOps, List.mem_cons, Prod.mk.injEq, List.not_mem_nil, or_false] at hm
    rcases hm with ⟨rfl, _⟩ | ⟨rfl, _⟩ | ⟨rfl, _⟩ | ⟨rfl, _⟩ | ⟨rfl, _⟩ | ⟨rfl, _⟩ <;> rfl
  | @sizeofE xs a hd hlit ih =>
    intro rest hr
    have hp : parenType e xs = false := by
      by_contra hp
      exact hlit rfl ((literalFirst A hd).2 (.inr rfl) (by simpa using hp))
    have hp' : parenType e (xs ++ rest) = false := by rw [parenType_unary A hd, hp]
    obtain ⟨N, hN⟩ := (ih rest hr).2 hp
    have h : Reads e .unary (.p .sizeof :: xs ++ rest) (.sizeofE a, rest) := by
      refine .step (N := N) fun n hn => ?_
      simp only [List.cons_append, step, Grammar.unary, hp', Bool.false_eq_true, if_false, hN n hn, Option.bind_eq_bind, Option.bind_some]
    exact ⟨.cast rfl h, fun _ => h⟩
  | @sizeofT us ty ht =>
    intro rest hr
    obtain ⟨x, u, hx, hs⟩ := A.typeFirst _ _ ht
    have hp : ∀ w, parenType e (.p .lparen :: (us ++ w)) = true := fun w => by rw [hx]; exact hs
    have e1 := A.type us ty rest ht
    have h : Reads e .unary (.p .sizeof :: .p .lparen :: (us ++ [.p .rparen]) ++ rest) (.sizeofT ty, rest) := by
      refine .step (N := 0) fun n hn => ?_
      simp only [List.cons_append, List.append_assoc, List.nil_append, step, Grammar.unary, hp, if_true, consume_self,
        Option.bind_eq_bind, Option.bind_some, e1]
    exact ⟨.cast rfl h, fun _ => h⟩
  | @alignofT us ty ht =>
    intro rest hr
    have e1 := A.type us ty rest ht
    have h : Reads e .unary (.p .alignof :: .p .lparen :: (us ++ [.p .rparen]) ++ rest) (.alignofT ty, rest) := by
      refine .step (N := 0) fun n hn => ?_
      simp only [List.cons_append, List.append_assoc, List.nil_append, step, Grammar.unary, consume_self,
        Option.bind_eq_bind, Option.bind_some, e1]
    exact ⟨.cast rfl h, fun _ => h⟩
  | castU _ ih => exact fun rest hr => (ih rest hr).1
  | @cast us ty xs a ht hd ih =>
    intro rest hr
    obtain ⟨x, u, hx, hs⟩ := A.typeFirst _ _ ht
    have hp : ∀ w, parenType e (.p .lparen :: (us ++ w)) = true := fun w => by rw [hx]; exact hs
    have e1 := A.type us ty (xs ++ rest) ht
    have e2 : ¬(xs ++ rest).head? = some (.p .lbrace) := by
      obtain ⟨y, v, rfl, hy⟩ := first A hd
      intro h
      exact (isFirst_not hy).2.2 (by simpa using h)
    obtain ⟨N, hN⟩ := ih rest hr
    refine .step (N := N) fun n hn => ?_
    simp only [List.cons_append, List.append_assoc, step, castExpr, hp, if_true, consume_self, Option.bind_eq_bind,
      Option.bind_some, e1, e2, if_false, hN n hn]
  | mul _ ih => exact fun _ rest r hr hl => .bin (ih rest hr) hl
  | up hk _ ih => exact fun _ rest r hr hl => .bin (M.operand hk ih hr) hl
  | @mulOp x f xs a ys b hm _ _ ih1 ih2 =>
    intro _ rest r hr hl
    obtain ⟨_, hrank, o, ho, rfl⟩ := infix_binary hm
    rw [List.append_assoc]
    exact ih1 (by decide) _ r (.cons (by omega)) (.cons ho (ih2 rest hr) hl)
  | @binOp x k f xs a ys b hm hk _ _ ih1 ih2 =>
    intro _ rest r hr hl
    obtain ⟨_, hrank, o, ho, rfl⟩ := infix_binary hm
    rw [List.append_assoc]
    exact ih1 (by omega) _ r (.cons (by omega)) (.cons ho (M.operand hk ih2 hr) hl)
  | land1 _ ih =>
    exact fun rest hr => .logical1 (fun _ _ => rfl)
      (ih (by decide) rest _ (hr.mono (by decide)) (.stop (hr.mono (by decide)))) hr
  | @land xs a ys b _ _ ih1 ih2 =>
    intro rest hr
    rw [List.append_assoc]
    exact .logical (fun _ _ => rfl)
      (ih1 (by decide) (.p .andand :: (ys ++ rest)) _ (.cons (by decide)) (.stop (.cons (by decide)))) (ih2 rest hr)
  | lor1 _ ih => exact fun rest hr => .logical1 (fun _ _ => rfl) (ih rest (hr.mono (by decide))) hr
  | @lor xs a ys b _ _ ih1 ih2 =>
    intro rest hr
    rw [List.append_assoc]
    exact .logical (fun _ _ => rfl) (ih1 (.p .oror :: (ys ++ rest)) (.cons (by decide))) (ih2 rest hr)
  | cond1 _ ih =>
    intro rest hr
    obtain ⟨N, hN⟩ := ih rest (hr.mono (by decide))
    refine .step (N := N) fun n hn => ?_
    simp only [step, condExpr, hN n hn, Option.bind_eq_bind, Option.bind_some, consume_stop hr (x := .quest) (by decide)]
  | @cond xs a ys b zs d _ _ _ ih1 ih2 ih3 =>
    intro rest hr
    obtain ⟨N, hN⟩ := ih1 (.p .quest :: (ys ++ .p .colon :: (zs ++ rest))) (.cons (by decide))
    obtain ⟨L, hL⟩ := M.expr (rest := .p .colon :: (zs ++ rest)) ih2 (.cons (by decide))
    obtain ⟨K, hK⟩ := ih3 rest hr
    refine .step (N := N + L + K) fun n hn => ?_
    simp only [List.append_assoc, List.cons_append, step, condExpr, hN n (by omega), hL n (by omega), hK n (by omega),
      Option.bind_eq_bind, Option.bind_some, consume_self]
  | @assign1 ts t _ ih =>
    intro rest hr
    obtain ⟨N, hN⟩ := ih rest (hr.mono (by decide))
    refine .step (N := N) fun n hn => ?_
    simp only [step, assignExpr, hN n hn, Option.bind_eq_bind, Option.bind_some]
    split
    · next x us =>
      rw [if_neg]
      intro h
      obtain ⟨u, hu⟩ := Option.isSome_iff_exists.1 h
      have := (some_assign hu).1
      have := hr x us rfl
      omega
    · rfl
  | @assign x f xs a ys b hm _ _ ih1 ih2 =>
    intro rest hr
    have hx := (assign_some hm a a).2
    obtain ⟨N, hN⟩ := ih1 (.p x :: (ys ++ rest)) (.cons (by omega))
    obtain ⟨L, hL⟩ := ih2 rest hr
    refine .step (N := N + L) fun n hn => ?_
    simp only [List.append_assoc, List.cons_append, step, assignExpr, hN n (by omega), hL n (by omega),
      Option.bind_eq_bind, Option.bind_some, (assign_some hm a a).1, (assign_some hm a b).1, Option.isSome_some, if_true]
  | expr1 _ ih =>
    intro rest r hr hl
    obtain ⟨N, hN⟩ := ih rest hr
    obtain ⟨L, hL⟩ := hl
    refine .step (N := N + L) fun n hn => ?_
    simp only [step, hN n (by omega), Option.bind_eq_bind, Option.bind_some]
    exact hL n n (by omega) (by omega)
  | @expr xs a ys b _ _ ih1 ih2 =>
    intro rest r hr hl
    rw [List.append_assoc]
    exact ih1 _ r (.cons (by decide)) (.cons (ih2 rest hr) hl)

end Verif.Grammar
