import Verif.Stmt.Spec

namespace Verif.Stmt

theorem ex_some {ts r : List Tok} {e : Ex} : ex ts = some (e, r) ↔ ts = e.tok :: r := by
  constructor
  · intro h
    unfold ex at h
    split at h
    · simp only [Option.some.injEq, Prod.mk.injEq] at h; obtain ⟨rfl, rfl⟩ := h; rfl
    · simp only [Option.some.injEq, Prod.mk.injEq] at h; obtain ⟨rfl, rfl⟩ := h; rfl
    · cases h
  · rintro rfl
    cases e <;> rfl

theorem eat_some {t : Tok} {ts r : List Tok} : eat t ts = some r ↔ ts = t :: r := by
  cases ts with
  | nil => simp [eat]
  | cons u ts =>
    by_cases h : u = t
    · simp [eat, h]
    · simp [eat, h]

theorem paren_some {ts r : List Tok} {e : Ex} :
    paren ts = some (e, r) ↔ ts = .lpar :: e.tok :: .rpar :: r := by
  simp only [paren, Option.bind_eq_bind, Option.bind_eq_some_iff, eat_some, Prod.exists, ex_some,
    Option.some.injEq, Prod.mk.injEq]
  constructor
  · rintro ⟨_, rfl, _, _, rfl, _, rfl, rfl, rfl⟩; rfl
  · rintro rfl; exact ⟨_, rfl, _, _, rfl, _, rfl, rfl, rfl⟩

theorem tok_ne (e : Ex) : e.tok ≠ .semi ∧ e.tok ≠ .rpar ∧ e.tok ≠ .rbrace ∧ e.tok ≠ .kElse := by
  cases e <;> simp [Ex.tok]

theorem optional_some {t : Tok} (ht : t = .semi ∨ t = .rpar) {ts r : List Tok} {o : Option Ex} :
    optional t ts = some (o, r) ↔ ts = optTok o ++ t :: r := by
  cases ts with
  | nil => cases o <;> simp [optional, optTok]
  | cons u ts =>
    simp only [optional]
    by_cases hu : u = t
    · subst hu
      rw [if_pos rfl]
      cases o with
      | none => simp [optTok]
      | some e =>
        have := tok_ne e
        simp only [Option.some.injEq, Prod.mk.injEq, reduceCtorEq, false_and, optTok,
          List.cons_append, List.cons.injEq, false_iff, not_and]
        intro h
        rcases ht with rfl | rfl <;> simp_all
    · rw [if_neg hu]
      simp only [Option.bind_eq_bind, Option.bind_eq_some_iff, eat_some, Prod.exists, ex_some,
        Option.some.injEq, Prod.mk.injEq]
      cases o with
      | none => simp [optTok, hu]
      | some e =>
        simp only [optTok, List.cons_append, List.nil_append]
        constructor
        · rintro ⟨e', _, h, _, rfl, h2, rfl⟩; rw [h, Option.some.inj h2]
        · intro h; exact ⟨e, _, h, _, rfl, rfl, rfl⟩

theorem forInit_toks (i : Init) (r : List Tok) : forInit (i.toks ++ r) = some (i, r) := by
  cases i with
  | none => rfl
  | decl d => rfl
  | ex e =>
    cases e with
    | name n => simp [Init.toks, Ex.tok, forInit, eat]
    | exp e k =>
      by_cases hk : k = .ident
      · simp [Init.toks, Ex.tok, forInit, eat, hk]
      · simp [Init.toks, Ex.tok, forInit, hk]

theorem forInit_some {ts r : List Tok} {i : Init} (h : forInit ts = some (i, r))
    (hs : ∀ e k t b, ts = .exp e k :: t :: b → t = .semi) : ts = i.toks ++ r := by
  unfold forInit at h
  split at h
  · simp only [Option.some.injEq, Prod.mk.injEq] at h; obtain ⟨rfl, rfl⟩ := h; rfl
  · simp only [Option.some.injEq, Prod.mk.injEq] at h; obtain ⟨rfl, rfl⟩ := h; rfl
  · simp only [Option.map_eq_some_iff, eat_some, Prod.mk.injEq] at h
    obtain ⟨_, rfl, rfl, rfl⟩ := h; rfl
  · split at h
    · simp only [Option.map_eq_some_iff, eat_some, Prod.mk.injEq] at h
      obtain ⟨_, rfl, rfl, rfl⟩ := h; rfl
    · split at h
      · cases h
      · simp only [Option.some.injEq, Prod.mk.injEq] at h
        obtain ⟨rfl, rfl⟩ := h
        rw [hs _ _ _ _ rfl]; rfl
  · cases h

theorem forHead_toks (i : Init) (c m : Option Ex) (r : List Tok) :
    forHead (.lpar :: (i.toks ++ (optTok c ++ .semi :: (optTok m ++ .rpar :: r)))) =
      some ((i, c, m), r) := by
  have h1 : optional .semi (optTok c ++ .semi :: (optTok m ++ .rpar :: r)) =
      some (c, optTok m ++ .rpar :: r) := (optional_some (Or.inl rfl)).2 rfl
  have h2 : optional .rpar (optTok m ++ .rpar :: r) = some (m, r) :=
    (optional_some (Or.inr rfl)).2 rfl
  simp only [forHead, eat, if_true, Option.bind_eq_bind, Option.bind_some, forInit_toks, h1, h2]

theorem forHead_some {ts r : List Tok} {i : Init} {c m : Option Ex}
    (h : forHead ts = some ((i, c, m), r)) (hs : ForSemi (.kFor :: ts)) :
    ts = .lpar :: (i.toks ++ (optTok c ++ .semi :: (optTok m ++ .rpar :: r))) := by
  simp only [forHead, Option.bind_eq_bind, Option.bind_eq_some_iff, eat_some, Prod.exists,
    Option.some.injEq, Prod.mk.injEq] at h
  obtain ⟨r1, rfl, i', r2, h2, c', r3, h3, m', r4, h4, ⟨rfl, rfl, rfl⟩, rfl⟩ := h
  have := forInit_some h2 (fun e k t b hh => hs [] e k t b (by rw [hh]; rfl))
  rw [optional_some (Or.inl rfl)] at h3
  rw [optional_some (Or.inr rfl)] at h4
  rw [this, h3, h4]

theorem ForSemi.tail {a b : List Tok} (h : ForSemi (a ++ b)) : ForSemi b :=
  fun x e k t y hh => h (a ++ x) e k t y (by rw [hh]; simp)

theorem ForSemi.cons {a : Tok} {b : List Tok} (h : ForSemi (a :: b)) : ForSemi b :=
  ForSemi.tail (a := [a]) h

/-- No statement begins with `else` or a closing brace. -/
theorem G.head {v : Bool} {c : Cat} {us : List Tok} {t : St} (h : G v c us t) :
    ∃ a as, us = a :: as ∧ a ≠ .kElse ∧ (c = .stmt → a ≠ .rbrace) := by
  induction h with
  | expr e => exact ⟨_, _, rfl, (tok_ne e).2.2.2, fun _ => (tok_ne e).2.2.1⟩
  | seq h1 h2 i1 i2 =>
    obtain ⟨a, as, rfl, ha, _⟩ := i1
    exact ⟨a, _, rfl, ha, fun h => by cases h⟩
  | _ => exact ⟨_, _, rfl, by simp, by simp⟩

theorem parse_items (v : Bool) (n : Nat) {ts : List Tok} (h : ts.head? ≠ some .rbrace) :
    parse v (n + 1) .items ts = (do
      let (s, ts) ← parse v n .stmt ts
      let (r, ts) ← parse v n .items ts
      some (.seq s r, ts)) := by
  cases ts with
  | nil => simp only [parse]
  | cons a ts =>
    cases a <;> first | (exact absurd rfl h) | simp only [parse]

/-- What the grammar has is parsed, to the same tree. -/
theorem complete (v : Bool) {c : Cat} {us : List Tok} {t : St} (h : G v c us t) :
    ∀ rest, Simple t → (c = .stmt → Ends t rest) →
    ∃ k, ∀ n, k ≤ n → parse v n c (us ++ rest) = some (t, rest) := by
  have step : ∀ {k : Nat} {c : Cat} {ts : List Tok} {x : St × List Tok},
      (∀ n, k ≤ n → parse v (n + 1) c ts = some x) →
      ∃ k, ∀ n, k ≤ n → parse v n c ts = some x := by
    intro k c ts x h
    refine ⟨k + 1, fun n hn => ?_⟩
    obtain ⟨m, rfl⟩ : ∃ m, n = m + 1 := ⟨n - 1, by omega⟩
    exact h m (by omega)
  have par : ∀ (e : Ex) (r : List Tok), paren (.lpar :: e.tok :: .rpar :: r) = some (e, r) :=
    fun e r => paren_some.2 rfl
  induction h with
  | empty => exact fun rest _ _ => step (k := 0) fun n _ => by simp [parse]
  | expr e =>
    intro rest hs _
    refine step (k := 0) fun n _ => ?_
    cases e with
    | name l => simp [Ex.tok, parse, eat]
    | exp e k =>
      have : k ≠ .unary := hs
      simp [Ex.tok, parse, eat, this]
  | block h ih =>
    intro rest hs _
    obtain ⟨k, hk⟩ := ih rest hs (fun h => by cases h)
    exact step (k := k) fun n hn => by simp [parse, hk n hn]
  | stop => exact fun rest _ _ => step (k := 0) fun n _ => by simp [parse]
  | seqDecl d h ih =>
    intro rest hs _
    obtain ⟨k, hk⟩ := ih rest hs.2 (fun h => by cases h)
    refine step (k := k + 1) fun n hn => ?_
    obtain ⟨m, rfl⟩ : ∃ m, n = m + 1 := ⟨n - 1, by omega⟩
    rw [parse_items _ _ (by simp)]
    simp [parse, hk (m + 1) (by omega)]
  | @seq us s vs r h1 h2 i1 i2 =>
    intro rest hs _
    obtain ⟨a, as, rfl, ha, hb⟩ := h1.head
    obtain ⟨b, bs, rfl, hb', _⟩ := h2.head
    obtain ⟨k1, hk1⟩ := i1 (b :: bs ++ rest) hs.1 (fun _ _ => by simpa using hb')
    obtain ⟨k2, hk2⟩ := i2 rest hs.2 (fun h => by cases h)
    refine step (k := k1 + k2) fun n hn => ?_
    rw [parse_items _ _ (by simpa using hb rfl), List.append_assoc]
    simp only [hk1 n (by omega), hk2 n (by omega), Option.bind_eq_bind, Option.bind_some]
  | ifThen e h ih =>
    intro rest hs he
    have hr : eat .kElse rest = none := by
      have := he rfl rfl
      cases rest with
      | nil => rfl
      | cons a r => simp only [List.head?_cons, ne_eq, Option.some.injEq] at this; simp [eat, this]
    obtain ⟨k, hk⟩ := ih rest hs (fun _ _ => he rfl rfl)
    exact step (k := k) fun n hn => by
      simp [parse, par, hk n hn, hr]
  | @ifElse e us s vs t h1 ho h2 i1 i2 =>
    intro rest hs he
    obtain ⟨k1, hk1⟩ := i1 (.kElse :: (vs ++ rest)) hs.1 (fun _ h => by rw [ho] at h; cases h)
    obtain ⟨k2, hk2⟩ := i2 rest hs.2 (fun _ h => he rfl h)
    exact step (k := k1 + k2) fun n hn => by
      simp [parse, par, hk1 n (by omega), eat, hk2 n (by omega)]
  | whileS e h ih =>
    intro rest hs he
    obtain ⟨k, hk⟩ := ih rest hs (fun _ h => he rfl h)
    exact step (k := k) fun n hn => by simp [parse, par, hk n hn]
  | @doS e us s h ih =>
    intro rest hs he
    obtain ⟨k, hk⟩ := ih (.kWhile :: .lpar :: e.tok :: .rpar :: .semi :: rest) hs
      (fun _ _ => by simp)
    exact step (k := k) fun n hn => by simp [parse, par, hk n hn, eat]
  | forS i c m h ih =>
    intro rest hs he
    obtain ⟨k, hk⟩ := ih rest hs (fun _ h => he rfl h)
    exact step (k := k) fun n hn => by
      simp only [List.cons_append, List.append_assoc, parse, forHead_toks, Option.bind_eq_bind,
        Option.bind_some, hk n hn]
  | switch e h ih =>
    intro rest hs he
    obtain ⟨k, hk⟩ := ih rest hs (fun _ h => he rfl h)
    exact step (k := k) fun n hn => by simp [parse, par, hk n hn]
  | caseS e h ih =>
    intro rest hs he
    obtain ⟨k, hk⟩ := ih rest hs (fun _ h => he rfl h)
    have hx : ∀ r, ex (e.tok :: r) = some (e, r) := fun r => ex_some.2 rfl
    exact step (k := k) fun n hn => by simp [parse, hx, eat, hk n hn]
  | default h ih =>
    intro rest hs he
    obtain ⟨k, hk⟩ := ih rest hs (fun _ h => he rfl h)
    exact step (k := k) fun n hn => by simp [parse, eat, hk n hn]
  | label l h ih =>
    intro rest hs he
    obtain ⟨k, hk⟩ := ih rest hs (fun _ h => he rfl h)
    exact step (k := k) fun n hn => by simp [parse, hk n hn]
  | goto l => exact fun rest _ _ => step (k := 0) fun n _ => by simp [parse, eat]
  | «continue» => exact fun rest _ _ => step (k := 0) fun n _ => by simp [parse, eat]
  | «break» => exact fun rest _ _ => step (k := 0) fun n _ => by simp [parse, eat]
  | retVoid hv => exact fun rest _ _ => step (k := 0) fun n _ => by simp [parse, eat, hv]
  | ret e hv =>
    have hx : ∀ r, ex (e.tok :: r) = some (e, r) := fun r => ex_some.2 rfl
    exact fun rest _ _ => step (k := 0) fun n _ => by simp [parse, eat, hv, hx]

/-- What is read for a statement: the grammar has it, or it is a declaration. -/
def Read (v : Bool) (c : Cat) (us : List Tok) (t : St) : Prop :=
  (Placed t → G v c us t) ∧ (c = .stmt → ∀ d, t = .decl d → us = [.decl d])

theorem sound (v : Bool) : ∀ (n : Nat) (c : Cat) (ts : List Tok) (t : St) (rest : List Tok),
    parse v n c ts = some (t, rest) → ForSemi ts →
    ∃ us, ts = us ++ rest ∧ Read v c us t ∧ (c = .stmt → Ends t rest) := by
  intro n
  induction n with
  | zero => intro c ts t rest h; simp [parse] at h
  | succ n ih =>
    intro c ts t rest h hf
    have mk : ∀ {us : List Tok}, ts = us ++ rest → (Placed t → G v c us t) → (∀ d, t ≠ .decl d) →
        (c = .stmt → Ends t rest) →
        ∃ us, ts = us ++ rest ∧ Read v c us t ∧ (c = .stmt → Ends t rest) :=
      fun h1 h2 h3 h4 => ⟨_, h1, ⟨h2, fun _ d hd => absurd hd (h3 d)⟩, h4⟩
    cases c with
    | items =>
      by_cases hb : ts.head? = some .rbrace
      · cases ts with
        | nil => cases hb
        | cons a r =>
          simp only [List.head?_cons, Option.some.injEq] at hb
          subst hb
          simp only [parse, Option.some.injEq, Prod.mk.injEq] at h
          obtain ⟨rfl, rfl⟩ := h
          exact mk (us := [.rbrace]) rfl (fun _ => .stop) (by simp) (fun h => by cases h)
      · rw [parse_items _ _ hb] at h
        simp only [Option.bind_eq_bind, Option.bind_eq_some_iff, Prod.exists, Option.some.injEq,
          Prod.mk.injEq] at h
        obtain ⟨s, r1, h1, r, r2, h2, rfl, rfl⟩ := h
        obtain ⟨us, rfl, ⟨g1, d1⟩, e1⟩ := ih _ _ _ _ h1 hf
        obtain ⟨vs, rfl, ⟨g2, _⟩, _⟩ := ih _ _ _ _ h2 hf.tail
        refine mk (us := us ++ vs) (by simp) (fun hp => ?_) (by simp) (fun h => by cases h)
        cases s with
        | decl d =>
          rw [d1 rfl d rfl]
          exact .seqDecl d (g2 hp)
        | _ => exact .seq (g1 hp.1) (g2 hp.2)
    | stmt =>
      cases ts with
      | nil => simp [parse] at h
      | cons a r =>
        cases a with
        | semi =>
          simp only [parse, Option.some.injEq, Prod.mk.injEq] at h
          obtain ⟨rfl, rfl⟩ := h
          exact mk (us := [.semi]) rfl (fun _ => .empty) (by simp) (fun _ h => by cases h)
        | lbrace =>
          simp only [parse, Option.bind_eq_bind, Option.bind_eq_some_iff, Prod.exists,
            Option.some.injEq, Prod.mk.injEq] at h
          obtain ⟨b, r1, h1, rfl, rfl⟩ := h
          obtain ⟨us, rfl, ⟨g1, _⟩, _⟩ := ih _ _ _ _ h1 hf.cons
          exact mk (us := .lbrace :: us) rfl (fun hp => .block (g1 hp)) (by simp)
            (fun _ h => by cases h)
        | kIf =>
          simp only [parse, Option.bind_eq_bind, Option.bind_eq_some_iff, Prod.exists,
            paren_some] at h
          obtain ⟨e, r1, rfl, s, r2, h1, h⟩ := h
          obtain ⟨us, rfl, ⟨g1, _⟩, e1⟩ := ih _ _ _ _ h1 hf.cons.cons.cons.cons
          split at h
          · rename_i he
            simp only [Option.some.injEq, Prod.mk.injEq] at h
            obtain ⟨rfl, rfl⟩ := h
            refine mk (us := .kIf :: .lpar :: e.tok :: .rpar :: us) rfl
              (fun hp => .ifThen e (g1 hp)) (by simp) (fun _ _ hh => ?_)
            cases r2 with
            | nil => cases hh
            | cons x y =>
              simp only [List.head?_cons, Option.some.injEq] at hh
              subst hh
              simp [eat] at he
          · rename_i r3 he
            rw [eat_some] at he
            subst he
            simp only [Option.bind_eq_some_iff, Prod.exists, Option.some.injEq,
              Prod.mk.injEq] at h
            obtain ⟨t', r4, h2, rfl, rfl⟩ := h
            obtain ⟨vs, rfl, ⟨g2, _⟩, e2⟩ := ih _ _ _ _ h2 hf.cons.cons.cons.cons.tail.cons
            refine mk (us := .kIf :: .lpar :: e.tok :: .rpar :: (us ++ .kElse :: vs)) (by simp)
              (fun hp => .ifElse e (g1 hp.1) ?_ (g2 hp.2)) (by simp) (fun _ h => e2 rfl h)
            cases ho : openIf s with
            | false => rfl
            | true => exact absurd rfl (e1 rfl ho)
        | kElse => simp [parse] at h
        | kDo =>
          simp only [parse, Option.bind_eq_bind, Option.bind_eq_some_iff, Prod.exists,
            paren_some, eat_some, Option.some.injEq, Prod.mk.injEq] at h
          obtain ⟨s, r1, h1, r2, rfl, e, r3, rfl, r4, rfl, rfl, rfl⟩ := h
          obtain ⟨us, rfl, ⟨g1, _⟩, e1⟩ := ih _ _ _ _ h1 hf.cons
          exact mk (us := .kDo :: (us ++ [.kWhile, .lpar, e.tok, .rpar, .semi])) (by simp)
            (fun hp => .doS e (g1 hp)) (by simp) (fun _ h => by cases h)
        | kWhile =>
          simp only [parse, Option.bind_eq_bind, Option.bind_eq_some_iff, Prod.exists,
            paren_some, Option.some.injEq, Prod.mk.injEq] at h
          obtain ⟨e, r1, rfl, s, r2, h1, rfl, rfl⟩ := h
          obtain ⟨us, rfl, ⟨g1, _⟩, e1⟩ := ih _ _ _ _ h1 hf.cons.cons.cons.cons
          exact mk (us := .kWhile :: .lpar :: e.tok :: .rpar :: us) rfl
            (fun hp => .whileS e (g1 hp)) (by simp) (fun _ h => e1 rfl h)
        | kFor =>
          simp only [parse, Option.bind_eq_bind, Option.bind_eq_some_iff, Prod.exists,
            Option.some.injEq, Prod.mk.injEq] at h
          obtain ⟨i, c, m, r1, h0, s, r2, h1, rfl, rfl⟩ := h
          have hh := forHead_some h0 hf
          subst hh
          have hf' : ForSemi r1 :=
            ForSemi.tail (a := .kFor :: .lpar :: (i.toks ++ (optTok c ++ .semi :: (optTok m ++ [.rpar]))))
              (by simpa using hf)
          obtain ⟨us, rfl, ⟨g1, _⟩, e1⟩ := ih _ _ _ _ h1 hf'
          exact mk (us := .kFor :: .lpar :: (i.toks ++ (optTok c ++ .semi :: (optTok m ++ .rpar :: us))))
            (by simp) (fun hp => .forS i c m (g1 hp)) (by simp) (fun _ h => e1 rfl h)
        | kGoto =>
          cases r with
          | nil => simp [parse] at h
          | cons b r =>
            cases b <;> simp only [parse, Option.bind_eq_bind, Option.bind_eq_some_iff, eat_some,
              Option.some.injEq, Prod.mk.injEq, reduceCtorEq] at h
            obtain ⟨r1, rfl, rfl, rfl⟩ := h
            exact mk (us := [.kGoto, .word _, .semi]) rfl (fun _ => .goto _) (by simp)
              (fun _ h => by cases h)
        | kContinue =>
          simp only [parse, Option.bind_eq_bind, Option.bind_eq_some_iff, eat_some,
            Option.some.injEq, Prod.mk.injEq] at h
          obtain ⟨r1, rfl, rfl, rfl⟩ := h
          exact mk (us := [.kContinue, .semi]) rfl (fun _ => .continue) (by simp)
            (fun _ h => by cases h)
        | kBreak =>
          simp only [parse, Option.bind_eq_bind, Option.bind_eq_some_iff, eat_some,
            Option.some.injEq, Prod.mk.injEq] at h
          obtain ⟨r1, rfl, rfl, rfl⟩ := h
          exact mk (us := [.kBreak, .semi]) rfl (fun _ => .break) (by simp)
            (fun _ h => by cases h)
        | kReturn =>
          simp only [parse] at h
          split at h
          · rename_i hv
            simp only [Option.bind_eq_bind, Option.bind_eq_some_iff, eat_some,
              Option.some.injEq, Prod.mk.injEq] at h
            obtain ⟨r1, rfl, rfl, rfl⟩ := h
            exact mk (us := [.kReturn, .semi]) rfl (fun _ => .retVoid hv) (by simp)
              (fun _ h => by cases h)
          · rename_i hv
            simp only [Option.bind_eq_bind, Option.bind_eq_some_iff, eat_some, ex_some,
              Prod.exists, Option.some.injEq, Prod.mk.injEq] at h
            obtain ⟨e, r1, rfl, r2, rfl, rfl, rfl⟩ := h
            exact mk (us := [.kReturn, e.tok, .semi]) rfl
              (fun _ => .ret e (by simpa using hv)) (by simp) (fun _ h => by cases h)
        | kSwitch =>
          simp only [parse, Option.bind_eq_bind, Option.bind_eq_some_iff, Prod.exists,
            paren_some, Option.some.injEq, Prod.mk.injEq] at h
          obtain ⟨e, r1, rfl, s, r2, h1, rfl, rfl⟩ := h
          obtain ⟨us, rfl, ⟨g1, _⟩, e1⟩ := ih _ _ _ _ h1 hf.cons.cons.cons.cons
          exact mk (us := .kSwitch :: .lpar :: e.tok :: .rpar :: us) rfl
            (fun hp => .switch e (g1 hp)) (by simp) (fun _ h => e1 rfl h)
        | kCase =>
          simp only [parse, Option.bind_eq_bind, Option.bind_eq_some_iff, Prod.exists,
            ex_some, eat_some, Option.some.injEq, Prod.mk.injEq] at h
          obtain ⟨e, r1, rfl, r2, rfl, s, r3, h1, rfl, rfl⟩ := h
          obtain ⟨us, rfl, ⟨g1, _⟩, e1⟩ := ih _ _ _ _ h1 hf.cons.cons.cons
          exact mk (us := .kCase :: e.tok :: .colon :: us) rfl
            (fun hp => .caseS e (g1 hp)) (by simp) (fun _ h => e1 rfl h)
        | kDefault =>
          simp only [parse, Option.bind_eq_bind, Option.bind_eq_some_iff, Prod.exists,
            eat_some, Option.some.injEq, Prod.mk.injEq] at h
          obtain ⟨r2, rfl, s, r3, h1, rfl, rfl⟩ := h
          obtain ⟨us, rfl, ⟨g1, _⟩, e1⟩ := ih _ _ _ _ h1 hf.cons.cons
          exact mk (us := .kDefault :: .colon :: us) rfl
            (fun hp => .default (g1 hp)) (by simp) (fun _ h => e1 rfl h)
        | word l =>
          by_cases hc : ∃ r', r = .colon :: r'
          · obtain ⟨r, rfl⟩ := hc
            simp only [parse, Option.bind_eq_bind, Option.bind_eq_some_iff, Prod.exists,
              Option.some.injEq, Prod.mk.injEq] at h
            obtain ⟨s, r3, h1, rfl, rfl⟩ := h
            obtain ⟨us, rfl, ⟨g1, _⟩, e1⟩ := ih _ _ _ _ h1 hf.cons.cons
            exact mk (us := .word l :: .colon :: us) rfl
              (fun hp => .label l (g1 hp)) (by simp) (fun _ h => e1 rfl h)
          · have hx : parse v (n + 1) .stmt (.word l :: r) = (do
                let r ← eat .semi r
                some (.expr (.name l), r)) := by
              cases r with
              | nil => simp only [parse]
              | cons b r =>
                cases b <;> first | (exact absurd ⟨_, rfl⟩ hc) | simp only [parse]
            rw [hx] at h
            simp only [Option.bind_eq_bind, Option.bind_eq_some_iff, eat_some,
              Option.some.injEq, Prod.mk.injEq] at h
            obtain ⟨r1, rfl, rfl, rfl⟩ := h
            exact mk (us := [.word l, .semi]) rfl (fun _ => .expr (.name l)) (by simp)
              (fun _ h => by cases h)
        | exp e k =>
          simp only [parse] at h
          split at h
          · cases h
          · simp only [Option.bind_eq_bind, Option.bind_eq_some_iff, eat_some,
              Option.some.injEq, Prod.mk.injEq] at h
            obtain ⟨r1, rfl, rfl, rfl⟩ := h
            exact mk (us := [.exp e k, .semi]) rfl (fun _ => .expr (.exp e k)) (by simp)
              (fun _ h => by cases h)
        | decl d =>
          simp only [parse, Option.some.injEq, Prod.mk.injEq] at h
          obtain ⟨rfl, rfl⟩ := h
          exact ⟨[.decl d], rfl, ⟨fun h => absurd h (by simp [Placed]), fun _ d' hd => by
            cases hd; rfl⟩, fun _ h => by cases h⟩
        | _ => simp [parse] at h

end Verif.Stmt
