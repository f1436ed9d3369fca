import Verif.Grammar.Sound

/-!
# C94: expressions are grouped as the grammar of C says

`D` is the grammar of C99 6.5 with the tree of each rule; `parse` is the parser.
-/

namespace Verif.Grammar

variable {e : Env} {c : Ctx}

/-- A unary expression is a conditional expression. -/
theorem D.toCond {d xs a} (h : D c d .unary xs a) : D c d .cond xs a :=
  .cond1 (.lor1 (.land1 (.up (by decide) (.up (by decide) (.up (by decide) (.up (by decide) (.up (by decide)
    (.up (by decide) (.up (by decide) (.mul (.castU h)))))))))))

/-- Without braces, or without the rules for them, the rules of the standard are among those
accepted. -/
theorem D.accept' {d lv ts t} (h : D c d lv ts t) (hd : d.left = .unary) (hl : d.literals = false ∨ .p .lbrace ∉ ts) :
    D c accepted lv ts t := by
  have lit : ∀ {xs ys : List Tok}, (d.literals = false ∨ .p .lbrace ∉ xs) → (∀ x ∈ ys, x ∈ xs) →
      (d.literals = false ∨ .p .lbrace ∉ ys) := fun h hs => h.imp_right fun h h' => h (hs _ h')
  have no : ∀ {xs : List Tok}, (d.literals = false ∨ .p .lbrace ∉ xs) → (d.literals = false → ¬LiteralFirst c xs) →
      ¬LiteralFirst c xs := by
    rintro xs (h | h) hf
    · exact hf h
    · rintro ⟨us, ty, r, _, rfl⟩
      exact h (by simp)
  induction h with
  | ident h => exact .ident h
  | number => exact .number
  | string => exact .string
  | paren _ h => exact .paren (h (lit hl fun x hx => by simp [hx]))
  | simple _ h => exact .simple (h (lit hl fun x hx => by simp [hx]))
  | dot _ h => exact .dot (h (lit hl fun x hx => by simp [hx]))
  | arrow _ h => exact .arrow (h (lit hl fun x hx => by simp [hx]))
  | postInc _ h => exact .postInc (h (lit hl fun x hx => by simp [hx]))
  | postDec _ h => exact .postDec (h (lit hl fun x hx => by simp [hx]))
  | arg _ h => exact .arg (h (lit hl fun x hx => by simp [hx]))
  | unary _ h => exact .unary (h (lit hl fun x hx => by simp [hx]))
  | castU _ h => exact .castU (h (lit hl fun x hx => by simp [hx]))
  | mul _ h => exact .mul (h (lit hl fun x hx => by simp [hx]))
  | land1 _ h => exact .land1 (h (lit hl fun x hx => by simp [hx]))
  | lor1 _ h => exact .lor1 (h (lit hl fun x hx => by simp [hx]))
  | cond1 _ h => exact .cond1 (h (lit hl fun x hx => by simp [hx]))
  | assign1 _ h => exact .assign1 (h (lit hl fun x hx => by simp [hx]))
  | expr1 _ h => exact .expr1 (h (lit hl fun x hx => by simp [hx]))
  | index _ _ h h' => exact .index (h (lit hl fun x hx => by simp [hx])) (h' (lit hl fun x hx => by simp [hx]))
  | args _ _ h h' => exact .args (h (lit hl fun x hx => by simp [hx])) (h' (lit hl fun x hx => by simp [hx]))
  | land _ _ h h' => exact .land (h (lit hl fun x hx => by simp [hx])) (h' (lit hl fun x hx => by simp [hx]))
  | lor _ _ h h' => exact .lor (h (lit hl fun x hx => by simp [hx])) (h' (lit hl fun x hx => by simp [hx]))
  | expr _ _ h h' => exact .expr (h (lit hl fun x hx => by simp [hx])) (h' (lit hl fun x hx => by simp [hx]))
  | literal h h' => exact .literal h h'
  | call0 _ ha h => exact .call0 (h (lit hl fun x hx => by simp [hx])) ha
  | call _ _ ha hf h h' =>
    exact .call (h (lit hl fun x hx => by simp [hx])) (h' (lit hl fun x hx => by simp [hx])) ha hf
  | inc _ hf h =>
    have hl := lit hl fun x hx => List.mem_cons_of_mem _ hx
    exact .inc (h hl) fun _ => no hl hf
  | dec _ hf h =>
    have hl := lit hl fun x hx => List.mem_cons_of_mem _ hx
    exact .dec (h hl) fun _ => no hl hf
  | sizeofE _ hf h =>
    have hl := lit hl fun x hx => List.mem_cons_of_mem _ hx
    exact .sizeofE (h hl) fun _ => no hl hf
  | pre hm _ h => exact .pre hm (h (lit hl fun x hx => by simp [hx]))
  | sizeofT h => exact .sizeofT h
  | alignofT h => exact .alignofT h
  | cast ht _ h => exact .cast ht (h (lit hl fun x hx => by simp [hx]))
  | up hk _ h => exact .up hk (h hl)
  | mulOp hm _ _ h h' => exact .mulOp hm (h (lit hl fun x hx => by simp [hx])) (h' (lit hl fun x hx => by simp [hx]))
  | binOp hm hk _ _ h h' =>
    exact .binOp hm hk (h (lit hl fun x hx => by simp [hx])) (h' (lit hl fun x hx => by simp [hx]))
  | cond _ _ _ h h' h'' =>
    exact .cond (h (lit hl fun x hx => by simp [hx])) (h' (lit hl fun x hx => by simp [hx])) (h'' (lit hl fun x hx => by simp [hx]))
  | assign hm _ _ h h' =>
    have h := h (lit hl fun x hx => by simp [hx])
    rw [hd] at h
    exact .assign hm (D.toCond h) (h' (lit hl fun x hx => by simp [hx]))

theorem D.accept {lv ts t} (h : D c covered lv ts t) : D c accepted lv ts t := h.accept' rfl (.inl rfl)

/-- Tokens that can not continue an expression: the end, a name, constant or keyword, or one of
the punctuators that are neither operators of two operands, nor of postfix expressions. -/
def Ends (rest : List Tok) : Prop :=
  ∀ x t, rest = .p x :: t → x ∈ [P.rparen, .rbrack, .rbrace, .lbrace, .colon, .semi, .tilde, .bang, .sizeof, .alignof]

theorem Ends.stop {rest} (h : Ends rest) : Stop 1 rest := by
  intro x t he
  have := h x t he
  simp only [List.mem_cons, List.not_mem_nil, or_false] at this
  rcases this with rfl | rfl | rfl | rfl | rfl | rfl | rfl | rfl | rfl | rfl <;> decide

/-- **C94 (partial): expressions are read as the grammar says.**  Every expression of the
grammar is read to its end, whatever follows it, as the tree the grammar gives it: operators
bind as tightly as they do in C and group to the side they do in C, casts are told from
parentheses, and calls have the arguments written.

Missing: compound literals directly behind `++`, `--` and `sizeof` (`C94_literal_violated`). -/
theorem C94_read_partial (A : Agree e c) {ts t} (h : D c covered .expr ts t) {rest} (hr : Ends rest) :
    ∃ N, ∀ n, N ≤ n → parse e n .expr (ts ++ rest) = some (t, rest) :=
  M.expr (complete A h.accept) hr.stop

/-- The same for what is an argument or an initialiser, which ends at a comma, and for the
constant expressions of case labels, enumerators, array sizes and bit-fields. -/
theorem C94_parts_partial (A : Agree e c) {ts t} :
    (D c covered .assign ts t → ∀ {rest}, Stop 2 rest → ∃ N, ∀ n, N ≤ n → parse e n .assign (ts ++ rest) = some (t, rest)) ∧
    (D c covered .cond ts t → ∀ {rest}, Stop 3 rest → ∃ N, ∀ n, N ≤ n → parse e n .cond (ts ++ rest) = some (t, rest)) :=
  ⟨fun h rest hr => complete A h.accept rest hr, fun h rest hr => complete A h.accept rest hr⟩

/-- **C94 (partial): nothing else is read.**  What is read, of any tokens and however deep
the stack, is an expression of the grammar, with its tree, except that a conditional expression is allowed at the left of
an assignment (`C94_assign_violated`). -/
theorem C94_only_partial (A : Agree e c) {n ts t rest} (h : parse e n .expr ts = some (t, rest)) :
    ∃ pre, ts = pre ++ rest ∧ D c accepted .expr pre t :=
  sound A n .expr ts t rest (fun _ h => nomatch h) h

/-- No two trees belong to the same tokens. -/
theorem C94_unambiguous (A : Agree e c) {ts t t'} (h : D c covered .expr ts t) (h' : D c covered .expr ts t') : t = t' := by
  have hr : Ends [] := fun _ _ h => nomatch h
  obtain ⟨N, hN⟩ := C94_read_partial A h hr
  obtain ⟨L, hL⟩ := C94_read_partial A h' hr
  have := (hN (N + L) (by omega)).symm.trans (hL (N + L) (by omega))
  exact congrArg Prod.fst (Option.some.inj this)

/-! ### `&&` and `||` group to the left -/

/-- How `&&` and `||` are evaluated, 6.5.13 and 6.5.14. -/
structure ShortCircuit {S : Type} (ev : Tree → S → Option (Int × S)) : Prop where
  land : ∀ a b s, ev (.land a b) s = (ev a s).bind fun x =>
    if x.1 = 0 then some (0, x.2) else (ev b x.2).map fun y => (if y.1 = 0 then 0 else 1, y.2)
  lor : ∀ a b s, ev (.lor a b) s = (ev a s).bind fun x =>
    if x.1 ≠ 0 then some (1, x.2) else (ev b x.2).map fun y => (if y.1 = 0 then 0 else 1, y.2)

/-- The rules of the standard, which have the recursion at the left, give no other sequences
of tokens, and trees of the same value and effects. -/
theorem C94_logical_left {d xs ys a b} :
    (D c d .land xs a → D c d (.bin 0) ys b → ∃ t, D c d .land (xs ++ .p .andand :: ys) t ∧
      ∀ (S : Type) (ev : Tree → S → Option (Int × S)), ShortCircuit ev → ev t = ev (.land a b)) ∧
    (D c d .lor xs a → D c d .land ys b → ∃ t, D c d .lor (xs ++ .p .oror :: ys) t ∧
      ∀ (S : Type) (ev : Tree → S → Option (Int × S)), ShortCircuit ev → ev t = ev (.lor a b)) := by
  have key : ∀ {lv xs a}, D c d lv xs a →
      (lv = .land → D c d (.bin 0) ys b → ∃ t, D c d .land (xs ++ .p .andand :: ys) t ∧
        ∀ (S : Type) (ev : Tree → S → Option (Int × S)), ShortCircuit ev → ev t = ev (.land a b)) ∧
      (lv = .lor → D c d .land ys b → ∃ t, D c d .lor (xs ++ .p .oror :: ys) t ∧
        ∀ (S : Type) (ev : Tree → S → Option (Int × S)), ShortCircuit ev → ev t = ev (.lor a b)) := by
    intro lv xs a h
    induction h with
    | land1 h => exact ⟨fun _ hb => ⟨_, .land h (.land1 hb), fun _ _ _ => rfl⟩, fun h => nomatch h⟩
    | lor1 h => exact ⟨fun h => (nomatch h), fun _ hb => ⟨_, .lor h (.lor1 hb), fun _ _ _ => rfl⟩⟩
    | @land xs a1 zs a2 h1 _ _ ih =>
      refine ⟨fun _ hb => ?_, fun h => nomatch h⟩
      obtain ⟨t, ht, he⟩ := ih.1 rfl hb
      refine ⟨.land a1 t, by simpa using D.land h1 ht, fun S ev hev => ?_⟩
      funext s
      simp only [hev.land, he S ev hev]
      cases ev a1 s with
      | none => rfl
      | some x =>
        by_cases hx : x.1 = 0
        · simp [hx]
        · simp only [Option.bind_some, hx, if_false, Option.map_bind, Option.bind_map]
          cases ev a2 x.2 with
          | none => rfl
          | some y =>
            by_cases hy : y.1 = 0
            · simp [hy]
            · cases hb : ev b y.2 with
              | none => simp [hy, hb]
              | some z => by_cases hz : z.1 = 0 <;> simp [hy, hb, hz]
    | @lor xs a1 zs a2 h1 _ _ ih =>
      refine ⟨fun h => (nomatch h), fun _ hb => ?_⟩
      obtain ⟨t, ht, he⟩ := ih.2 rfl hb
      refine ⟨.lor a1 t, by simpa using D.lor h1 ht, fun S ev hev => ?_⟩
      funext s
      simp only [hev.lor, he S ev hev]
      cases ev a1 s with
      | none => rfl
      | some x =>
        by_cases hx : x.1 = 0
        · simp only [Option.bind_some, hx, ne_eq, not_true_eq_false, if_false, Option.map_bind, Option.bind_map]
          cases ev a2 x.2 with
          | none => rfl
          | some y =>
            by_cases hy : y.1 = 0
            · cases hb : ev b y.2 with
              | none => simp [hy, hb]
              | some z => by_cases hz : z.1 = 0 <;> simp [hy, hb, hz]
            · simp [hy]
        · simp [hx]
    | _ => exact ⟨fun h => (nomatch h), fun h => nomatch h⟩
  exact ⟨fun h => (key h).1 rfl, fun h => (key h).2 rfl⟩

/-! ### Examples -/

def tT : Bytes := str% "T"

/-- `T` is a type name, every other name an object or function; `f` has two parameters, `g` one
and `...`, `h` none. -/
def exEnv : Env where
  known s := s ≠ tT
  typedef s := s = tT
  typeName
    | .word k :: r => some (k, r)
    | .ident s :: r => if s = tT then some (100, r) else none
    | _ => none
  initializer
    | .p .lbrace :: .number v :: .p .rbrace :: r => some (v, r)
    | _ => none
  arity
    | .ident s => if s = str% "f" then some (2, false) else if s = str% "g" then some (1, true)
      else if s = str% "h" then some (0, false) else none
    | _ => none

def exCtx : Ctx where
  known s := s ≠ tT
  TypeName us ty := us = [.word ty] ∨ us = [.ident tT] ∧ ty = 100
  Init is i := is = [.p .lbrace, .number i, .p .rbrace]
  arity := exEnv.arity

theorem ex_agree : Agree exEnv exCtx where
  known s := by simp [exCtx, exEnv]
  disjoint s h := by simpa [exEnv] using h
  typeFirst us ty h := by
    rcases h with rfl | ⟨rfl, rfl⟩
    · exact ⟨_, _, rfl, rfl⟩
    · exact ⟨_, _, rfl, by decide⟩
  type us ty rest h := by
    rcases h with rfl | ⟨rfl, rfl⟩
    · rfl
    · simp [exEnv]
  typeSound ts ty rest h := by
    simp only [exEnv] at h
    split at h
    · cases h; exact ⟨[.word _], rfl, .inl rfl⟩
    · split at h
      · next hs => cases h; subst hs; exact ⟨[.ident tT], rfl, .inr ⟨rfl, rfl⟩⟩
      · cases h
    · cases h
  initFirst is i h := ⟨_, h⟩
  init is i rest h := by cases h; rfl
  initSound ts i rest h := by
    simp only [exEnv] at h
    split at h
    · cases h; exact ⟨[.p .lbrace, .number _, .p .rbrace], rfl, rfl⟩
    · cases h
  arity a := rfl
  ellipsis a v h := by
    simp only [exEnv] at h
    split at h
    · split at h
      · cases h
      · split at h
        · cases h
        · split at h
          · cases h; rfl
          · cases h
    · cases h

def va : Tok := .ident (str% "a")
def vb : Tok := .ident (str% "b")
def vc : Tok := .ident (str% "c")

/-- `a - b * c` is an expression. -/
example : D exCtx covered .expr [va, .p .minus, vb, .p .star, vc]
    (.bin .sub (.ident (str% "a")) (.bin .mul (.ident (str% "b")) (.ident (str% "c")))) := by
  have n : ∀ s, s ≠ tT → D exCtx covered .cast [.ident s] (.ident s) := fun s h => .castU (.unary (.simple (.ident h)))
  have h : D exCtx covered (.bin 6) ([va] ++ .p .minus :: ([vb] ++ .p .star :: [vc])) _ :=
    .binOp (f := .bin .sub) (by simp [infixOps]) (by decide) (.up (by decide) (.mul (n _ (by decide))))
      (.mulOp (f := .bin .mul) (by simp [infixOps]) (.mul (n _ (by decide))) (n _ (by decide)))
  exact .expr1 (.assign1 (.cond1 (.lor1 (.land1 (.up (by decide) (.up (by decide) (.up (by decide) (.up (by decide)
    (.up (by decide) (.up (by decide) h))))))))))

/-- `a = b += c ? a : b, (T)-a[1]++ && f(a, b);` -/
example : parse exEnv 60 .expr [va, .p .assign, vb, .p .addA, vc, .p .quest, va, .p .colon, vb, .p .comma,
      .p .lparen, .ident tT, .p .rparen, .p .minus, va, .p .lbrack, .number 1, .p .rbrack, .p .inc, .p .andand,
      .ident (str% "f"), .p .lparen, va, .p .comma, vb, .p .rparen, .p .semi]
    = some (.comma (.set (.ident (str% "a")) (.set (.ident (str% "b")) (.bin .add (.ident (str% "b"))
        (.cond (.ident (str% "c")) (.ident (str% "a")) (.ident (str% "b"))))))
      (.land (.cast 100 (.un .neg (.before (.un .deref (.bin .add (.ident (str% "a")) (.number 1)))
          (.bin .add (.un .deref (.bin .add (.ident (str% "a")) (.number 1))) .one))))
        (.call (.ident (str% "f")) (.more (.ident (str% "a")) (.more (.ident (str% "b")) .none)))), [.p .semi]) := by
  decide +kernel

/-- `a - b - c < a == b`, `sizeof(T) * a`, `g(a, b, c)`; `f(a)` has too few arguments. -/
example : parse exEnv 40 .expr [va, .p .minus, vb, .p .minus, vc, .p .lt, va, .p .eq, vb]
      = some (.bin .eq (.bin .gt (.ident (str% "a"))
          (.bin .sub (.bin .sub (.ident (str% "a")) (.ident (str% "b"))) (.ident (str% "c")))) (.ident (str% "b")), [])
    ∧ parse exEnv 40 .expr [.p .sizeof, .p .lparen, .ident tT, .p .rparen, .p .star, va]
      = some (.bin .mul (.sizeofT 100) (.ident (str% "a")), [])
    ∧ parse exEnv 40 .expr [.ident (str% "g"), .p .lparen, va, .p .comma, vb, .p .comma, vc, .p .rparen]
      = some (.call (.ident (str% "g")) (.more (.ident (str% "a")) (.more (.ident (str% "b")) (.more (.ident (str% "c")) .none))), [])
    ∧ parse exEnv 40 .expr [.ident (str% "f"), .p .lparen, va, .p .rparen] = none := by
  decide +kernel

example : Ends [.p .semi] ∧ ¬Ends [.p .plus] := by
  constructor
  · intro x t h; cases h; decide
  · intro h; exact absurd (h _ _ rfl) (by decide)

/-! ### Violations -/

/-- **C94 violated: `sizeof` before a compound literal.**  `sizeof (T){1}` is an expression,
and is never read as one: `sizeof (T)` is read and the braces are left. -/
theorem C94_literal_violated :
    ∃ ts t, D exCtx standard .expr ts t ∧ (∀ n t', parse exEnv n .expr ts ≠ some (t', [])) ∧
      ts = [.p .sizeof, .p .lparen, .ident tT, .p .rparen, .p .lbrace, .number 1, .p .rbrace] := by
  have lit : D exCtx standard .postfix (.p .lparen :: ([.ident tT] ++ .p .rparen :: [.p .lbrace, .number 1, .p .rbrace])) (.literal 100 1) :=
    .literal (.inr ⟨rfl, rfl⟩) rfl
  refine ⟨_, .sizeofE (.literal 100 1), ?_, ?_, rfl⟩
  · exact .expr1 (.assign1 (D.toCond (.sizeofE (.unary lit) fun h => by cases h)))
  · intro n t' h
    obtain ⟨pre, hp, hd⟩ := C94_only_partial ex_agree h
    rw [List.append_nil] at hp
    subst hp
    have h2 : D exCtx covered .expr (.p .sizeof :: .p .lparen :: ([.ident tT] ++ [.p .rparen])) (.sizeofT 100) :=
      .expr1 (.assign1 (D.toCond (.sizeofT (.inr ⟨rfl, rfl⟩))))
    obtain ⟨N, hN⟩ := M.expr (rest := []) (complete ex_agree hd) (fun _ _ h => nomatch h)
    obtain ⟨L, hL⟩ := C94_read_partial ex_agree h2 (rest := [.p .lbrace, .number 1, .p .rbrace])
      (fun x t h => by cases h; decide)
    have e1 := hN (N + L) (by omega)
    have e2 := hL (N + L) (by omega)
    have := e1.symm.trans e2
    simp at this

/-- **C94 violated: assignment to a conditional expression.**  `c ? a : b = c` is not an
expression of C (6.5.16 has a unary expression at the left) and is read as `(c ? a : b) = c`. -/
theorem C94_assign_violated :
    ∃ ts, ts = [vc, .p .quest, va, .p .colon, vb, .p .assign, vc] ∧
      (∀ t, ¬D exCtx standard .expr ts t) ∧
      parse exEnv 60 .expr ts = some (.set (.cond (.ident (str% "c")) (.ident (str% "a")) (.ident (str% "b")))
        (.ident (str% "c")), []) := by
  refine ⟨_, rfl, fun t h => ?_, by decide +kernel⟩
  have hb : ∀ x ∈ [vc, .p .quest, va, .p .colon, vb, .p .assign, vc], x ≠ .p .lbrace ∧ x ≠ .p .comma := by decide
  generalize hts : [vc, .p .quest, va, .p .colon, vb, .p .assign, vc] = ts at h hb
  cases h with
  | expr => exact (hb (.p .comma) (by simp)).2 rfl
  | expr1 h =>
    cases h with
    | assign1 h =>
      have h1 := complete ex_agree (h.accept' rfl (.inr fun hm => (hb _ hm).1 rfl)) [] (fun _ _ h => nomatch h)
      obtain ⟨N, hN⟩ := h1
      obtain ⟨pre, hp, hd⟩ := sound ex_agree 40 .cond [vc, .p .quest, va, .p .colon, vb] _ [] (fun _ h => nomatch h)
        (show _ = some (.cond (.ident (str% "c")) (.ident (str% "a")) (.ident (str% "b")), []) by decide +kernel)
      rw [List.append_nil] at hp
      subst hp
      obtain ⟨L, hL⟩ := complete ex_agree hd [.p .assign, vc] (.cons (by decide))
      have e1 := hN (N + L) (by omega)
      have e2 := hL (N + L) (by omega)
      rw [← hts] at e1
      have := e1.symm.trans e2
      simp at this
    | @assign x f xs a ys b hm h _ =>
      have hx := (assign_some hm a a).2
      have hlen : xs.length < 7 := by
        have := congrArg List.length hts
        simp at this
        omega
      have hget : [vc, .p .quest, va, .p .colon, vb, .p .assign, vc][xs.length]? = some (.p x) := by
        rw [hts]; simp
      have htake : [vc, .p .quest, va, .p .colon, vb, .p .assign, vc].take xs.length = xs := by
        rw [hts]; simp
      have hxs : xs = [vc] ++ [.p .quest, va, .p .colon, vb] := by
        generalize xs.length = i at hlen hget htake
        interval_cases i <;> simp only [List.getElem?_cons_zero, List.getElem?_cons_succ, Option.some.injEq] at hget
        · cases hget
        · cases hget; cases hx
        · cases hget
        · cases hget; cases hx
        · cases hget
        · exact htake.symm
        · cases hget
      have h := h.accept' rfl (.inr fun hm => (hb (.p .lbrace) (List.mem_append_left _ hm)).1 rfl)
      have hp : parenType exEnv xs = false := by rw [hxs]; rfl
      obtain ⟨N, hN⟩ := (complete ex_agree h [] (fun _ _ h => nomatch h)).2 hp
      have hc : D exCtx accepted .unary [vc] (.ident (str% "c")) := .unary (.simple (.ident (show str% "c" ≠ tT by decide)))
      obtain ⟨L, hL⟩ := (complete ex_agree hc [.p .quest, va, .p .colon, vb] (.cons (by decide))).2 rfl
      have e1 := hN (N + L) (by omega)
      have e2 := hL (N + L) (by omega)
      rw [List.append_nil, hxs] at e1
      have := e1.symm.trans e2
      simp at this

end Verif.Grammar
