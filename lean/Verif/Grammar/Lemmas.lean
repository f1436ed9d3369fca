import Verif.Tac
import Verif.Grammar.Model
import Verif.Grammar.Spec

/-!
# Parsing of expressions: lemmas
-/

namespace Verif.Grammar

/-- The readers of type names and initialisers are right, and a name is one thing. -/
structure Agree (e : Env) (c : Ctx) : Prop where
  known : ∀ s, c.known s ↔ e.known s = true
  disjoint : ∀ s, e.known s = true → e.typedef s = false
  typeFirst : ∀ us ty, c.TypeName us ty → ∃ x r, us = x :: r ∧ startsType e x = true
  type : ∀ us ty rest, c.TypeName us ty → e.typeName (us ++ .p .rparen :: rest) = some (ty, .p .rparen :: rest)
  typeSound : ∀ ts ty rest, e.typeName ts = some (ty, .p .rparen :: rest) →
    ∃ us, ts = us ++ .p .rparen :: rest ∧ c.TypeName us ty
  initFirst : ∀ is i, c.Init is i → ∃ r, is = .p .lbrace :: r
  init : ∀ is i rest, c.Init is i → e.initializer (is ++ rest) = some (i, rest)
  initSound : ∀ ts i rest, e.initializer ts = some (i, rest) → ∃ is, ts = is ++ rest ∧ c.Init is i
  arity : ∀ a, c.arity a = e.arity a
  /-- `...` is behind a parameter -/
  ellipsis : ∀ a v, e.arity a = some (0, v) → v = false

/-! ## First tokens -/

def isFirst (e : Env) : Tok → Bool
  | .ident s => !e.typedef s
  | .number _ | .string _ => true
  | .word _ => false
  | .p x => x ∈ [P.lparen, .inc, .dec, .amp, .star, .plus, .minus, .tilde, .bang, .sizeof, .alignof]

/-- The first token of something without prefix operators. -/
def isPlain (e : Env) : Tok → Bool
  | .ident s => !e.typedef s
  | .number _ | .string _ => true
  | .word _ => false
  | .p x => x == .lparen

theorem first {e : Env} {c : Ctx} {d : Dialect} {lv ts t} (A : Agree e c) (h : D c d lv ts t) :
    ∃ x r, ts = x :: r ∧ isFirst e x = true := by
  induction h with
  | ident hk => exact ⟨_, _, rfl, by simp [isFirst, A.disjoint _ ((A.known _).1 hk)]⟩
  | number | string => exact ⟨_, _, rfl, rfl⟩
  | paren | literal | inc | dec | sizeofE | sizeofT | alignofT | cast => exact ⟨_, _, rfl, rfl⟩
  | pre hm =>
    refine ⟨_, _, rfl, ?_⟩
    simp only [prefixOps, List.mem_cons, Prod.mk.injEq, List.not_mem_nil, or_false] at hm
    rcases hm with ⟨rfl, _⟩ | ⟨rfl, _⟩ | ⟨rfl, _⟩ | ⟨rfl, _⟩ | ⟨rfl, _⟩ | ⟨rfl, _⟩ <;> rfl
  | simple _ ih | unary _ ih | castU _ ih | mul _ ih | up _ _ ih | land1 _ ih | lor1 _ ih | cond1 _ ih | assign1 _ ih
  | expr1 _ ih | arg _ ih => exact ih
  | index _ _ ih | call0 _ _ ih | call _ _ _ _ ih | dot _ ih | arrow _ ih | postInc _ ih | postDec _ ih | args _ _ ih
  | mulOp _ _ _ ih | binOp _ _ _ _ ih | land _ _ ih | lor _ _ ih | cond _ _ _ ih | assign _ _ _ ih | expr _ _ ih =>
    obtain ⟨x, r, h, hx⟩ := ih
    exact ⟨x, _, by rw [h]; rfl, hx⟩

theorem plain {e : Env} {c : Ctx} {d : Dialect} {lv ts t} (A : Agree e c) (h : D c d lv ts t) :
    lv = .primary ∨ lv = .postfix → ∃ x r, ts = x :: r ∧ isPlain e x = true ∧ (x = .p .lparen → r ≠ []) := by
  induction h with
  | ident hk => exact fun _ => ⟨_, _, rfl, by simp [isPlain, A.disjoint _ ((A.known _).1 hk)], fun h => by cases h⟩
  | number | string => exact fun _ => ⟨_, _, rfl, rfl, fun h => by cases h⟩
  | paren | literal => exact fun _ => ⟨_, _, rfl, rfl, fun _ => by simp⟩
  | simple _ ih => exact fun _ => ih (.inl rfl)
  | index _ _ ih | call0 _ _ ih | call _ _ _ _ ih | dot _ ih | arrow _ ih | postInc _ ih | postDec _ ih =>
    intro _
    obtain ⟨x, r, h, hx, hr⟩ := ih (.inr rfl)
    exact ⟨x, _, by rw [h]; rfl, hx, fun e => by simp [hr e]⟩
  | _ => intro h; rcases h with h | h <;> cases h

theorem isFirst_not {e : Env} {x : Tok} (h : isFirst e x = true) :
    startsType e x = false ∧ x ≠ .p .rparen ∧ x ≠ .p .lbrace := by
  refine ⟨?_, ?_, ?_⟩
  · cases x <;> simp_all [isFirst, startsType]
  · rintro rfl; simp [isFirst] at h
  · rintro rfl; simp [isFirst] at h

/-! ## What follows -/

/-- How tightly a token binds to what is before it. -/
def rank : P → Nat
  | .lbrack | .lparen | .dot | .arrow | .inc | .dec => 14
  | .star | .slash | .percent => 13
  | .plus | .minus => 12
  | .shl | .shr => 11
  | .lt | .gt | .le | .ge => 10
  | .eq | .ne => 9
  | .amp => 8
  | .caret => 7
  | .bar => 6
  | .andand => 5
  | .oror => 4
  | .quest => 3
  | .assign | .mulA | .divA | .modA | .addA | .subA | .shlA | .shrA | .andA | .xorA | .orA => 2
  | .comma => 1
  | _ => 0

def Stop (k : Nat) (rest : List Tok) : Prop := ∀ x t, rest = .p x :: t → rank x < k

theorem Stop.mono {k m : Nat} {rest} (h : Stop k rest) (hk : k ≤ m) : Stop m rest :=
  fun x t e => Nat.lt_of_lt_of_le (h x t e) hk

theorem Stop.cons {k : Nat} {x : P} {t} (h : rank x < k) : Stop k (.p x :: t) := by
  intro y u e
  cases e
  exact h

theorem infix_binary {x k f} (h : (x, k, f) ∈ infixOps) : k ≤ 7 ∧ rank x = 6 + k ∧ ∃ o, binary k x = some o ∧ f = apply o := by
  simp only [infixOps, List.mem_cons, Prod.mk.injEq, List.not_mem_nil, or_false] at h
  rcases h with ⟨rfl, rfl, rfl⟩ | ⟨rfl, rfl, rfl⟩ | ⟨rfl, rfl, rfl⟩ | ⟨rfl, rfl, rfl⟩ | ⟨rfl, rfl, rfl⟩ | ⟨rfl, rfl, rfl⟩ |
    ⟨rfl, rfl, rfl⟩ | ⟨rfl, rfl, rfl⟩ | ⟨rfl, rfl, rfl⟩ | ⟨rfl, rfl, rfl⟩ | ⟨rfl, rfl, rfl⟩ | ⟨rfl, rfl, rfl⟩ |
    ⟨rfl, rfl, rfl⟩ | ⟨rfl, rfl, rfl⟩ | ⟨rfl, rfl, rfl⟩ | ⟨rfl, rfl, rfl⟩ <;>
    exact ⟨by decide, rfl, _, rfl, rfl⟩

theorem binary_infix {x k o} (h : binary k x = some o) : (x, k, apply o) ∈ infixOps ∧ rank x = 6 + k ∧ k ≤ 7 := by
  unfold binary at h
  split at h <;> first
    | (cases h; done)
    | (cases h; exact ⟨by simp [infixOps]; try rfl, rfl, by decide⟩)

theorem assign_some {x f} (h : (x, f) ∈ assignOps) (a b : Tree) : assignment a b x = some (f a b) ∧ rank x = 2 := by
  simp only [assignOps, List.mem_cons, Prod.mk.injEq, List.not_mem_nil, or_false] at h
  rcases h with ⟨rfl, rfl⟩ | ⟨rfl, rfl⟩ | ⟨rfl, rfl⟩ | ⟨rfl, rfl⟩ | ⟨rfl, rfl⟩ | ⟨rfl, rfl⟩ | ⟨rfl, rfl⟩ | ⟨rfl, rfl⟩ |
    ⟨rfl, rfl⟩ | ⟨rfl, rfl⟩ | ⟨rfl, rfl⟩ <;> exact ⟨rfl, rfl⟩

theorem some_assign {x a b t} (h : assignment a b x = some t) : rank x = 2 ∧ ∃ f, (x, f) ∈ assignOps ∧ t = f a b := by
  unfold assignment at h
  split at h <;> first
    | (cases h; done)
    | (cases h; exact ⟨rfl, .set, by simp [assignOps], rfl⟩)
    | (cases h; exact ⟨rfl, fun a b => .set a (.bin .mul a b), by simp [assignOps], rfl⟩)
    | (cases h; exact ⟨rfl, fun a b => .set a (.bin .div a b), by simp [assignOps], rfl⟩)
    | (cases h; exact ⟨rfl, fun a b => .set a (.bin .mod a b), by simp [assignOps], rfl⟩)
    | (cases h; exact ⟨rfl, fun a b => .set a (.bin .add a b), by simp [assignOps], rfl⟩)
    | (cases h; exact ⟨rfl, fun a b => .set a (.bin .sub a b), by simp [assignOps], rfl⟩)
    | (cases h; exact ⟨rfl, fun a b => .set a (.bin .shl a b), by simp [assignOps], rfl⟩)
    | (cases h; exact ⟨rfl, fun a b => .set a (.bin .shr a b), by simp [assignOps], rfl⟩)
    | (cases h; exact ⟨rfl, fun a b => .set a (.bin .and a b), by simp [assignOps], rfl⟩)
    | (cases h; exact ⟨rfl, fun a b => .set a (.bin .xor a b), by simp [assignOps], rfl⟩)
    | (cases h; exact ⟨rfl, fun a b => .set a (.bin .or a b), by simp [assignOps], rfl⟩)

end Verif.Grammar
