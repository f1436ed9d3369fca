import Verif.Define.Model

/-!
# Definitions of macros in C

C99 6.10.3: the syntax of `#define` (p1, p9 and p10) with what is required of parameters (p4 to p6), and when a macro can be defined again (p1 and p2).
-/

namespace Verif.Define

/-- A definition: parameters and whether `...` follows, if it is like a function. -/
structure Def where
  name : Bytes
  params : Option (List Bytes × Bool)
  body : List T

def isVaArgs (b : Bytes) : Prop := b = str% "__VA_ARGS__"

instance (b) : Decidable (isVaArgs b) := inferInstanceAs (Decidable (_ = _))

/-- identifier-list -/
inductive Ids : List T → List Bytes → Prop
  | one {t : T} : t.kind = .word → Ids [t] [t.text]
  | more {t c : T} {ts ns} : t.kind = .word → c.kind = .comma → Ids ts ns →
      Ids (t :: c :: ts) (t.text :: ns)

/-- What can be between the parentheses. -/
inductive Params : List T → List Bytes × Bool → Prop
  | none : Params [] ([], false)
  | dots {d : T} : d.kind = .dots → Params [d] ([], true)
  | ids {ts ns} : Ids ts ns → Params ts (ns, false)
  | both {ts ns} {c d : T} : Ids ts ns → c.kind = .comma → d.kind = .dots →
      Params (ts ++ [c, d]) (ns, true)

/-- The line behind `#define` for a definition. -/
inductive Written : List T → Def → Prop
  | object {n nl : T} {body} : n.kind = .word → nl.kind = .newline →
      (∀ t ∈ body, t.kind ≠ .newline) →
      (∀ t, body.head? = some t → t.kind = .lparen → t.space = true) →
      Written (n :: (body ++ [nl])) ⟨n.text, none, body⟩
  | function {n lp rp nl : T} {ps names v body} : n.kind = .word → lp.kind = .lparen →
      lp.space = false → Params ps (names, v) → rp.kind = .rparen → nl.kind = .newline →
      (∀ t ∈ body, t.kind ≠ .newline) → names.Nodup → (∀ b ∈ names, ¬ isVaArgs b) →
      Written (n :: lp :: (ps ++ rp :: (body ++ [nl]))) ⟨n.text, some (names, v), body⟩

/-- Lists of parameters as in C, with a comma at the end, or with `...` directly behind a name. -/
inductive Loose : List T → List Bytes × Bool → Prop
  | params {ts p} : Params ts p → Loose ts p
  | comma {ts ns} {c : T} : Ids ts ns → c.kind = .comma → Loose (ts ++ [c]) (ns, false)
  | named {ts ns} {d : T} : Ids ts ns → d.kind = .dots → Loose (ts ++ [d]) (ns, true)

/-- A definition, up to the restrictions on parameters. -/
inductive LooselyWritten : List T → Def → Prop
  | object {n nl : T} {body} : n.kind = .word → nl.kind = .newline →
      (∀ t ∈ body, t.kind ≠ .newline) →
      (∀ t, body.head? = some t → t.kind = .lparen → t.space = true) →
      LooselyWritten (n :: (body ++ [nl])) ⟨n.text, none, body⟩
  | function {n lp rp nl : T} {ps p body} : n.kind = .word → lp.kind = .lparen →
      lp.space = false → Loose ps p → rp.kind = .rparen → nl.kind = .newline →
      (∀ t ∈ body, t.kind ≠ .newline) →
      LooselyWritten (n :: lp :: (ps ++ rp :: (body ++ [nl]))) ⟨n.text, some p, body⟩

def Def.variadic (d : Def) : Bool := d.params.any (·.2)

/-- Names that stand for arguments, in their order. -/
def Def.args (d : Def) : List Bytes :=
  match d.params with
  | none => []
  | some (ns, v) => ns ++ if v then [str% "__VA_ARGS__"] else []

/-- What a token in the replacement list stands for: an argument or itself. -/
def Def.item (d : Def) (t : T) : (K × Bytes) ⊕ Nat :=
  if t.kind = .word ∧ t.text ∈ d.args then .inr (d.args.idxOf t.text) else .inl (t.kind, t.text)

/-- What a definition is good for: if it is like a function, of how many parameters,
whether it takes more arguments, and what is put in its place, apart from white space. -/
structure Use where
  func : Bool
  params : Nat
  body : List ((K × Bytes) ⊕ Nat)
  deriving DecidableEq

def Def.use (d : Def) : Use := ⟨d.params.isSome, d.args.length, d.body.map d.item⟩

/-- 6.10.3 p1 and p2: definitions that are the same. -/
def Same (d d' : Def) : Prop :=
  d.name = d'.name ∧ d.params = d'.params ∧
    d.body.map (fun t => (t.kind, t.text)) = d'.body.map (fun t => (t.kind, t.text)) ∧
    d.body.tail.map (·.space) = d'.body.tail.map (·.space)

/-- Directives with the definitions that are written. -/
inductive SDir
  | define (d : Def)
  | undef (name : Bytes)

inductive WrittenDir : Dir → SDir → Prop
  | define {line d} : Written line d → WrittenDir (.define line) (.define d)
  | undef (n) : WrittenDir (.undef n) (.undef n)

/-- The definition a name has after the directives, the last of them first: that of the last
`#define`, if there is no `#undef` behind it. -/
def inForce (name : Bytes) : List SDir → Option Def
  | [] => none
  | .define d :: earlier => if d.name = name then some d else inForce name earlier
  | .undef n :: earlier => if n = name then none else inForce name earlier

end Verif.Define
