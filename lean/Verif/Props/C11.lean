import Verif.Macro.Lemmas
/-!
# C11, C67, C68: macro expansion

* C11: with object-like macros expansion of any line terminates and
  gives the one result of the replacement rules (each name is replaced, a name met inside its own
  replacement is kept and never replaced again); expanding the result changes nothing.
* C67: with function-like macros this fails: arguments are expanded without knowledge of the macros
  being replaced, so expansion may not terminate.
* C68: `#` and `##`.
-/
namespace Verif.Macro
open Spec

/-! ## Sample definitions -/

def word (n : Nat) : Tok := ⟨.word, n, true, false, 0⟩
def num (n : Nat) : Tok := ⟨.other, n, false, false, 1⟩
def sym (k : Kind) : Tok := ⟨k, 0, false, false, 0⟩
def prm (n : Nat) : Tok := ⟨.param, n, false, false, 0⟩

def env (defs : List Def) : Env where
  lookup n := defs.find? fun d => d.name = n
  paste a b := some ⟨.word, 100 * a.id + b.id, true, false, a.ws⟩
  stringify l := ⟨.other, 1000 + l.length, false, false, 0⟩

/-- A table of object-like macros: each replacement list is made of chains joined by `##` that can be
pasted (a list without `##` is a list of chains of one token). -/
structure ObjectTable (E : Env) (names : List Nat) (cs : Nat → List Chain) : Prop where
  obj : ∀ n d, E.lookup n = some d →
    d.funLike = false ∧ d.params = 0 ∧ d.vararg = false ∧ d.name = n ∧ d.body = (cs n).flatMap Chain.toks
  wf : ∀ n, ∀ c ∈ cs n, Chain.WF [] c
  finite : ∀ n d, E.lookup n = some d → n ∈ names
  pastes : ∀ n d, E.lookup n = some d → (chains E.paste E.stringify (fun _ => []) (cs n)).isSome
  spells : Spells E

/-- Replacement of each macro after its `##` operators, by the specification. -/
def replacement (E : Env) (cs : Nat → List Chain) (n : Nat) : Option (List Tok) :=
  (E.lookup n).bind fun _ => chains E.paste E.stringify (fun _ => []) (cs n)

theorem ObjectTable.objects {E : Env} {names : List Nat} {cs : Nat → List Chain}
    (h : ObjectTable E names cs) : Objects E names (replacement E cs) := by
  refine ⟨fun n d hd => ?_, fun n d hd => ?_, fun n hn => by simp [replacement, hn], h.finite⟩
  · obtain ⟨h1, h2, -, h3, -⟩ := h.obj n d hd
    exact ⟨h1, h2, h3⟩
  · obtain ⟨-, -, h1, -, h2⟩ := h.obj n d hd
    obtain ⟨b, hb⟩ := Option.isSome_iff_exists.1 (h.pastes n d hd)
    refine ⟨b, by simp [replacement, hd, hb], ?_⟩
    rw [stringifyAndPaste_chains h1 h.spells (by simp) (cs n) (h.wf n) h2]
    have : argOf ([] : List (List Tok)) = fun _ => [] := by funext i; simp [argOf]
    rw [this, hb]
    rfl

theorem replacement_none {E : Env} {names : List Nat} {cs : Nat → List Chain}
    (h : ObjectTable E names cs) (n : Nat) (hn : replacement E cs n = none) : E.lookup n = none := by
  cases hd : E.lookup n with
  | none => rfl
  | some d =>
    obtain ⟨b, hb⟩ := Option.isSome_iff_exists.1 (h.pastes n d hd)
    simp [replacement, hd, hb] at hn

theorem env_spells (defs : List Def) : Spells (env defs) :=
  ⟨fun a b c h => by simp [env] at h; subst h; simp, fun l => by simp [env]⟩

/-- `#define A B 7`, `#define B A C ## D` -/
def mutualDefs : List Def :=
  [⟨1, false, 0, false, [word 2, num 7]⟩, ⟨2, false, 0, false, [word 1, word 3, sym .paste, word 4]⟩]

def mutualChains (n : Nat) : List Chain :=
  if n = 1 then [⟨.tok (word 2), []⟩, ⟨.tok (num 7), []⟩]
  else if n = 2 then [⟨.tok (word 1), []⟩, ⟨.tok (word 3), [(sym .paste, .tok (word 4))]⟩]
  else []

theorem mutual_objects : ObjectTable (env mutualDefs) [1, 2] mutualChains := by
  have h : ∀ n d, (env mutualDefs).lookup n = some d → d ∈ mutualDefs ∧ d.name = n := by
    intro n d hd
    change mutualDefs.find? (fun d => d.name = n) = some d at hd
    have := List.find?_some hd
    exact ⟨List.mem_of_find?_eq_some hd, by simpa using this⟩
  have h' : ∀ n d, (env mutualDefs).lookup n = some d →
      n = 1 ∧ d = ⟨1, false, 0, false, [word 2, num 7]⟩ ∨
      n = 2 ∧ d = ⟨2, false, 0, false, [word 1, word 3, sym .paste, word 4]⟩ := by
    intro n d hd
    obtain ⟨h1, h2⟩ := h n d hd
    simp only [mutualDefs, List.mem_cons, List.not_mem_nil, or_false] at h1
    rcases h1 with rfl | rfl
    · exact .inl ⟨h2.symm, rfl⟩
    · exact .inr ⟨h2.symm, rfl⟩
  refine ⟨?_, ?_, ?_, ?_, env_spells _⟩
  · intro n d hd
    rcases h' n d hd with ⟨rfl, rfl⟩ | ⟨rfl, rfl⟩ <;> exact ⟨rfl, rfl, rfl, rfl, rfl⟩
  · intro n c hc
    unfold mutualChains at hc
    split_ifs at hc
    · simp only [List.mem_cons, List.not_mem_nil, or_false] at hc
      rcases hc with rfl | rfl <;>
        exact ⟨⟨by decide, by decide, by decide⟩, by simp, by simp⟩
    · simp only [List.mem_cons, List.not_mem_nil, or_false] at hc
      rcases hc with rfl | rfl
      · exact ⟨⟨by decide, by decide, by decide⟩, by simp, by simp⟩
      · refine ⟨⟨by decide, by decide, by decide⟩, ?_, by simp⟩
        intro m hm
        simp only [List.mem_cons, List.not_mem_nil, or_false] at hm
        subst hm
        exact ⟨rfl, by decide, by decide, by decide⟩
    · simp at hc
  · intro n d hd
    rcases h' n d hd with ⟨rfl, rfl⟩ | ⟨rfl, rfl⟩ <;> decide
  · intro n d hd
    rcases h' n d hd with ⟨rfl, rfl⟩ | ⟨rfl, rfl⟩ <;> decide

/-! ## C11 -/

/-- Expansion of every line terminates, with the only result that the replacement rules allow. -/
theorem C11_object_macros {E : Env} {names : List Nat} {cs : Nat → List Chain}
    (hE : ObjectTable E names cs) (l : List Tok) :
    ∃ out n k0, Exp (replacement E cs) [] l out ∧
      (∀ out', Exp (replacement E cs) [] l out' → out' = out) ∧
      ∀ k, k0 ≤ k → expand E k l = .ok (out, n) := by
  obtain ⟨out, n, k0, h1, h2⟩ := expand_objects hE.objects _ [] (Nat.le_refl _) l
  exact ⟨out, n, k0, h1, fun o h => Exp.unique h h1, h2⟩

/-- `A C` becomes `A CD 7 C`, with the inner `A` marked. -/
example : ObjectTable (env mutualDefs) [1, 2] mutualChains ∧
    expand (env mutualDefs) 20 [word 1, word 3] =
      .ok ([{ word 1 with disabled := true }, word 304, num 7, word 3], 1) :=
  ⟨mutual_objects, by decide⟩

/-- The expanded line has nothing left to replace: expanding it again finds nothing. -/
theorem C11_expansion_complete {E : Env} {names : List Nat} {cs : Nat → List Chain}
    (hE : ObjectTable E names cs) {l out : List Tok}
    {k n : Nat} (h : expand E k l = .ok (out, n)) :
    ∀ k', out.length < k' → expand E k' out = .ok (out, 0) := by
  obtain ⟨out', n', k0, h1, -, h2⟩ := C11_object_macros hE l
  have hm : ∀ (j : Nat), expand E k l = .ok (out, n) → expand E (k + j) l = .ok (out, n) :=
    fun j h => (expand_mono E k j).2 [] l _ h
  have e1 := hm k0 h
  rw [h2 _ (by omega)] at e1
  simp only [Res.ok.injEq, Prod.mk.injEq] at e1
  obtain ⟨rfl, -⟩ := e1
  intro k' hk
  exact expandLine_inert (replacement_none hE) _ _ hk (Exp.complete h1)

example : ∃ out, expand (env mutualDefs) 20 [word 1, word 3] = .ok (out, 1) ∧ out ≠ [] :=
  ⟨_, rfl, by decide⟩

/-! ## C67 -/

/-- `#define f(x) x`, `#define g f(h)`, `#define h f(g)` -/
def loopDefs : List Def :=
  [⟨0, true, 1, false, [prm 0]⟩,
   ⟨1, false, 0, false, [word 0, sym .lpar, word 2, sym .rpar]⟩,
   ⟨2, false, 0, false, [word 0, sym .lpar, word 1, sym .rpar]⟩]

theorem loop_round (k : Nat) :
    (expandLine (env loopDefs) k [] [word 2] = .fuel → expandLine (env loopDefs) (k + 4) [] [word 1] = .fuel) ∧
    (expandLine (env loopDefs) k [] [word 1] = .fuel → expandLine (env loopDefs) (k + 4) [] [word 2] = .fuel) := by
  have l0 : (env loopDefs).lookup 0 = some ⟨0, true, 1, false, [prm 0]⟩ := rfl
  have l1 : (env loopDefs).lookup 1 = some ⟨1, false, 0, false, [word 0, sym .lpar, word 2, sym .rpar]⟩ := rfl
  have l2 : (env loopDefs).lookup 2 = some ⟨2, false, 0, false, [word 0, sym .lpar, word 1, sym .rpar]⟩ := rfl
  constructor <;> intro h
  · simp [expandLine, expandMacro, word, l0, l1, readArgs, readNamed, readArg, Res.bind, stringifyAndPaste,
      pasteLoop, sym, prm, expandArgs]
    simp only [word] at h
    rw [h]
  · simp [expandLine, expandMacro, word, l0, l2, readArgs, readNamed, readArg, Res.bind, stringifyAndPaste,
      pasteLoop, sym, prm, expandArgs]
    simp only [word] at h
    rw [h]

/-- Expansion does not terminate: no recursion depth suffices.  By C99 6.10.3.4 the result is `g`. -/
theorem C67_function_macros_violated :
    ∀ k, expand (env loopDefs) k [word 1] = .fuel := by
  have : ∀ k, expandLine (env loopDefs) k [] [word 1] = .fuel ∧
      expandLine (env loopDefs) k [] [word 2] = .fuel := by
    intro k
    induction k using Nat.strongRecOn with
    | _ k ih =>
      by_cases hk : k < 4
      · have : k = 0 ∨ k = 1 ∨ k = 2 ∨ k = 3 := by omega
        rcases this with rfl | rfl | rfl | rfl <;> exact ⟨by decide, by decide⟩
      · obtain ⟨k, rfl⟩ : ∃ j, k = j + 4 := ⟨k - 4, by omega⟩
        obtain ⟨h1, h2⟩ := ih k (by omega)
        exact ⟨(loop_round k).1 h2, (loop_round k).2 h1⟩
  exact fun k => (this k).1

/-- `#define g f (1` with `g )`: the argument is not read beyond the replacement, but the array
holding the replacement is read beyond its end. -/
theorem C67_argument_beyond_body_violated :
    ∀ k, 3 ≤ k → expand (env [⟨0, true, 1, false, [prm 0]⟩, ⟨1, false, 0, false, [word 0, sym .lpar, num 1]⟩]) k
      [word 1, sym .rpar] = .ub := by
  intro k hk
  obtain ⟨k, rfl⟩ : ∃ j, k = j + 3 := ⟨k - 3, by omega⟩
  rfl

/-- What does hold for all macros: when expansion succeeds, every name of a macro being replaced
(`S`) is marked in the result, so that it is never replaced again.  Missing: termination, and
arguments, where `S` starts empty. -/
theorem C67_painted_partial (E : Env) (k : Nat) (S : List Nat) (l out : List Tok) (n : Nat)
    (h : expandLine E k S l = .ok (out, n)) :
    ∀ t ∈ out, t.expandable = true → (E.lookup t.id).isSome = true → t.id ∈ S → t.disabled = true :=
  (painted E k).2 S l out n h

/-- `#define f(x) f(x) g` while `g` is being replaced. -/
example : ∃ out n, expandLine (env [⟨0, true, 1, false, [word 0, sym .lpar, prm 0, sym .rpar, word 1]⟩,
    ⟨1, false, 0, false, [num 3]⟩]) 20 [1] [word 0, sym .lpar, num 4, sym .rpar] = .ok (out, n) ∧
    { word 1 with disabled := true } ∈ out ∧ n = 1 := ⟨_, _, rfl, by decide, by decide⟩

/-! Arguments (6.10.3p10-11). -/

/-- The tokens of an argument: parentheses are balanced; outside parentheses there is a comma only if `c`. -/
inductive Arg : Bool → List Tok → Prop
  | nil {c : Bool} : Arg c []
  | tok {c : Bool} {t : Tok} {r : List Tok} : t.kind ≠ .lpar → t.kind ≠ .rpar → t.kind ≠ .newline → (t.kind = .comma → c = true) →
      Arg c r → Arg c (t :: r)
  | paren {c : Bool} {o e : Tok} {l r : List Tok} : o.kind = .lpar → e.kind = .rpar → Arg true l → Arg c r → Arg c (o :: (l ++ e :: r))

/-- Names of macros being replaced are not replaced again. -/
def painted1 (scope : List Nat) (t : Tok) : Tok := if t.expandable && t.id ∈ scope then { t with disabled := true } else t

/-- Arguments separated by commas, before what follows. -/
def joined : List (List Tok) → List Tok → List Tok
  | [], tl => tl
  | [a], tl => a ++ tl
  | a :: as, tl => a ++ sym .comma :: joined as tl

theorem readArg_arg (scope : List Nat) {c : Bool} {l : List Tok} (h : Arg c l) : ∀ (va : Bool) (n : Nat) (tl : List Tok),
    (n ≠ 0 ∨ (c = true → va = true)) →
    readArg scope va n (l ++ tl) = (readArg scope va n tl).bind fun p => .ok (l.map (painted1 scope) ++ p.1, p.2) := by
  induction h with
  | nil =>
    intro va n tl _
    simp only [List.nil_append, List.map_nil]
    cases readArg scope va n tl <;> rfl
  | @tok _ t _ h1 h2 h3 h4 _ ih =>
    intro va n tl hc
    simp only [List.cons_append, readArg]
    rw [if_pos (by
      rcases hc with hc | hc
      · exact Or.inl hc
      · refine Or.inr ⟨?_, h2⟩
        by_cases hk : t.kind = .comma
        · exact Or.inr (hc (h4 hk))
        · exact Or.inl hk), if_neg h3, if_neg h1, if_neg h2, ih va n tl hc]
    cases readArg scope va n tl <;> simp [Res.bind, painted1]
  | @paren c o e l r ho he _ _ ih1 ih2 =>
    intro va n tl hc
    have e1 : o :: (l ++ e :: r) ++ tl = o :: (l ++ (e :: (r ++ tl))) := by simp
    rw [e1]
    simp only [readArg]
    rw [if_pos (by simp [ho]), if_neg (by simp [ho]), if_pos ho, ih1 va (n + 1) _ (Or.inl (by omega))]
    simp only [readArg]
    rw [if_pos (Or.inl (by omega)), if_neg (by simp [he]), if_neg (by simp [he]), if_pos he, Nat.add_sub_cancel, ih2 va n tl hc]
    cases readArg scope va n tl <;> simp [Res.bind, painted1]

theorem readArg_end (scope : List Nat) {c : Bool} {l : List Tok} (h : Arg c l) (t : Tok) (tl : List Tok)
    (ht : t.kind = .rpar ∨ (t.kind = .comma ∧ c = false)) : readArg scope c 0 (l ++ t :: tl) = .ok (l.map (painted1 scope), t :: tl) := by
  rw [readArg_arg scope h c 0 _ (Or.inr id)]
  simp only [readArg]
  rw [if_neg (by rcases ht with h | ⟨h, h'⟩ <;> simp [h, *])]
  simp [Res.bind]

theorem readNamed_ok (scope : List Nat) (d : Def) (tl : List Tok) : ∀ (as : List (List Tok)) (i : Nat), as ≠ [] →
    (∀ a ∈ as, Arg false a) → i + as.length = d.params →
    readNamed scope d as.length i (joined as (sym .rpar :: tl)) = .ok (as.map (·.map (painted1 scope)), sym .rpar :: tl, d.vararg)
  | [], _, h, _, _ => absurd rfl h
  | [a], i, _, ha, hi => by
    have := readArg_end scope (ha a (by simp)) (sym .rpar) tl (Or.inl rfl)
    simp only [List.length_cons, List.length_nil, readNamed, joined, this, Res.bind]
    have : i + 1 = d.params := by simpa using hi
    rw [if_pos (by simp [sym]), if_pos this]
    rfl
  | a :: a' :: as, i, _, ha, hi => by
    have h1 := readArg_end scope (ha a (by simp)) (sym .comma) (joined (a' :: as) (sym .rpar :: tl)) (Or.inr ⟨rfl, rfl⟩)
    have ih := readNamed_ok scope d tl (a' :: as) (i + 1) (by simp) (fun x hx => ha x (by simp [hx])) (by simp at hi ⊢; omega)
    rw [show joined (a :: a' :: as) (sym .rpar :: tl) = a ++ sym .comma :: joined (a' :: as) (sym .rpar :: tl) from rfl]
    rw [show (a :: a' :: as).length = (a' :: as).length + 1 from rfl]
    rw [readNamed, h1]
    simp only [Res.bind]
    rw [if_neg (by simp [sym]), ih]
    rfl

/-- The arguments of an invocation are the token sequences between the outermost parentheses, separated by the commas that are
not inside inner parentheses, for macros without `...`. -/
theorem C67_arguments_partial (scope : List Nat) (d : Def) (as : List (List Tok)) (tl : List Tok) (hd : d.funLike = true)
    (hv : d.vararg = false) (hn : as.length = d.params) (h0 : as ≠ []) (ha : ∀ a ∈ as, Arg false a) :
    readArgs scope d (sym .lpar :: joined as (sym .rpar :: tl)) = .ok (as.map (·.map (painted1 scope)), tl) := by
  have hp : d.params ≠ 0 := by rw [← hn]; simpa using h0
  have h := readNamed_ok scope d tl as 0 h0 ha (by simpa using hn)
  simp only [readArgs, hd, if_true]
  rw [if_neg (by simp [sym]), if_neg hp]
  simp only [hv, Bool.false_eq_true, if_false, Nat.sub_zero]
  rw [← hn, h]
  simp [Res.bind, hv, sym]

/-- `f((1,x),g(2))` has two arguments. -/
example : readArgs [] ⟨0, true, 2, false, []⟩ ([sym .lpar, sym .lpar, num 1, sym .comma, word 5, sym .rpar, sym .comma, word 6, sym .lpar,
    num 2, sym .rpar, sym .rpar, num 9]) = .ok ([[sym .lpar, num 1, sym .comma, word 5, sym .rpar], [word 6, sym .lpar, num 2, sym .rpar]], [num 9]) ∧
    Arg false [sym .lpar, num 1, sym .comma, word 5, sym .rpar] ∧ Arg false [word 6, sym .lpar, num 2, sym .rpar] := by
  refine ⟨rfl, ?_, ?_⟩
  · exact .paren (l := [num 1, sym .comma, word 5]) rfl rfl
      (.tok (by decide) (by decide) (by decide) (by simp) (.tok (by decide) (by decide) (by decide) (by simp)
        (.tok (by decide) (by decide) (by decide) (by simp) .nil))) .nil
  · exact .tok (by decide) (by decide) (by decide) (by decide) (.paren (l := [num 2]) rfl rfl
      (.tok (by decide) (by decide) (by decide) (by simp) .nil) .nil)

/-! ## C68 -/

/-- The operators `#` and `##`: for replacement lists made of chains of operands joined by `##`, the
result is that of the specification (an empty argument is a placemarker), diagnosed exactly when a
pasting yields no token.  Missing: the variable argument; `#` as right operand of `##`; chains with two
or more `##` whose first operand is an empty argument. -/
theorem C68_paste_and_stringify_partial {E : Env} {d : Def} {args : List (List Tok)}
    (hv : d.vararg = false) (hE : Spells E) (ha : ∀ a ∈ args, NoParam a) (cs : List Chain)
    (hc : ∀ c ∈ cs, Chain.WF args c) (hb : d.body = cs.flatMap Chain.toks) :
    stringifyAndPaste E d args =
      match chains E.paste E.stringify (fun i => (args[i]?).getD []) cs with
      | some out => .ok out
      | none => .err := by
  rw [stringifyAndPaste_chains hv hE ha cs hc hb]
  rfl

/-- `#define m(x, y) x ## y # x` -/
def sampleChains : List Chain :=
  [⟨.param (prm 0), [(sym .paste, .param (prm 1))]⟩, ⟨.str (sym .hash) (prm 0), []⟩]

example : Spells (env []) ∧ (∀ c ∈ sampleChains, Chain.WF [[word 1], [word 2, word 3]] c) ∧
    stringifyAndPaste (env []) ⟨9, true, 2, false, sampleChains.flatMap Chain.toks⟩
      [[word 1], [word 2, word 3]] = .ok [word 102, word 3, ⟨.other, 1001, false, false, 0⟩] := by
  refine ⟨⟨?_, ?_⟩, ?_, by decide⟩
  · intro a b c h; simp [env] at h; subst h; simp
  · intro l; simp [env]
  · intro c hc
    simp only [sampleChains, List.mem_cons, List.not_mem_nil, or_false] at hc
    rcases hc with rfl | rfl
    · refine ⟨⟨rfl, by decide⟩, ?_, by simp⟩
      intro m hm
      simp only [List.mem_cons, List.not_mem_nil, or_false] at hm
      subst hm
      exact ⟨rfl, rfl, by decide⟩
    · exact ⟨⟨rfl, rfl, by decide⟩, by simp, by simp⟩

/-- `x ## y ## z` with `x` and `y` empty: the last token before the first one is read. -/
def threeChain : Chain :=
  ⟨.param (prm 0), [(sym .paste, .param (prm 1)), (sym .paste, .param (prm 2))]⟩

theorem C68_two_placemarkers_violated :
    stringifyAndPaste (env []) ⟨9, true, 3, false, threeChain.toks⟩ [[], [], [word 5]] = .ub ∧
    chains (env []).paste (env []).stringify (fun i => (([[], [], [word 5]] : List (List Tok))[i]?).getD [])
      [threeChain] = some [word 5] := by decide

/-- `a x ## y ## z` with `x` and `y` empty: `z` is pasted to `a`, which is no operand. -/
theorem C68_pasted_to_neighbour_violated :
    stringifyAndPaste (env []) ⟨9, true, 3, false, word 4 :: threeChain.toks⟩ [[], [], [word 5]] =
      .ok [word 405] ∧
    chains (env []).paste (env []).stringify (fun i => (([[], [], [word 5]] : List (List Tok))[i]?).getD [])
      [⟨.tok (word 4), []⟩, threeChain] = some [word 4, word 5] := by decide

/-- `#define m a ##`: `##` at the end is diagnosed only in longer replacement lists; here the token
after the last is read. -/
theorem C68_final_paste_violated :
    stringifyAndPaste (env []) ⟨9, false, 0, false, [word 4, sym .paste]⟩ [] = .ub ∧
    stringifyAndPaste (env []) ⟨9, false, 0, false, [word 3, word 4, sym .paste]⟩ [] = .err := by decide

/-- `x ## #y`: the `#` itself is the operand, not the string made from `y`. -/
theorem C68_paste_string_violated :
    stringifyAndPaste (env []) ⟨9, true, 2, false, [prm 0, sym .paste, sym .hash, prm 1]⟩ [[word 3], [word 5]] =
      .ok [word 300, prm 1] ∧
    chains (env []).paste (env []).stringify (fun i => (([[word 3], [word 5]] : List (List Tok))[i]?).getD [])
      [⟨.param (prm 0), [(sym .paste, .str (sym .hash) (prm 1))]⟩] = some [word (300 + 1001)] := by decide

/-- `#define HASH #` is a valid object-like macro (C99 6.10.3.2 restricts `#` in function-like macros
only); its use is rejected. -/
theorem C68_hash_body_violated :
    ∃ E l, (∀ k, 2 ≤ k → expand E k l = .err) ∧
      E.lookup 1 = some ⟨1, false, 0, false, [sym .hash]⟩ ∧ l = [word 1] := by
  refine ⟨env [⟨1, false, 0, false, [sym .hash]⟩], _, ?_, rfl, rfl⟩
  intro k hk
  obtain ⟨k, rfl⟩ : ∃ j, k = j + 2 := ⟨k - 2, by omega⟩
  rfl

end Verif.Macro
