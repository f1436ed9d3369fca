import Verif.Stmt.Lemmas

/-!
# C100: statements are grouped as the grammar of C says

In full: the tokens of a function body are accepted if and only if they are statements by the
grammar of 6.8, and they are read as these statements: every `else` with the nearest `if`, every
body with its loop, every label with its statement.

Proved: statements of the grammar are read as what they are, unless an expression statement
begins with a unary operator (`C100_complete_partial`); what is read is what the grammar has, unless a
declaration is the body of another statement or there is no semicolon in `for`
(`C100_sound_partial`); the tree is the only one (`C100_unique`).  The rest does not hold: `C100_unary_violated`,
`C100_declaration_violated`, `C100_for_violated`.
-/

namespace Verif.Stmt

/-- A statement of the grammar is read as what it is, if no `else` follows that belongs to it. -/
theorem C100_complete_partial (v : Bool) {us rest : List Tok} {t : St} (h : G v .stmt us t)
    (hs : Simple t) (he : Ends t rest) :
    ∃ k, ∀ n, k ≤ n → parse v n .stmt (us ++ rest) = some (t, rest) :=
  complete v h rest hs fun _ => he

/-- A function body is read as what it is. -/
theorem C100_body_partial (v : Bool) {us : List Tok} {t : St}
    (h : G v .stmt (.lbrace :: us) (.block t)) (hs : Simple t) (rest : List Tok) :
    ∃ k, ∀ n, k ≤ n → parse v n .stmt (.lbrace :: us ++ rest) = some (.block t, rest) :=
  complete v h rest hs fun _ h => by cases h

/-- What is read for a statement is a statement of the grammar, and no `else` follows that
belongs to it. -/
theorem C100_sound_partial (v : Bool) {n : Nat} {ts rest : List Tok} {t : St}
    (h : parse v n .stmt ts = some (t, rest)) (hf : ForSemi ts) (hp : Placed t) :
    ∃ us, ts = us ++ rest ∧ G v .stmt us t ∧ Ends t rest := by
  obtain ⟨us, h1, ⟨h2, _⟩, h3⟩ := sound v n .stmt ts t rest h hf
  exact ⟨us, h1, h2 hp, h3 rfl⟩

/-- The grammar gives tokens one tree: that of the nearest `if`. -/
theorem C100_unique (v : Bool) {us : List Tok} {t t' : St} (h : G v .stmt us t)
    (h' : G v .stmt us t') (hs : Simple t) (hs' : Simple t') : t = t' := by
  obtain ⟨k, hk⟩ := complete v h [] hs fun _ _ => by simp
  obtain ⟨k', hk'⟩ := complete v h' [] hs' fun _ _ => by simp
  have := (hk (k + k') (by omega)).symm.trans (hk' (k + k') (by omega))
  simpa using this

theorem ForSemi.nil : ForSemi [] := fun a _ _ _ _ h => by cases a <;> cases h

theorem ForSemi.step {a : Tok} {b : List Tok}
    (h : ∀ e k t y, a :: b = .kFor :: .lpar :: .exp e k :: t :: y → t = .semi) (hb : ForSemi b) :
    ForSemi (a :: b) := by
  intro x e k t y hh
  cases x with
  | nil => exact h e k t y hh
  | cons z x => exact hb x e k t y (List.cons.inj hh).2

/-! ## Examples -/

def c (n : Nat) : Ex := .exp n .ident

/-- `{ int x; if (a) for (x = 0; b; ) if (c) L: ; else return d; do { } while (e); }` -/
def line : List Tok :=
  [.lbrace, .decl 0, .kIf, .lpar, .exp 0 .ident, .rpar, .kFor, .lpar, .exp 1 .ident, .semi, .exp 2 .ident,
   .semi, .rpar, .kIf, .lpar, .exp 3 .ident, .rpar, .word 7, .colon, .semi, .kElse, .kReturn,
   .exp 4 .ident, .semi, .kDo, .lbrace, .rbrace, .kWhile, .lpar, .exp 5 .ident, .rpar, .semi, .rbrace]

def tree : St :=
  .block (.seq (.decl 0)
    (.seq (.ifThen (c 0) (.forS (.ex (c 1)) (some (c 2)) none
      (.ifElse (c 3) (.label 7 .empty) (.ret (some (c 4))))))
    (.seq (.doS (.block .stop) (c 5)) .stop)))

theorem line_tree : G false .stmt line tree :=
  .block (.seqDecl 0
    (.seq (.ifThen (c 0) (.forS (.ex (c 1)) (some (c 2)) none
      (.ifElse (c 3) (.label 7 .empty) rfl (.ret (c 4) rfl))))
    (.seq (.doS (c 5) (.block .stop)) .stop)))

example : ∃ k, ∀ n, k ≤ n → parse false n .stmt (line ++ [.semi]) = some (tree, [.semi]) :=
  C100_complete_partial false line_tree (by simp [tree, Simple]) (fun h => by cases h)

example : parse false 20 .stmt line = some (tree, []) := by decide

example : ∃ us, line = us ++ [] ∧ G false .stmt us tree ∧ Ends tree [] :=
  C100_sound_partial false (n := 20) (by decide)
    (by unfold line; repeat (first | exact ForSemi.nil | refine ForSemi.step (by rintro e k t y ⟨⟩ <;> rfl) ?_))
    (by simp [tree, Placed])

/-! ## Where it is violated -/

/-- `!a || f();` is a statement and is not accepted. -/
theorem C100_unary_violated :
    G true .stmt [.exp 0 .unary, .semi] (.expr (.exp 0 .unary)) ∧
    ∀ n, parse true n .stmt [.exp 0 .unary, .semi] = none :=
  ⟨.expr (.exp 0 .unary), fun n => by cases n <;> simp [parse]⟩

/-- `if (a) int x;` is no statement and is accepted. -/
theorem C100_declaration_violated :
    (∀ t, ¬ G true .stmt [.kIf, .lpar, .exp 0 .ident, .rpar, .decl 1] t) ∧
    parse true 2 .stmt [.kIf, .lpar, .exp 0 .ident, .rpar, .decl 1] =
      some (.ifThen (.exp 0 .ident) (.decl 1), []) := by
  refine ⟨fun t h => ?_, by decide⟩
  have key : ∀ {us t}, G true .stmt us t → us ≠ [.decl 1] := by
    intro us t h e
    have hl : us.head? = some (.decl 1) := by rw [e]; rfl
    clear e
    cases h with
    | expr e => cases e <;> simp [Ex.tok] at hl
    | _ => simp at hl
  have key2 : ∀ {us vs t}, G true .stmt us t → us ++ .kElse :: vs ≠ [.decl 1] := by
    intro us vs t h e
    cases us with
    | nil => cases e
    | cons a us => cases us <;> cases e
  generalize hl : [Tok.kIf, .lpar, .exp 0 .ident, .rpar, .decl 1] = ts at h
  cases h with
  | ifThen e h1 =>
    simp only [List.cons.injEq, true_and] at hl
    exact key h1 hl.2.symm
  | ifElse e h1 h2 h3 =>
    simp only [List.cons.injEq, true_and] at hl
    exact key2 h1 hl.2.symm
  | expr e => cases e <;> simp [Ex.tok] at hl
  | _ => simp at hl

/-- `for (++i) i; ) ;` is accepted, with a parenthesis where the first semicolon should be. -/
theorem C100_for_violated :
    (∀ t, ¬ G true .stmt [.kFor, .lpar, .exp 0 .simple, .rpar, .exp 1 .ident, .semi, .rpar, .semi] t) ∧
    parse true 2 .stmt [.kFor, .lpar, .exp 0 .simple, .rpar, .exp 1 .ident, .semi, .rpar, .semi] =
      some (.forS (.ex (.exp 0 .simple)) (some (.exp 1 .ident)) none .empty, []) := by
  refine ⟨fun t h => ?_, by decide⟩
  generalize hl : [Tok.kFor, .lpar, .exp 0 .simple, .rpar, .exp 1 .ident, .semi, .rpar, .semi] = ts at h
  cases h with
  | forS i c m h =>
    cases i with
    | none => simp [Init.toks] at hl
    | decl d => simp [Init.toks] at hl
    | ex e => simp [Init.toks] at hl
  | expr e => cases e <;> simp [Ex.tok] at hl
  | _ => simp at hl

end Verif.Stmt
