import Verif.Tac
import Verif.Macro.Spec
/-! # Macro expansion: object-like macros, painting, pasting -/
namespace Verif.Macro
open Spec

/-- All macros are object-like and there are finitely many; `T` gives the replacement of each after
its `##` operators. -/
structure Objects (E : Env) (names : List Nat) (T : Nat → Option (List Tok)) : Prop where
  obj : ∀ n d, E.lookup n = some d → d.funLike = false ∧ d.params = 0 ∧ d.name = n
  body : ∀ n d, E.lookup n = some d → ∃ b, T n = some b ∧ stringifyAndPaste E d [] = .ok b
  none : ∀ n, E.lookup n = none → T n = none
  finite : ∀ n d, E.lookup n = some d → n ∈ names

theorem pasteLoop_plain (E : Env) (d : Def) (args : List (List Tok)) (l : List Tok) :
    ∀ acc, (∀ t ∈ l, t.kind ≠ .hash ∧ t.kind ≠ .paste) → pasteLoop E d args acc l = .ok (acc ++ l) := by
  induction l with
  | nil => intro acc _; simp [pasteLoop]
  | cons t r ih =>
    intro acc h
    have ht := h t (by simp)
    unfold pasteLoop
    rw [if_neg ht.2, if_neg ht.1, ih _ (fun t ht => h t (by simp [ht]))]
    simp

theorem stringifyAndPaste_plain (E : Env) (d : Def) (args : List (List Tok))
    (h : ∀ t ∈ d.body, t.kind ≠ .hash ∧ t.kind ≠ .paste) : stringifyAndPaste E d args = .ok d.body := by
  unfold stringifyAndPaste
  rw [if_neg, if_neg, pasteLoop_plain E d args _ _ h]
  · simp
  · simp only [Bool.and_eq_true, decide_eq_true_eq, not_and]
    intro _ hl
    rw [Option.map_eq_some_iff] at hl
    obtain ⟨t, ht, hk⟩ := hl
    exact (h t (List.mem_of_getLast? ht)).2 hk
  · intro hl
    rw [Option.map_eq_some_iff] at hl
    obtain ⟨t, ht, hk⟩ := hl
    exact (h t (List.mem_of_head? ht)).2 hk

theorem setWs_eq (t : Tok) (l : List Tok) : setWs t.ws l = spacedAs t l := by cases l <;> rfl

/-- Names whose macro is not being replaced. -/
def unused (names S : List Nat) : Nat := (names.filter (fun n => n ∉ S)).length

theorem unused_lt {names S : List Nat} {n : Nat} (h1 : n ∈ names) (h2 : n ∉ S) :
    unused names (n :: S) < unused names S := by
  unfold unused
  have : names.filter (fun m => decide (m ∉ n :: S)) =
      (names.filter (fun m => decide (m ∉ S))).filter (fun m => decide (m ≠ n)) := by
    rw [List.filter_filter]
    congr 1
    funext m
    simp [List.mem_cons, not_or, Bool.and_comm]
  rw [this]
  apply List.length_filter_lt_length_iff_exists.2
  exact ⟨n, by simp [h1, h2], by simp⟩

theorem expand_objects {E : Env} {names : List Nat} {T : Nat → Option (List Tok)} (hE : Objects E names T) :
    ∀ (u : Nat) (S : List Nat), unused names S ≤ u → ∀ l, ∃ out c k0, Exp T S l out ∧
      ∀ k ≥ k0, expandLine E k S l = .ok (out, c) := by
  intro u
  induction u with
  | zero =>
    intro S hS l
    induction l with
    | nil => exact ⟨[], 0, 1, .nil, fun k hk => by
        obtain ⟨k, rfl⟩ : ∃ j, k = j + 1 := ⟨k - 1, by omega⟩
        simp [expandLine]⟩
    | cons t r ih =>
      obtain ⟨out, c, k0, e1, e2⟩ := ih
      by_cases hi : t.expandable = false ∨ t.disabled = true
      · refine ⟨t :: out, c, k0 + 1, .keep (by rcases hi with h | h <;> simp [Inert, h]) e1, fun k hk => ?_⟩
        obtain ⟨k, rfl⟩ : ∃ j, k = j + 1 := ⟨k - 1, by omega⟩
        rw [expandLine, if_pos (by rcases hi with h | h <;> simp [h]), e2 k (by omega)]
        rfl
      · simp only [not_or, Bool.not_eq_false, Bool.not_eq_true] at hi
        cases hd : E.lookup t.id with
        | none =>
          refine ⟨t :: out, c, k0 + 1, .keep (by simp [Inert, hE.none _ hd]) e1, fun k hk => ?_⟩
          obtain ⟨k, rfl⟩ : ∃ j, k = j + 1 := ⟨k - 1, by omega⟩
          rw [expandLine, if_neg (by simp [hi])]
          simp only [hd]
          rw [e2 k (by omega)]
          rfl
        | some d =>
          obtain ⟨b, hb, hp⟩ := hE.body _ _ hd
          have hin : ¬ Inert T t := by simp [Inert, hb, hi]
          by_cases hS' : t.id ∈ S
          · refine ⟨{ t with disabled := true } :: out, c, k0 + 1, .paint hin hS' e1, fun k hk => ?_⟩
            obtain ⟨k, rfl⟩ : ∃ j, k = j + 1 := ⟨k - 1, by omega⟩
            rw [expandLine, if_neg (by simp [hi])]
            simp only [hd, if_pos hS']
            rw [e2 k (by omega)]
            rfl
          · have := unused_lt (hE.finite _ _ hd) hS'
            omega
  | succ u ihu =>
    intro S hS l
    induction l with
    | nil => exact ⟨[], 0, 1, .nil, fun k hk => by
        obtain ⟨k, rfl⟩ : ∃ j, k = j + 1 := ⟨k - 1, by omega⟩
        simp [expandLine]⟩
    | cons t r ih =>
      obtain ⟨out, c, k0, e1, e2⟩ := ih
      by_cases hi : t.expandable = false ∨ t.disabled = true
      · refine ⟨t :: out, c, k0 + 1, .keep (by rcases hi with h | h <;> simp [Inert, h]) e1, fun k hk => ?_⟩
        obtain ⟨k, rfl⟩ : ∃ j, k = j + 1 := ⟨k - 1, by omega⟩
        rw [expandLine, if_pos (by rcases hi with h | h <;> simp [h]), e2 k (by omega)]
        rfl
      · simp only [not_or, Bool.not_eq_false, Bool.not_eq_true] at hi
        cases hd : E.lookup t.id with
        | none =>
          refine ⟨t :: out, c, k0 + 1, .keep (by simp [Inert, hE.none _ hd]) e1, fun k hk => ?_⟩
          obtain ⟨k, rfl⟩ : ∃ j, k = j + 1 := ⟨k - 1, by omega⟩
          rw [expandLine, if_neg (by simp [hi])]
          simp only [hd]
          rw [e2 k (by omega)]
          rfl
        | some d =>
          obtain ⟨b, hb, hp⟩ := hE.body _ _ hd
          have hin : ¬ Inert T t := by simp [Inert, hb, hi]
          by_cases hS' : t.id ∈ S
          · refine ⟨{ t with disabled := true } :: out, c, k0 + 1, .paint hin hS' e1, fun k hk => ?_⟩
            obtain ⟨k, rfl⟩ : ∃ j, k = j + 1 := ⟨k - 1, by omega⟩
            rw [expandLine, if_neg (by simp [hi])]
            simp only [hd, if_pos hS']
            rw [e2 k (by omega)]
            rfl
          · obtain ⟨o1, o2, o3⟩ := hE.obj _ _ hd
            have hlt := unused_lt (hE.finite _ _ hd) hS'
            obtain ⟨new, c1, k1, f1, f2⟩ := ihu (t.id :: S) (by omega) b
            refine ⟨spacedAs t new ++ out, c + 1, k0 + k1 + 2,
              .replace hin hS' hb f1 e1, fun k hk => ?_⟩
            obtain ⟨k, rfl⟩ : ∃ j, k = j + 2 := ⟨k - 2, by omega⟩
            rw [expandLine, if_neg (by simp [hi])]
            simp only [hd, if_neg hS', o1]
            rw [if_neg (by simp)]
            unfold readArgs
            rw [if_neg (by simp [o1])]
            simp only [Res.bind]
            rw [expandMacro, hp]
            simp only [Res.bind]
            rw [if_neg (by omega), o3]
            simp only [Res.bind]
            rw [f2 k (by omega), e2 (k + 1) (by omega)]
            simp only [Res.bind]
            rw [setWs_eq]

/-- The specification has at most one result. -/
theorem Exp.unique {T : Nat → Option (List Tok)} {S : List Nat} {l a b : List Tok}
    (h1 : Exp T S l a) (h2 : Exp T S l b) : a = b := by
  induction h1 generalizing b with
  | nil => cases h2; rfl
  | keep hi _ ih =>
    cases h2 with
    | keep _ h => rw [ih h]
    | paint h _ _ => exact absurd hi h
    | replace h _ _ _ _ => exact absurd hi h
  | paint hi hm _ ih =>
    cases h2 with
    | keep h _ => exact absurd h hi
    | paint _ _ h => rw [ih h]
    | replace _ h _ _ _ => exact absurd hm h
  | replace hi hm hb _ _ ih1 ih2 =>
    cases h2 with
    | keep h _ => exact absurd h hi
    | paint _ h _ => exact absurd h hm
    | replace _ _ hb' h h' =>
      rw [hb] at hb'
      simp only [Option.some.injEq] at hb'
      subst hb'
      rw [ih1 h, ih2 h']

theorem Inert.ws {T : Nat → Option (List Tok)} {t : Tok} {w : Nat} (h : Inert T t) :
    Inert T { t with ws := w } := h

/-- Nothing that could be replaced is left. -/
theorem Exp.complete {T : Nat → Option (List Tok)} {S : List Nat} {l a : List Tok}
    (h : Exp T S l a) : ∀ t ∈ a, Inert T t := by
  induction h with
  | nil => simp
  | keep hi _ ih =>
    intro t ht
    simp only [List.mem_cons] at ht
    rcases ht with rfl | ht
    · exact hi
    · exact ih t ht
  | paint hi hm _ ih =>
    intro t ht
    simp only [List.mem_cons] at ht
    rcases ht with rfl | ht
    · exact .inr (.inl rfl)
    · exact ih t ht
  | @replace S t l out body new hi hm hb h1 h2 ih1 ih2 =>
    intro x hx
    rw [List.mem_append] at hx
    rcases hx with hx | hx
    · cases new with
      | nil => simp [spacedAs] at hx
      | cons y r =>
        simp only [spacedAs, List.mem_cons] at hx
        rcases hx with rfl | hx
        · exact Inert.ws (ih1 y (by simp))
        · exact ih1 x (by simp [hx])
    · exact ih2 x hx

theorem Exp.refl {T : Nat → Option (List Tok)} {S : List Nat} {l : List Tok} (h : ∀ t ∈ l, Inert T t) :
    Exp T S l l := by
  induction l with
  | nil => exact .nil
  | cons t r ih => exact .keep (h t (by simp)) (ih fun x hx => h x (by simp [hx]))

/-- A line without anything to replace is left alone. -/
theorem expandLine_inert {E : Env} {T : Nat → Option (List Tok)} (hT : ∀ n, T n = none → E.lookup n = none)
    {S : List Nat} :
    ∀ (l : List Tok) (k : Nat), l.length < k → (∀ t ∈ l, Inert T t) →
      expandLine E k S l = .ok (l, 0) := by
  intro l
  induction l with
  | nil =>
    intro k hk _
    obtain ⟨k, rfl⟩ : ∃ j, k = j + 1 := ⟨k - 1, by simp at hk; omega⟩
    rw [expandLine]
  | cons t r ih =>
    intro k hk h
    obtain ⟨k, rfl⟩ : ∃ j, k = j + 1 := ⟨k - 1, by simp at hk; omega⟩
    have hr := ih k (by simp at hk; omega) (fun x hx => h x (by simp [hx]))
    rw [expandLine, hr]
    have ht := h t (by simp)
    by_cases h1 : (!t.expandable || t.disabled) = true
    · rw [if_pos h1]; rfl
    · rw [if_neg h1]
      have : E.lookup t.id = none := by
        rcases ht with h2 | h2 | h2
        · simp [h2] at h1
        · simp [h2] at h1
        · exact hT _ h2
      rw [this]
      rfl

/-! ## Painting, for all macros -/

theorem setWs_mem {w : Nat} {l : List Tok} {t : Tok} (h : t ∈ setWs w l) :
    ∃ x ∈ l, t = { x with ws := w } ∨ t = x := by
  cases l with
  | nil => simp [setWs] at h
  | cons y r =>
    simp only [setWs, List.mem_cons] at h
    rcases h with rfl | h
    · exact ⟨y, by simp, .inl rfl⟩
    · exact ⟨t, by simp [h], .inr rfl⟩

/-- No token of the list names a macro in `S` and may still be replaced. -/
def Painted (E : Env) (S : List Nat) (l : List Tok) : Prop :=
  ∀ t ∈ l, t.expandable = true → (E.lookup t.id).isSome = true → t.id ∈ S → t.disabled = true

theorem Res.bind_ok {α β : Type} {r : Res α} {f : α → Res β} {b : β} (h : r.bind f = .ok b) :
    ∃ a, r = .ok a ∧ f a = .ok b := by
  cases r <;> simp [Res.bind] at h
  exact ⟨_, rfl, h⟩

theorem expandArgs_mono {f g : List Tok → Res (List Tok × Nat)}
    (h : ∀ a r, f a = .ok r → g a = .ok r) :
    ∀ (as : List (List Tok)) es, expandArgs f as = .ok es → expandArgs g as = .ok es := by
  intro as
  induction as with
  | nil => intro es h; exact h
  | cons a as ih =>
    intro es he
    rw [expandArgs] at he ⊢
    obtain ⟨e, h1, he⟩ := Res.bind_ok he
    obtain ⟨es', h2, he⟩ := Res.bind_ok he
    rw [h a e h1, ih _ h2]
    exact he

/-- A result does not depend on the bound. -/
theorem expand_mono1 (E : Env) : ∀ (k : Nat),
    (∀ S d args out, expandMacro E k S d args = .ok out → expandMacro E (k + 1) S d args = .ok out) ∧
    (∀ S l r, expandLine E k S l = .ok r → expandLine E (k + 1) S l = .ok r) := by
  intro k
  induction k with
  | zero => exact ⟨fun S d a o h => by simp [expandMacro] at h, fun S l r h => by simp [expandLine] at h⟩
  | succ k ih =>
    refine ⟨?_, ?_⟩
    · intro S d args out h
      rw [expandMacro] at h ⊢
      obtain ⟨l1, e1, h⟩ := Res.bind_ok h
      obtain ⟨l2, e2, h⟩ := Res.bind_ok h
      obtain ⟨l3, e3, h⟩ := Res.bind_ok h
      rw [e1]
      simp only [Res.bind]
      have e2' : (if d.params > 0 then
          (expandArgs (fun a => expandLine E (k + 1) [] a) args).bind fun es => substitute es l1
          else .ok l1) = .ok l2 := by
        by_cases hd : d.params > 0
        · rw [if_pos hd] at e2 ⊢
          obtain ⟨es, e4, e5⟩ := Res.bind_ok e2
          rw [expandArgs_mono (fun a r h => ih.2 [] a r h) _ _ e4]
          exact e5
        · rw [if_neg hd] at e2 ⊢
          exact e2
      simp only [Res.bind] at e2'
      rw [e2']
      simp only
      rw [ih.2 _ _ _ e3]
      exact h
    · intro S l r h
      cases l with
      | nil => rw [expandLine] at h ⊢; exact h
      | cons t l =>
        have skip : ∀ t' : Tok,
            ((expandLine E k S l).bind fun q => .ok (t' :: q.1, q.2)) = .ok r →
            ((expandLine E (k + 1) S l).bind fun q => .ok (t' :: q.1, q.2)) = .ok r := by
          intro t' h
          obtain ⟨q, e1, h⟩ := Res.bind_ok h
          rw [ih.2 _ _ _ e1]
          exact h
        rw [expandLine] at h ⊢
        by_cases h1 : (!t.expandable || t.disabled) = true
        · rw [if_pos h1] at h ⊢
          exact skip t h
        · rw [if_neg h1] at h ⊢
          cases hd : E.lookup t.id with
          | none =>
            rw [hd] at h
            exact skip t h
          | some d =>
            rw [hd] at h
            simp only at h ⊢
            by_cases h2 : t.id ∈ S
            · rw [if_pos h2] at h ⊢
              exact skip _ h
            · rw [if_neg h2] at h ⊢
              by_cases h3 : (d.funLike && decide (Option.map (fun x => x.kind) l.head? ≠ some Kind.lpar)) = true
              · rw [if_pos h3] at h ⊢
                exact skip _ h
              · rw [if_neg h3] at h ⊢
                obtain ⟨a, e1, h⟩ := Res.bind_ok h
                obtain ⟨x, e2, h⟩ := Res.bind_ok h
                obtain ⟨q, e3, h⟩ := Res.bind_ok h
                rw [e1]
                simp only [Res.bind]
                rw [ih.1 _ _ _ _ e2]
                simp only
                rw [ih.2 _ _ _ e3]
                exact h

theorem expand_mono (E : Env) (k j : Nat) :
    (∀ S d args out, expandMacro E k S d args = .ok out → expandMacro E (k + j) S d args = .ok out) ∧
    (∀ S l r, expandLine E k S l = .ok r → expandLine E (k + j) S l = .ok r) := by
  induction j with
  | zero => exact ⟨fun _ _ _ _ h => h, fun _ _ _ h => h⟩
  | succ j ih =>
    exact ⟨fun S d a o h => (expand_mono1 E (k + j)).1 _ _ _ _ (ih.1 S d a o h),
      fun S l r h => (expand_mono1 E (k + j)).2 _ _ _ (ih.2 S l r h)⟩

theorem painted (E : Env) : ∀ (k : Nat),
    (∀ S d args out, expandMacro E k S d args = .ok out → Painted E S out) ∧
    (∀ S l out c, expandLine E k S l = .ok (out, c) → Painted E S out) := by
  intro k
  induction k with
  | zero => exact ⟨fun S d a o h => by simp [expandMacro] at h, fun S l o c h => by simp [expandLine] at h⟩
  | succ k ih =>
    refine ⟨?_, ?_⟩
    · intro S d args out h
      rw [expandMacro] at h
      obtain ⟨l1, -, h⟩ := Res.bind_ok h
      obtain ⟨l2, -, h⟩ := Res.bind_ok h
      obtain ⟨⟨l3, c⟩, h3, h⟩ := Res.bind_ok h
      simp only [Res.ok.injEq] at h
      subst h
      exact ih.2 _ _ _ _ h3
    · intro S l out c h
      cases l with
      | nil =>
        simp only [expandLine, Res.ok.injEq, Prod.mk.injEq] at h
        rw [← h.1]
        intro t ht; simp at ht
      | cons t r =>
        have skip : ∀ t' : Tok, (t'.expandable = true → (E.lookup t'.id).isSome = true → t'.id ∈ S →
            t'.disabled = true) →
            ((expandLine E k S r).bind fun q => .ok (t' :: q.1, q.2)) = .ok (out, c) →
            Painted E S out := by
          intro t' ht' h
          obtain ⟨⟨l1, c1⟩, h1, h⟩ := Res.bind_ok h
          simp only [Res.ok.injEq, Prod.mk.injEq] at h
          rw [← h.1]
          intro x hx
          simp only [List.mem_cons] at hx
          rcases hx with rfl | hx
          · exact ht'
          · exact ih.2 _ _ _ _ h1 x hx
        rw [expandLine] at h
        simp only at h
        split at h
        · rename_i hc
          refine skip t ?_ h
          intro a _ _
          simpa [a] using hc
        · split at h
          · rename_i hd
            exact skip t (by simp [hd]) h
          · rename_i d hd
            split at h
            · exact skip _ (fun _ _ _ => rfl) h
            · rename_i hS
              split at h
              · exact skip t (fun _ _ hm => absurd hm hS) h
              · obtain ⟨a, -, h⟩ := Res.bind_ok h
                obtain ⟨expn, h2, h⟩ := Res.bind_ok h
                obtain ⟨⟨q, c1⟩, h3, h⟩ := Res.bind_ok h
                simp only [Res.ok.injEq, Prod.mk.injEq] at h
                rw [← h.1]
                intro x hx
                rw [List.mem_append] at hx
                rcases hx with hx | hx
                · obtain ⟨y, hy, e⟩ := setWs_mem hx
                  have := ih.1 _ _ _ _ h2 y hy
                  intro p1 p2 p3
                  rcases e with rfl | rfl
                  · exact this p1 p2 (by simp at p3; simp [p3])
                  · exact this p1 p2 (by simp [p3])
                · exact ih.2 _ _ _ _ h3 x hx

/-! ## Pasting -/

/-- Well-formed element for a given number of arguments. -/
def Spec.Elem.WF (n : Nat) : Elem → Prop
  | .tok t => t.kind ≠ .param ∧ t.kind ≠ .hash ∧ t.kind ≠ .paste
  | .param t => t.kind = .param ∧ t.id < n
  | .str h t => h.kind = .hash ∧ t.kind = .param ∧ t.id < n

/-- Right operand of `##`: a token or a parameter, not a `#` expression. -/
def Spec.Elem.Right (n : Nat) : Elem → Prop
  | .tok t => t.kind ≠ .param ∧ t.kind ≠ .hash ∧ t.kind ≠ .paste
  | .param t => t.kind = .param ∧ t.id < n
  | .str _ _ => False

/-- The spelling operations give no parameter tokens. -/
structure Spells (E : Env) : Prop where
  paste : ∀ a b c, E.paste a b = some c → c.kind ≠ .param
  stringify : ∀ l, (E.stringify l).kind ≠ .param

/-- No parameter tokens. -/
def NoParam (l : List Tok) : Prop := ∀ t ∈ l, t.kind ≠ .param

/-- Argument by number. -/
def argOf (args : List (List Tok)) (i : Nat) : List Tok := (args[i]?).getD []

/-- The single token of a right operand. -/
def Spec.Elem.tok1 : Elem → Tok
  | .tok t => t
  | .param t => t
  | .str h _ => h

theorem right_toks {n : Nat} {e : Elem} (h : Elem.Right n e) : e.toks = [e.tok1] := by
  cases e <;> simp [Elem.Right, Elem.toks, Elem.tok1] at *

theorem operand_noParam {E : Env} {args : List (List Tok)} (hE : Spells E)
    (ha : ∀ a ∈ args, NoParam a) {e : Elem} (h : Elem.WF args.length e) :
    NoParam (operand E.stringify (argOf args) e) := by
  intro t ht
  cases e with
  | tok x => simp [operand] at ht; subst ht; exact h.1
  | param x =>
    simp only [operand, argOf, List.getElem?_eq_getElem h.2, Option.getD_some] at ht
    exact ha _ (List.getElem_mem h.2) t ht
  | str x y => simp [operand] at ht; subst ht; exact hE.stringify _

theorem right_wf {n : Nat} {e : Elem} (h : Elem.Right n e) : Elem.WF n e := by
  cases e <;> simp_all [Elem.Right, Elem.WF]

theorem join_ne {E : Env} {xs ys r : List Tok} (hx : xs ≠ []) (h : join E.paste xs ys = some r) : r ≠ [] := by
  cases ys with
  | nil =>
    cases xs with
    | nil => exact absurd rfl hx
    | cons a l => simp [join] at h; simp [← h]
  | cons y ys =>
    cases xs with
    | nil => exact absurd rfl hx
    | cons a l =>
      rw [join] at h
      · cases hl : (a :: l).getLast? with
        | none => rw [hl] at h; simp at h
        | some z =>
          rw [hl] at h
          simp only [Option.map_eq_some_iff] at h
          obtain ⟨p, _, rfl⟩ := h
          simp
      · simp

theorem join_noParam {E : Env} (hE : Spells E) {xs ys r : List Tok} (hx : NoParam xs) (hy : NoParam ys)
    (h : join E.paste xs ys = some r) : NoParam r := by
  cases xs with
  | nil => simp [join] at h; rw [← h]; exact hy
  | cons a l =>
    cases ys with
    | nil => simp [join] at h; rw [← h]; exact hx
    | cons y ys =>
      rw [join] at h
      · cases hl : (a :: l).getLast? with
        | none => rw [hl] at h; simp at h
        | some z =>
          rw [hl] at h
          simp only [Option.map_eq_some_iff] at h
          obtain ⟨p, hp, rfl⟩ := h
          intro t ht
          rw [List.mem_append] at ht
          rcases ht with ht | ht
          · exact hx t (List.dropLast_subset _ ht)
          · simp only [List.mem_cons] at ht
            rcases ht with rfl | ht
            · exact hE.paste _ _ _ hp
            · exact hy t (by simp [ht])
      · simp

/-- One `##` whose left operand is what stands at the end of the list. -/
def pasted (acc : List Tok) (r : Option (List Tok)) : Res (List Tok × Bool) :=
  match r with
  | some r => .ok (acc ++ r, false)
  | none => .err

theorem dropLast_append_ne {acc xs : List Tok} (h : xs ≠ []) :
    (acc ++ xs).dropLast = acc ++ xs.dropLast := by
  rw [List.dropLast_append_of_ne_nil h]

theorem getLast?_append_ne {acc xs : List Tok} (h : xs ≠ []) :
    (acc ++ xs).getLast? = xs.getLast? := by
  rw [List.getLast?_append]
  cases hl : xs.getLast? with
  | none => simp at hl; exact absurd hl h
  | some a => rfl

theorem pasteStep_tok {E : Env} {d : Def} {args : List (List Tok)} (hv : d.vararg = false)
    {acc cur : List Tok} {e : Elem} (he : Elem.Right args.length e) (hc : cur ≠ []) (hp : NoParam cur) :
    pasteStep E d args (acc ++ cur) e.tok1 =
      pasted acc (join E.paste cur (operand E.stringify (argOf args) e)) := by
  obtain ⟨t, ht⟩ : ∃ t, cur.getLast? = some t := by
    cases hl : cur.getLast? with
    | none => simp at hl; exact absurd hl hc
    | some a => exact ⟨a, rfl⟩
  have htp : t.kind ≠ .param := hp t (List.mem_of_getLast? ht)
  unfold pasteStep
  rw [getLast?_append_ne hc, ht]
  simp only [if_neg htp, hv, Bool.false_and]
  cases e with
  | tok x =>
    simp only [Elem.Right] at he
    have e1 : (Elem.tok x).tok1 = x := rfl
    rw [e1, if_neg he.1]
    simp only [operand]
    cases cur with
    | nil => exact absurd rfl hc
    | cons a l =>
      rw [join, ht]
      · simp only
        cases hq : E.paste t x with
        | none => rfl
        | some p => simp [pasted, dropLast_append_ne hc]
      · simp
  | param x =>
    simp only [Elem.Right] at he
    have e1 : (Elem.param x).tok1 = x := rfl
    rw [e1, if_pos he.1]
    simp only [operand, argOf, List.getElem?_eq_getElem he.2, Option.getD_some]
    simp only [Bool.false_eq_true, if_false, Res.bind]
    generalize args[x.id] = a
    cases a with
    | nil =>
      cases cur with
      | nil => exact absurd rfl hc
      | cons b l => simp [join, pasted]
    | cons y ys =>
      cases cur with
      | nil => exact absurd rfl hc
      | cons b l =>
        rw [join, ht]
        · simp only
          cases hq : E.paste t y with
          | none => rfl
          | some p => simp [pasted, dropLast_append_ne hc]
        · simp
  | str x y => exact absurd he id

theorem pasteStep_param {E : Env} {d : Def} {args : List (List Tok)} (hv : d.vararg = false)
    {acc : List Tok} {t : Tok} {e : Elem} (he : Elem.Right args.length e) (ht : t.kind = .param)
    (hi : t.id < args.length) (ha : ∀ a ∈ args, NoParam a) :
    pasteStep E d args (acc ++ [t]) e.tok1 =
      pasted acc (join E.paste (argOf args t.id) (operand E.stringify (argOf args) e)) := by
  have harg : argOf args t.id = args[t.id] := by simp [argOf, List.getElem?_eq_getElem hi]
  by_cases hempty : args[t.id] = []
  · unfold pasteStep
    rw [List.getLast?_append]
    simp only [List.getLast?_singleton, Option.some_or, if_pos ht, List.getElem?_eq_getElem hi, Res.bind,
      hempty, List.getLast?_nil, harg, join]
    cases e with
    | tok x =>
      simp only [Elem.Right] at he
      simp [Elem.tok1, he.1, operand, pasted]
    | param x =>
      simp only [Elem.Right] at he
      simp [Elem.tok1, he.1, operand, pasted, argOf, List.getElem?_eq_getElem he.2]
    | str x y => exact absurd he id
  · have hnp := ha _ (List.getElem_mem hi)
    have h2 := pasteStep_tok (E := E) (d := d) hv (acc := acc) he hempty hnp
    rw [harg, ← h2]
    obtain ⟨t', ht'⟩ : ∃ t', (args[t.id]).getLast? = some t' := by
      cases hl : (args[t.id]).getLast? with
      | none => simp at hl; exact absurd hl hempty
      | some a => exact ⟨a, rfl⟩
    have htp : t'.kind ≠ .param := hnp t' (List.mem_of_getLast? ht')
    unfold pasteStep
    rw [getLast?_append_ne hempty, ht', List.getLast?_append]
    simp only [List.getLast?_singleton, Option.some_or, if_pos ht, if_neg htp,
      List.getElem?_eq_getElem hi, Res.bind, ht', List.dropLast_concat]

/-- Result of the remaining loop. -/
def cont (r : Option (List Tok)) (f : List Tok → Res (List Tok)) : Res (List Tok) :=
  match r with
  | some r => f r
  | none => .err

theorem pasteLoop_paste {E : Env} {d : Def} {args : List (List Tok)} {list : List Tok} {p s : Tok}
    {rest acc : List Tok} {r : Option (List Tok)} (hp : p.kind = .paste)
    (h : pasteStep E d args list s = pasted acc r) :
    pasteLoop E d args list (p :: s :: rest) = cont r fun r => pasteLoop E d args (acc ++ r) rest := by
  conv => lhs; unfold pasteLoop
  rw [if_pos hp]
  simp only [h]
  cases r <;> rfl

theorem pasteLoop_more {E : Env} {d : Def} {args : List (List Tok)} (hv : d.vararg = false)
    (hE : Spells E) (ha : ∀ a ∈ args, NoParam a) (rest : List Tok) :
    ∀ (ms : List (Tok × Elem)) (acc cur : List Tok), cur ≠ [] → NoParam cur →
      (∀ m ∈ ms, m.1.kind = .paste ∧ Elem.Right args.length m.2) →
      pasteLoop E d args (acc ++ cur) ((ms.flatMap fun m => m.1 :: m.2.toks) ++ rest) =
        cont (joinAll E.paste cur (ms.map fun m => operand E.stringify (argOf args) m.2))
          fun r => pasteLoop E d args (acc ++ r) rest := by
  intro ms
  induction ms with
  | nil => intro acc cur _ _ _; simp [joinAll, cont]
  | cons m ms ih =>
    intro acc cur hc hp hm
    obtain ⟨m1, m2⟩ := hm m (by simp)
    simp only [List.flatMap_cons, List.cons_append, List.append_assoc, right_toks m2, List.nil_append]
    rw [pasteLoop_paste m1 (pasteStep_tok hv m2 hc hp)]
    simp only [List.map_cons, joinAll]
    cases hj : join E.paste cur (operand E.stringify (argOf args) m.2) with
    | none => rfl
    | some r =>
      simp only [cont, Option.bind_some]
      rw [ih acc r (join_ne hc hj) (join_noParam hE hp (operand_noParam hE ha (right_wf m2)) hj)
        (fun x hx => hm x (by simp [hx]))]
      rfl

/-- Well-formed chain; with two or more `##` the first operand is not an empty argument. -/
structure Spec.Chain.WF (args : List (List Tok)) (c : Chain) : Prop where
  first : Elem.WF args.length c.first
  more : ∀ m ∈ c.more, m.1.kind = .paste ∧ Elem.Right args.length m.2
  blank : 2 ≤ c.more.length → ∀ t, c.first = .param t → argOf args t.id ≠ []

theorem pasteLoop_chain {E : Env} {d : Def} {args : List (List Tok)} (hv : d.vararg = false)
    (hE : Spells E) (ha : ∀ a ∈ args, NoParam a) (c : Chain) (hc : Chain.WF args c)
    (acc rest : List Tok) :
    pasteLoop E d args acc (c.toks ++ rest) =
      cont (chain E.paste E.stringify (argOf args) c) fun r => pasteLoop E d args (acc ++ r) rest := by
  obtain ⟨first, more⟩ := c
  have hf := hc.first
  have hm := hc.more
  have hb := hc.blank
  simp only at hf hm hb
  simp only [Chain.toks]
  cases first with
  | tok t =>
    rw [show (Elem.tok t).toks = [t] from rfl]
    simp only [List.cons_append, List.nil_append]
    conv => lhs; unfold pasteLoop
    rw [if_neg hf.2.2, if_neg hf.2.1]
    rw [pasteLoop_more hv hE ha rest more acc [t] (by simp) (by intro x hx; simp at hx; subst hx; exact hf.1) hm]
    cases more <;> rfl
  | str h t =>
    rw [show (Elem.str h t).toks = [h, t] from rfl]
    simp only [List.cons_append, List.nil_append]
    conv => lhs; unfold pasteLoop
    rw [if_neg (by rw [hf.1]; decide), if_pos hf.1]
    simp only [if_pos hf.2.1, List.getElem?_eq_getElem hf.2.2]
    rw [pasteLoop_more hv hE ha rest more acc [E.stringify (args[t.id]'hf.2.2)] (by simp)
      (by intro x hx; simp at hx; subst hx; exact hE.stringify _) hm]
    have : args[t.id]'hf.2.2 = argOf args t.id := by simp [argOf, List.getElem?_eq_getElem hf.2.2]
    rw [this]
    cases more <;> rfl
  | param t =>
    rw [show (Elem.param t).toks = [t] from rfl]
    simp only [List.cons_append, List.nil_append]
    conv => lhs; unfold pasteLoop
    rw [if_neg (by rw [hf.1]; decide), if_neg (by rw [hf.1]; decide)]
    cases more with
    | nil => simp [chain, cont]
    | cons m ms =>
      obtain ⟨m1, m2⟩ := hm m (by simp)
      simp only [List.flatMap_cons, List.cons_append, List.append_assoc, right_toks m2, List.nil_append]
      rw [pasteLoop_paste m1 (pasteStep_param hv m2 hf.1 hf.2 ha)]
      simp only [chain, List.map_cons, joinAll]
      rw [show operand E.stringify (argOf args) (Elem.param t) = argOf args t.id from rfl]
      cases hj : join E.paste (argOf args t.id) (operand E.stringify (argOf args) m.2) with
      | none => rfl
      | some r =>
        simp only [cont, Option.bind_some]
        have hnp : NoParam (argOf args t.id) := by
          have := operand_noParam hE ha (e := .param t) hf
          exact this
        cases ms with
        | nil => simp [joinAll]
        | cons m' ms =>
          have hne : argOf args t.id ≠ [] := hb (by simp) t rfl
          rw [pasteLoop_more hv hE ha rest (m' :: ms) acc r (join_ne hne hj)
            (join_noParam hE hnp (operand_noParam hE ha (right_wf m2)) hj)
            (fun x hx => hm x (by simp at hx; simp [hx]))]
          rfl

theorem pasteLoop_chains {E : Env} {d : Def} {args : List (List Tok)} (hv : d.vararg = false)
    (hE : Spells E) (ha : ∀ a ∈ args, NoParam a) (cs : List Chain) (hc : ∀ c ∈ cs, Chain.WF args c) :
    ∀ acc, pasteLoop E d args acc (cs.flatMap Chain.toks) =
      cont (chains E.paste E.stringify (argOf args) cs) fun r => .ok (acc ++ r) := by
  induction cs with
  | nil => intro acc; simp [pasteLoop, chains, cont]
  | cons c cs ih =>
    intro acc
    rw [List.flatMap_cons, pasteLoop_chain hv hE ha c (hc c (by simp))]
    simp only [chains]
    cases chain E.paste E.stringify (argOf args) c with
    | none => rfl
    | some r =>
      simp only [cont, Option.bind_some]
      rw [ih (fun x hx => hc x (by simp [hx]))]
      cases chains E.paste E.stringify (argOf args) cs with
      | none => rfl
      | some r' => simp [cont]

theorem chain_toks_head (c : Chain) (args : List (List Tok)) (hc : Chain.WF args c) :
    ∃ t r, c.toks = t :: r ∧ t.kind ≠ .paste := by
  have hf := hc.first
  obtain ⟨first, more⟩ := c
  cases first with
  | tok t => exact ⟨t, _, rfl, hf.2.2⟩
  | param t => exact ⟨t, _, rfl, by rw [hf.1]; decide⟩
  | str h t => exact ⟨h, _, rfl, by rw [hf.1]; decide⟩

theorem elem_last {n : Nat} {e : Elem} (h : Elem.WF n e) : ∃ t, e.toks.getLast? = some t ∧ t.kind ≠ .paste := by
  cases e with
  | tok t => exact ⟨t, rfl, h.2.2⟩
  | param t => exact ⟨t, rfl, by rw [h.1]; decide⟩
  | str x t => exact ⟨t, rfl, by rw [h.2.1]; decide⟩

theorem chain_toks_last (c : Chain) (args : List (List Tok)) (hc : Chain.WF args c) :
    ∃ t, c.toks.getLast? = some t ∧ t.kind ≠ .paste := by
  obtain ⟨first, more⟩ := c
  unfold Chain.toks
  rcases List.eq_nil_or_concat more with rfl | ⟨ms, m, rfl⟩
  · simp only [List.flatMap_nil, List.append_nil]
    exact elem_last hc.first
  · obtain ⟨t, h1, h2⟩ := elem_last (right_wf (hc.more m (by simp)).2)
    refine ⟨t, ?_, h2⟩
    have hne : m.2.toks ≠ [] := by intro h; rw [h] at h1; simp at h1
    simp only [List.concat_eq_append, List.flatMap_append, List.flatMap_cons, List.flatMap_nil,
      List.append_nil]
    rw [← List.append_assoc, getLast?_append_ne (by simp), show m.1 :: m.2.toks = [m.1] ++ m.2.toks from rfl,
      getLast?_append_ne hne, h1]

theorem stringifyAndPaste_chains {E : Env} {d : Def} {args : List (List Tok)} (hv : d.vararg = false)
    (hE : Spells E) (ha : ∀ a ∈ args, NoParam a) (cs : List Chain) (hc : ∀ c ∈ cs, Chain.WF args c)
    (hb : d.body = cs.flatMap Chain.toks) :
    stringifyAndPaste E d args = cont (chains E.paste E.stringify (argOf args) cs) .ok := by
  unfold stringifyAndPaste
  rw [if_neg, if_neg, hb, pasteLoop_chains hv hE ha cs hc]
  · simp only [List.nil_append]
  · simp only [Bool.and_eq_true, decide_eq_true_eq, not_and]
    intro _ hl
    rw [Option.map_eq_some_iff] at hl
    obtain ⟨t, ht, hk⟩ := hl
    rw [hb] at ht
    rcases List.eq_nil_or_concat cs with rfl | ⟨cs', c, rfl⟩
    · simp at ht
    · obtain ⟨t', h1, h2⟩ := chain_toks_last c args (hc c (by simp))
      have hne : c.toks ≠ [] := by intro h; rw [h] at h1; simp at h1
      simp only [List.concat_eq_append, List.flatMap_append, List.flatMap_cons, List.flatMap_nil,
        List.append_nil] at ht
      rw [getLast?_append_ne hne, h1] at ht
      simp only [Option.some.injEq] at ht
      subst ht
      exact h2 hk
  · intro hl
    rw [Option.map_eq_some_iff] at hl
    obtain ⟨t, ht, hk⟩ := hl
    rw [hb] at ht
    cases cs with
    | nil => simp at ht
    | cons c cs =>
      obtain ⟨t', r, h1, h2⟩ := chain_toks_head c args (hc c (by simp))
      rw [List.flatMap_cons, h1] at ht
      simp only [List.cons_append, List.head?_cons, Option.some.injEq] at ht
      subst ht
      exact h2 hk

end Verif.Macro
