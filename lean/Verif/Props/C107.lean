import Verif.Calls.Spec

/-!
# C107: parameters and arguments are matched one to one

In full: a list of parameters is accepted if and only if the grammar of C allows it, and gives the types it says; a call is accepted if and only if it has as many arguments as the
prototype demands (any without prototype), and each argument is converted to the type of its parameter.

Proved: all lists of parameters of C are read as they should be (`C107_parameters`); others are refused but for a trailing comma and a name
for `void` (`C107_parameters_refused_partial`).  For functions with a prototype, calls are as C says in both
directions (`C107_call`); without a prototype arguments are refused (`C107_prototype_violated`).
-/

namespace Verif.Calls

theorem adjust_of {t u : Ty} (h : Adjusted t u) : adjust t = u := by cases h <;> rfl

theorem adjusted (t : Ty) : Adjusted t (adjust t) := by cases t <;> constructor

theorem paramList_decls {p : List PTok} {us : List Ty} (h : Decls p us) (r : List PTok) :
    ∀ ms, paramList ms (p ++ .rparen :: r) = some (⟨ms ++ us, false, true⟩, .rparen :: r) := by
  induction h with
  | one ha => intro ms; simp [paramList, adjust_of ha]
  | @more t u p us ha hd ih =>
    intro ms
    have := ih (ms ++ [u])
    cases hd <;> simp_all [paramList, adjust_of ha]

theorem paramList_dots {p : List PTok} {us : List Ty} (h : Decls p us) (r : List PTok) :
    ∀ ms, paramList ms (p ++ .comma :: .dots :: r) = some (⟨ms ++ us, true, true⟩, r) := by
  induction h with
  | one ha => intro ms; simp [paramList, adjust_of ha]
  | @more t u p us ha hd ih =>
    intro ms
    have := ih (ms ++ [u])
    cases hd <;> simp_all [paramList, adjust_of ha]

/-- Lists of parameters of C are accepted, with the types they say. -/
theorem C107_parameters (p : List PTok) (s : Sig) (r : List PTok) (h : Params p s) :
    params (p ++ .rparen :: r) = some (s, r) := by
  cases h with
  | none => rfl
  | void => rfl
  | list hd => simp [params, paramList_decls hd]
  | dots hd => simp [params, List.append_assoc, paramList_dots hd]

/-- The exceptions: a comma in front of the parenthesis, and a name for `void` -/
def Clean (toks : List PTok) : Prop :=
  (∀ a b, toks ≠ a ++ .comma :: .rparen :: b) ∧ PTok.void true ∉ toks

theorem Clean.tail {x : PTok} {toks : List PTok} (h : Clean (x :: toks)) : Clean toks :=
  ⟨fun a b e => h.1 (x :: a) b (by rw [e]; rfl), fun e => h.2 (List.mem_cons_of_mem _ e)⟩

theorem paramList_sound (ms : List Ty) (toks : List PTok) (s : Sig) (r : List PTok) (hc : Clean toks)
    (h0 : ∀ q, toks ≠ .rparen :: q) (h : paramList ms toks = some (s, .rparen :: r)) :
    (toks = .void false :: .rparen :: r ∧ s = ⟨[], false, true⟩) ∨
    ∃ p us, Decls p us ∧ ((toks = p ++ .rparen :: r ∧ s = ⟨ms ++ us, false, true⟩) ∨
      (toks = p ++ .comma :: .dots :: .rparen :: r ∧ s = ⟨ms ++ us, true, true⟩)) := by
  induction ms, toks using paramList.induct with
  | case1 ms q => exact absurd rfl (h0 q)
  | case2 b q =>
    simp [paramList] at h
    obtain ⟨rfl, rfl⟩ := h
    cases b with
    | true => exact absurd (by simp) hc.2
    | false => exact .inl ⟨rfl, rfl⟩
  | case3 ms b q hm => simp [paramList, hm] at h
  | case4 ms t q =>
    simp [paramList] at h
    obtain ⟨rfl, rfl⟩ := h
    exact .inr ⟨[.decl t], [adjust t], .one (adjusted t), .inr ⟨rfl, rfl⟩⟩
  | case5 ms t q hq ih =>
    have h' : paramList (ms ++ [adjust t]) q = some (s, .rparen :: r) := by
      rw [← h]
      cases q with
      | nil => simp [paramList]
      | cons x q => cases x <;> first | exact absurd rfl (hq _) | simp [paramList]
    have hc' : Clean q := hc.tail.tail
    have hn : ∀ w, q ≠ .rparen :: w := fun w e => hc.1 [.decl t] w (by rw [e]; rfl)
    rcases ih hc' hn h' with ⟨e, hs⟩ | ⟨p, us, hd, ⟨e, hs⟩ | ⟨e, hs⟩⟩
    · rw [e] at h'
      simp [paramList] at h'
    · exact .inr ⟨_, _, .more (adjusted t) hd, .inl ⟨by rw [e]; rfl, by rw [hs]; simp⟩⟩
    · exact .inr ⟨_, _, .more (adjusted t) hd, .inr ⟨by rw [e]; rfl, by rw [hs]; simp⟩⟩
  | case6 ms t q h1 h2 =>
    have h' : paramList ms (.decl t :: q) = some (⟨ms ++ [adjust t], false, true⟩, q) := by
      cases q with
      | nil => simp [paramList]
      | cons x q => cases x <;> first | exact absurd rfl (h2 _) | simp [paramList]
    rw [h'] at h
    simp at h
    obtain ⟨rfl, rfl⟩ := h
    exact .inr ⟨[.decl t], [adjust t], .one (adjusted t), .inl ⟨rfl, rfl⟩⟩
  | case7 ms toks =>
    cases toks with
    | nil => simp [paramList] at h
    | cons x q => cases x <;> simp_all [paramList]

/-- Others are refused. -/
theorem C107_parameters_refused_partial (toks : List PTok) (s : Sig) (r : List PTok) (hc : Clean toks)
    (h : params toks = some (s, r)) : ∃ p, toks = p ++ .rparen :: r ∧ Params p s := by
  unfold params at h
  split at h
  · rename_i s' r' he
    cases h
    by_cases h0 : ∃ q, toks = .rparen :: q
    · obtain ⟨q, rfl⟩ := h0
      simp [paramList] at he
      obtain ⟨rfl, rfl⟩ := he
      exact ⟨[], rfl, .none⟩
    · rcases paramList_sound _ _ _ _ hc (fun q e => h0 ⟨q, e⟩) he with ⟨e, hs⟩ | ⟨p, us, hd, ⟨e, hs⟩ | ⟨e, hs⟩⟩
      · exact ⟨[.void false], e, hs ▸ .void⟩
      · exact ⟨p, e, hs ▸ .list hd⟩
      · exact ⟨p ++ [.comma, .dots], by simp [e], hs ▸ .dots hd⟩
  · cases h

/-! ## Calls -/

/-- Each with a comma in front -/
def flat : List Nat → List ATok
  | [] => []
  | e :: es => .comma :: .expr e :: flat es

def conv : List Ty → List Nat → List Arg
  | [], es => es.map fun e => (e, none)
  | _, [] => []
  | t :: ts, e :: es => (e, some t) :: conv ts es

theorem flat_append (a b : List Nat) : flat (a ++ b) = flat a ++ flat b := by
  induction a with
  | nil => rfl
  | cons e a ih => simp [flat, ih]

theorem args_cons {p : List ATok} {e : Nat} {es : List Nat} : Args p (e :: es) ↔ p = .expr e :: flat es := by
  induction es generalizing p e with
  | nil =>
    constructor
    · intro h; cases h; rfl
    · rintro rfl; exact .one
  | cons f es ih =>
    constructor
    · intro h
      cases h with
      | more h => rw [ih] at h; subst h; rfl
    · rintro rfl; exact .more (ih.2 rfl)

theorem conv_eq (ms : List Ty) (es : List Nat) : conv ms es = es.mapIdx fun i e => (e, ms[i]?) := by
  induction es generalizing ms with
  | nil => cases ms <;> rfl
  | cons e es ih =>
    cases ms with
    | nil =>
      have := ih []
      simp only [conv, List.map_cons, List.mapIdx_cons] at this ⊢
      rw [this]; rfl
    | cons t ts => simp only [conv, List.mapIdx_cons, ih]; rfl

theorem fixed_complete (ts : List Ty) : ∀ (t : Ty) (e : Nat) (es : List Nat) (q : List ATok), ts.length ≤ es.length →
    ∃ as, fixed (t :: ts) (.expr e :: (flat es ++ q)) = some (as, flat (es.drop ts.length) ++ q) ∧
      as ++ (es.drop ts.length).map (fun e => (e, none)) = conv (t :: ts) (e :: es) := by
  induction ts with
  | nil => intro t e es q _; exact ⟨_, rfl, rfl⟩
  | cons u ts ih =>
    intro t e es q hl
    cases es with
    | nil => simp at hl
    | cons f es =>
      obtain ⟨as, h1, h2⟩ := ih u f es q (by simpa using hl)
      refine ⟨(e, some t) :: as, ?_, ?_⟩
      · simp [flat, fixed, h1]
      · simp only [List.length_cons, List.drop_succ_cons, List.cons_append, h2]; rfl

theorem fixed_sound (ts : List Ty) : ∀ (t : Ty) (toks : List ATok) (as : List Arg) (q : List ATok),
    fixed (t :: ts) toks = some (as, q) → ∃ e es, toks = .expr e :: (flat es ++ q) ∧ es.length = ts.length ∧
      ∀ fs : List Nat, as ++ fs.map (fun e => (e, none)) = conv (t :: ts) (e :: (es ++ fs)) := by
  induction ts with
  | nil =>
    intro t toks as q h
    cases toks with
    | nil => simp [fixed] at h
    | cons x toks =>
      cases x <;> simp [fixed] at h
      obtain ⟨rfl, rfl⟩ := h
      exact ⟨_, [], rfl, rfl, fun fs => rfl⟩
  | cons u ts ih =>
    intro t toks as q h
    match toks with
    | .expr e :: .comma :: toks =>
      simp only [fixed, Option.map_eq_some_iff] at h
      obtain ⟨⟨bs, w⟩, h1, h2⟩ := h
      cases h2
      obtain ⟨f, es, rfl, hl, hc⟩ := ih u toks bs w h1
      refine ⟨e, f :: es, rfl, by simp [hl], fun fs => ?_⟩
      simp only [List.cons_append, hc fs]; rfl
    | [] => simp [fixed] at h
    | [.expr _] => simp [fixed] at h
    | .expr _ :: .expr _ :: _ => simp [fixed] at h
    | .expr _ :: .rparen :: _ => simp [fixed] at h
    | .comma :: _ => simp [fixed] at h
    | .rparen :: _ => simp [fixed] at h

theorem varargs_complete (es : List Nat) (q : List ATok) :
    varargs (flat es ++ .rparen :: q) = some (es.map fun e => (e, none), .rparen :: q) := by
  induction es with
  | nil => rfl
  | cons e es ih => simp [flat, varargs, ih]

theorem varargs_sound (toks : List ATok) : ∀ bs q, varargs toks = some (bs, q) →
    ∃ es, toks = flat es ++ q ∧ bs = es.map fun e => (e, none) := by
  induction toks using varargs.induct with
  | case1 r => intro bs q h; simp [varargs] at h; obtain ⟨rfl, rfl⟩ := h; exact ⟨[], rfl, rfl⟩
  | case2 e r ih =>
    intro bs q h
    simp only [varargs, Option.map_eq_some_iff] at h
    obtain ⟨⟨cs, w⟩, h1, h2⟩ := h
    cases h2
    obtain ⟨es, rfl, rfl⟩ := ih _ _ h1
    exact ⟨e :: es, rfl, rfl⟩
  | case3 toks h1 h2 => intro bs q h; unfold varargs at h; split at h <;> simp_all

/-- With a prototype, a call is accepted if and only if it has as many arguments as the function takes, and each is
converted to the type of its parameter. -/
theorem C107_call (s : Sig) (hp : s.proto = true) (hv : s.vararg = true → s.members ≠ []) (toks : List ATok)
    (as : List Arg) (r : List ATok) : call s toks = some (as, r) ↔
      ∃ p es, toks = p ++ .rparen :: r ∧ Args p es ∧ s.Takes es.length ∧ as = converted s es := by
  obtain ⟨ms, v, pr⟩ := s
  simp only at hp hv
  subst hp
  simp only [Sig.Takes, converted, ← conv_eq, true_implies]
  cases ms with
  | nil =>
    have : v = false := by cases v; rfl; exact absurd rfl (hv rfl)
    subst this
    simp only [call, fixed, Bool.false_eq_true, if_false]
    constructor
    · intro h
      cases toks with
      | nil => simp at h
      | cons x toks =>
        cases x <;> simp at h
        obtain ⟨rfl, rfl⟩ := h
        exact ⟨[], [], rfl, .none, rfl, rfl⟩
    · rintro ⟨p, es, rfl, ha, hl, rfl⟩
      cases es with
      | nil => cases ha; rfl
      | cons e es => simp at hl
  | cons t ts =>
    constructor
    · intro h
      simp only [call] at h
      split at h
      · cases h
      · rename_i as' q hf
        obtain ⟨e, es, rfl, hl, hc⟩ := fixed_sound ts t toks as' q hf
        cases v with
        | false =>
          simp only [Bool.false_eq_true, if_false] at h
          split at h
          · rename_i bs q' he
            cases he; cases h
            refine ⟨.expr e :: flat es, e :: es, by simp, args_cons.2 rfl, by simp [hl], ?_⟩
            simpa using hc []
          · cases h
        | true =>
          simp only [if_true] at h
          split at h
          · rename_i bs q' he
            cases h
            obtain ⟨fs, rfl, rfl⟩ := varargs_sound _ _ _ he
            refine ⟨.expr e :: flat (es ++ fs), e :: (es ++ fs), by simp [flat_append], args_cons.2 rfl, ?_, hc fs⟩
            simp [hl]
          · cases h
    · rintro ⟨p, es, rfl, ha, hl, rfl⟩
      cases es with
      | nil => cases v <;> simp at hl
      | cons e es =>
        rw [args_cons] at ha
        subst ha
        have hle : ts.length ≤ es.length := by cases v <;> simp at hl <;> omega
        obtain ⟨as, h1, h2⟩ := fixed_complete ts t e es (.rparen :: r) hle
        simp only [call, List.cons_append, h1]
        cases v with
        | false =>
          have hd : es.drop ts.length = [] := by
            simp at hl
            exact List.drop_eq_nil_of_le (by omega)
          rw [hd] at h2
          simp only [List.map_nil, List.append_nil] at h2
          simp [hd, flat, h2]
        | true =>
          rw [← h2]
          simp [varargs_complete]

/-! ## Examples and witnesses -/

/-- `int a, char b[], ...` -/
example : Params [.decl (.obj 1), .comma, .decl (.array (.obj 2)), .comma, .dots]
    ⟨[.obj 1, .ptr (.obj 2)], true, true⟩ :=
  .dots (p := [.decl (.obj 1), .comma, .decl (.array (.obj 2))]) (.more .obj (.one .array))
example : params [.decl (.obj 1), .comma, .decl (.array (.obj 2)), .comma, .dots, .rparen] =
    some (⟨[.obj 1, .ptr (.obj 2)], true, true⟩, []) := by decide
example : Clean [.decl (.obj 1), .rparen] := by
  refine ⟨fun a b e => ?_, by decide⟩
  match a with
  | [] => simp at e
  | [_] => simp at e
  | _ :: _ :: a => simp at e
example : params [.decl (.obj 1), .comma, .void false, .rparen] = none := by decide
/-- `printf(a, b)` and calls with too few and too many arguments -/
example : call ⟨[.obj 1], true, true⟩ [.expr 5, .comma, .expr 6, .rparen] =
    some ([(5, some (.obj 1)), (6, none)], []) := by decide
example : call ⟨[.obj 1, .obj 2], false, true⟩ [.expr 5, .rparen] = none ∧
    call ⟨[.obj 1], false, true⟩ [.expr 5, .comma, .expr 6, .rparen] = none := by decide
example : (⟨[.obj 1], true, true⟩ : Sig).Takes 2 := fun _ => by decide

/-- `int f(int a, );` is accepted. -/
theorem C107_comma_violated :
    params [.decl (.obj 1), .comma, .rparen] = some (⟨[.obj 1], false, true⟩, []) ∧
    ∀ s, ¬ Params [.decl (.obj 1), .comma] s := by
  refine ⟨by decide, fun s h => ?_⟩
  generalize hp : [PTok.decl (.obj 1), .comma] = p at h
  cases h with
  | none => cases hp
  | void => cases hp
  | list hd => subst hp; cases hd with | more _ hd => cases hd
  | dots hd =>
    cases hd with
    | one _ => simp at hp
    | more _ hd => simp at hp

/-- `int f(void x);` is accepted. -/
theorem C107_void_violated :
    params [.void true, .rparen] = some (⟨[], false, true⟩, []) ∧ ∀ s, ¬ Params [.void true] s := by
  refine ⟨by decide, fun s h => ?_⟩
  generalize hp : [PTok.void true] = p at h
  cases h with
  | none => cases hp
  | void => cases hp
  | list hd => subst hp; cases hd
  | dots hd =>
    cases hd with
    | one _ => simp at hp
    | more _ hd => simp at hp

/-- `f(1)` is refused for a function without prototype. -/
theorem C107_prototype_violated :
    Params [] ⟨[], false, false⟩ ∧ (⟨[], false, false⟩ : Sig).Takes 1 ∧
    call ⟨[], false, false⟩ [.expr 1, .rparen] = none :=
  ⟨.none, nofun, by decide⟩

end Verif.Calls
