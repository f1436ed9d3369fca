import Verif.Define.Lemmas

/-!
# C96: a macro is what its last definition says

In full: after any directives the preprocessor accepts, each name is the macro its last
`#define` says, unless `#undef` came later; a `#define` of a name that is a macro is accepted if and only if it is
the same as the definition in force, and everything else is diagnosed.

Proved: lines are read as the definitions they are (`C96_read`), other lines are refused but for restrictions on parameters (`C96_accepted_partial`), a name stands for what its last
definition says in all but the number of further arguments and white space (`C96_table_partial`), the same definition is accepted
(`C96_same`), and definitions of other parameters or another replacement are diagnosed
(`C96_diagnosed_partial`).  What differs only in `...`, in the names of parameters or in white
space is accepted, and so are lists of parameters that C does not allow (`_violated`).
-/

namespace Verif.Define

def empty : Table := fun _ => none

/-- Every line with a definition is read as that definition: its name, if it is like a function,
the number of its parameters, whether it takes further arguments, and what each token of the
replacement stands for. -/
theorem C96_read {line : List T} {d : Def} (h : Written line d) :
    ∃ m, preprocessDefine line = some m ∧ m.name = d.name ∧ m.vararg = d.variadic ∧
      m.func = d.params.isSome ∧ m.params = d.args.length ∧
      m.replacement.map erase = d.body.map d.item := by
  obtain ⟨m, h1, h2, h3, h4⟩ := read_written h
  simp only [Macro.use, Def.use, Use.mk.injEq] at h3
  exact ⟨m, h1, h2, h4, h3.1, h3.2.1, h3.2.2⟩

theorem readParams_loose : ∀ (k : Nat) (ts : List T), ts.length ≤ k → ∀ ps v r,
    readParams ts = some (ps, v, r) → ∃ us ns, ts = us ++ r ∧ Loose us (ns, v)
  | 0, [], _, ps, v, r, h => by simp [readParams] at h
  | 0, t :: ts, hk, ps, v, r, h => by simp at hk
  | k + 1, [], _, ps, v, r, h => by simp [readParams] at h
  | k + 1, t :: rest, hk, ps, v, r, h => by
    unfold readParams at h
    by_cases h1 : t.kind = .rparen
    · rw [if_pos h1] at h
      simp only [Option.some.injEq, Prod.mk.injEq] at h
      obtain ⟨_, rfl, rfl⟩ := h
      exact ⟨[], [], rfl, .params .none⟩
    · rw [if_neg h1] at h
      by_cases h2 : t.kind = .dots
      · rw [if_pos h2] at h
        simp only [Option.some.injEq, Prod.mk.injEq] at h
        obtain ⟨_, rfl, rfl⟩ := h
        exact ⟨[t], [], rfl, .params (.dots h2)⟩
      · rw [if_neg h2] at h
        by_cases h3 : t.kind = .word
        · rw [if_neg (fun hh => hh h3)] at h
          cases rest with
          | nil => cases h
          | cons c rest =>
            simp only at h
            by_cases h4 : c.kind = .dots
            · rw [if_pos h4] at h
              simp only [Option.some.injEq, Prod.mk.injEq] at h
              obtain ⟨_, rfl, rfl⟩ := h
              exact ⟨[t] ++ [c], [t.text], rfl, .named (.one h3) h4⟩
            · rw [if_neg h4] at h
              by_cases h5 : c.kind = .comma
              · rw [if_neg (fun hh => hh h5)] at h
                simp only [Option.bind_eq_bind, Option.bind_eq_some_iff, Prod.exists,
                  Option.some.injEq, Prod.mk.injEq] at h
                obtain ⟨ps', v', r', h6, _, rfl, rfl⟩ := h
                obtain ⟨us, ns, rfl, hl⟩ := readParams_loose k rest (by simp at hk; omega) _ _ _ h6
                refine ⟨t :: c :: us, t.text :: ns, rfl, ?_⟩
                generalize hp : (ns, v') = p at hl
                cases hl with
                | params hq =>
                  cases hq with
                  | none => cases hp; exact .comma (ts := [t]) (.one h3) h5
                  | dots hd => cases hp; exact .params (.both (ts := [t]) (.one h3) h5 hd)
                  | ids hi => cases hp; exact .params (.ids (.more h3 h5 hi))
                  | both hi hc hd => cases hp; exact .params (.both (.more h3 h5 hi) hc hd)
                | comma hi hc => cases hp; exact .comma (.more h3 h5 hi) hc
                | named hi hd => cases hp; exact .named (.more h3 h5 hi) hd
              · rw [if_pos h5] at h
                simp only [Option.some.injEq, Prod.mk.injEq] at h
                obtain ⟨_, rfl, rfl⟩ := h
                exact ⟨[t], [t.text], rfl, .params (.ids (.one h3))⟩
        · rw [if_pos h3] at h; cases h

theorem replacement_shape (func : Bool) (ps : List T) : ∀ (ts : List T) (r : List Rep),
    replacement func ps ts = some r →
    ∃ body nl more, ts = body ++ nl :: more ∧ nl.kind = .newline ∧ ∀ t ∈ body, t.kind ≠ .newline
  | [], r, h => by simp [replacement] at h
  | t :: ts, r, h => by
    unfold replacement at h
    by_cases hn : t.kind = .newline
    · exact ⟨[], t, ts, rfl, hn, by simp⟩
    · rw [if_neg hn] at h
      simp only [Option.bind_eq_bind, Option.bind_eq_some_iff] at h
      obtain ⟨r', h', _⟩ := h
      obtain ⟨body, nl, more, rfl, h2, h3⟩ := replacement_shape func ps ts r' h'
      refine ⟨t :: body, nl, more, rfl, h2, fun u hu => ?_⟩
      rcases List.mem_cons.1 hu with rfl | hu
      · exact hn
      · exact h3 u hu

/-- Every line that is accepted begins with a definition, but for restrictions on its parameters. -/
theorem C96_accepted_partial {line : List T} {m : Macro} (h : preprocessDefine line = some m) :
    ∃ front more d, line = front ++ more ∧ LooselyWritten front d ∧ m.name = d.name ∧
      m.func = d.params.isSome := by
  unfold preprocessDefine at h
  split at h
  · cases h
  · rename_i t line
    by_cases h1 : t.kind = .word
    · rw [if_neg (fun hh => hh h1)] at h
      split at h
      · cases h
      · rename_i p rest
        by_cases h2 : p.kind = .lparen ∧ p.space = false
        · rw [if_pos h2] at h
          split at h
          · cases h
          · cases h
          · rename_i ps v c body hr
            by_cases h3 : c.kind = .rparen
            · rw [if_neg (fun hh => hh h3)] at h
              simp only [Option.bind_eq_bind, Option.bind_eq_some_iff, Option.some.injEq] at h
              obtain ⟨r, h4, rfl⟩ := h
              obtain ⟨us, ns, rfl, hl⟩ := readParams_loose _ rest le_rfl _ _ _ hr
              obtain ⟨b, nl, more, rfl, h5, h6⟩ := replacement_shape _ _ _ _ h4
              exact ⟨t :: p :: (us ++ c :: (b ++ [nl])), more, ⟨t.text, some (ns, v), b⟩,
                by simp, .function h1 h2.1 h2.2 hl h3 h5 h6, rfl, rfl⟩
            · rw [if_pos h3] at h; cases h
        · rw [if_neg h2] at h
          simp only [Option.bind_eq_bind, Option.bind_eq_some_iff, Option.some.injEq] at h
          obtain ⟨r, h4, rfl⟩ := h
          obtain ⟨b, nl, more, hb, h5, h6⟩ := replacement_shape _ _ _ _ h4
          refine ⟨t :: (b ++ [nl]), more, ⟨t.text, none, b⟩, by rw [hb]; simp,
            .object h1 h5 h6 (fun u hu hk => ?_), rfl, rfl⟩
          cases b with
          | nil => cases hu
          | cons x b =>
            simp only [List.head?_cons, Option.some.injEq] at hu
            simp only [List.cons_append, List.cons.injEq] at hb
            obtain ⟨rfl, _⟩ := hb
            subst hu
            cases hs : p.space with
            | true => rfl
            | false => exact absurd ⟨hk, hs⟩ h2
    · rw [if_pos h1] at h; cases h

/-- After accepted directives each name is defined as by its last `#define`, except for
`is_vararg` and white space. -/
theorem C96_table_partial {xs : List Dir} {ys : List SDir} (hw : List.Forall₂ WrittenDir xs ys)
    {s : Table} (h : run empty xs = some s) (name : Bytes) :
    (s name).map Macro.use = (inForce name ys.reverse).map Def.use := by
  have := run_agrees hw (s := empty) (ds := []) (fun _ => ⟨rfl, fun m h => by cases h⟩) h
  simpa using (this name).1

/-- After accepted directives, a definition that is the same as the one in force, or of a
name that is no macro, is accepted. -/
theorem C96_same {xs : List Dir} {ys : List SDir} (hw : List.Forall₂ WrittenDir xs ys) {s : Table}
    (h : run empty xs = some s) {line : List T} {d : Def} (hd : Written line d)
    (hs : ∀ d', inForce d.name ys.reverse = some d' → Same d' d) :
    ∃ s', step s (.define line) = some s' ∧
      (s' d.name).map Macro.use = some d.use ∧
      ∀ n, n ≠ d.name → s' n = s n := by
  have ha := run_agrees hw (s := empty) (ds := []) (fun _ => ⟨rfl, fun m h => by cases h⟩) h
  obtain ⟨m, h1, h2, h3, _⟩ := read_written hd
  have hn := ha d.name
  simp only [List.append_nil] at hn
  simp only [step, h1, define, h2, bind, Option.bind]
  cases ho : s d.name with
  | none =>
    refine ⟨_, rfl, by simp [h3], fun n hn => by simp [hn]⟩
  | some old =>
    rw [ho] at hn
    cases hf : inForce d.name ys.reverse with
    | none => simp [hf] at hn
    | some d' =>
      obtain ⟨_, q2, q3, _⟩ := hs d' hf
      have hu : d'.use = d.use := by
        simp only [Def.use, q2, Use.mk.injEq, true_and]
        have ha : d'.args = d.args := by simp [Def.args, q2]
        refine ⟨by rw [ha], ?_⟩
        have hi : ∀ t, d'.item t = d.item t := fun t => by simp [Def.item, ha]
        have hg : ∀ l : List T, l.map d.item = (l.map (fun t => (t.kind, t.text))).map
            (fun p => d.item ⟨p.1, p.2, false⟩) := fun l => by
          simp [Def.item, Function.comp_def]
        rw [List.map_congr_left fun t _ => hi t, hg, q3, ← hg]
      have hu' : old.use = d.use := by
        have := hn.1
        simp only [hf, Option.map_some, Option.some.injEq] at this
        rw [this, hu]
      have he : macroEq old m = true :=
        (macroEq_iff _ _).2 ⟨by rw [hn.2 old rfl, h2], by rw [hu', h3]⟩
      simp only [he, if_true]
      exact ⟨s, rfl, by simp [ho, hu'], fun n _ => rfl⟩

/-- A definition of a name that is a macro is diagnosed if it differs in being like a function, in the
number of parameters, or in what the tokens of the replacement are or stand for. -/
theorem C96_diagnosed_partial {xs : List Dir} {ys : List SDir}
    (hw : List.Forall₂ WrittenDir xs ys) {s : Table} (h : run empty xs = some s) {line : List T}
    {d d' : Def} (hd : Written line d) (hf : inForce d.name ys.reverse = some d')
    (hu : d'.use ≠ d.use) : step s (.define line) = none := by
  have ha := run_agrees hw (s := empty) (ds := []) (fun _ => ⟨rfl, fun m h => by cases h⟩) h
  obtain ⟨m, h1, h2, h3, _⟩ := read_written hd
  have hn := ha d.name
  simp only [List.append_nil, hf] at hn
  simp only [step, h1, define, h2, bind, Option.bind]
  cases ho : s d.name with
  | none => simp [ho] at hn
  | some old =>
    have he : ¬ macroEq old m = true := fun q => by
      have q := ((macroEq_iff _ _).1 q).2
      rw [ho] at hn
      have := hn.1
      simp only [Option.map_some, Option.some.injEq] at this
      exact hu (by rw [← this, q, h3])
    simp [he]

/-! ## Examples -/

def w (s : Bytes) (space : Bool := false) : T := ⟨.word, s, space⟩
def lp : T := ⟨.lparen, str% "(", false⟩
def rp : T := ⟨.rparen, str% ")", false⟩
def cm : T := ⟨.comma, str% ",", false⟩
def dt : T := ⟨.dots, str% "...", false⟩
def nl : T := ⟨.newline, str% "\n", false⟩
def plus (space : Bool := false) : T := ⟨.other 0, str% "+", space⟩

/-- `F(x, ...) x + __VA_ARGS__ + y` -/
def d1 : Def := ⟨str% "F", some ([str% "x"], true),
  [w (str% "x") true, plus true, w (str% "__VA_ARGS__") true, plus true, w (str% "y") true]⟩

def line1 : List T := [w (str% "F"), lp, w (str% "x"), cm, dt, rp, w (str% "x") true, plus true,
  w (str% "__VA_ARGS__") true, plus true, w (str% "y") true, nl]

theorem written1 : Written line1 d1 :=
  .function (ps := [w (str% "x")] ++ [cm, dt]) (names := [str% "x"]) (v := true)
    (body := d1.body) (n := w (str% "F")) rfl rfl rfl
    (.both (.one (t := w (str% "x")) rfl) rfl rfl) rfl rfl (by decide) (by decide) (by decide)

/-- `F y` -/
def d2 : Def := ⟨str% "F", none, [w (str% "y") true]⟩

def line2 : List T := [w (str% "F"), w (str% "y") true, nl]

theorem written2 : Written line2 d2 :=
  .object (n := w (str% "F")) (body := d2.body) rfl rfl (by decide)
    (fun t h k => by cases h; cases k)

example : preprocessDefine line1 = some ⟨str% "F", true, 2, true,
    [.param 0, .tok (plus true), .param 1, .tok (plus true), .tok (w (str% "y") true)]⟩ := by decide

example : ∃ front more d, line1 = front ++ more ∧ LooselyWritten front d ∧ str% "F" = d.name ∧
    true = d.params.isSome :=
  C96_accepted_partial (m := ⟨str% "F", true, 2, true,
    [.param 0, .tok (plus true), .param 1, .tok (plus true), .tok (w (str% "y") true)]⟩) (by decide)

/-- `1 x` and `F(x y) x` are refused. -/
example : preprocessDefine [⟨.other 1, str% "1", false⟩, w (str% "x") true, nl] = none ∧
    preprocessDefine [w (str% "F"), lp, w (str% "x"), w (str% "y"), rp, w (str% "x"), nl] = none := by
  decide

example : ∃ s, run empty [.define line1, .undef (str% "F"), .define line2] = some s ∧
    (s (str% "F")).map Macro.use = some d2.use := by
  have hw : List.Forall₂ WrittenDir [.define line1, .undef (str% "F"), .define line2]
      [.define d1, .undef (str% "F"), .define d2] :=
    .cons (.define written1) (.cons (.undef _) (.cons (.define written2) .nil))
  have hs : (run empty [.define line1, .undef (str% "F"), .define line2]).isSome = true := by decide
  obtain ⟨s, h⟩ := Option.isSome_iff_exists.1 hs
  refine ⟨s, h, ?_⟩
  rw [C96_table_partial hw h]
  simp [inForce, d2]

example : ∀ s, run empty [.define line1] = some s → step s (.define line2) = none := fun _ h =>
  C96_diagnosed_partial (.cons (.define written1) .nil) h written2 (d' := d1) rfl (by decide)

example : ∀ s, run empty [.define line1] = some s →
    ∃ s', step s (.define line1) = some s' := fun s h => by
  obtain ⟨s', h', _⟩ := C96_same (.cons (.define written1) .nil) h written1 fun d' q => by
    have : d1 = d' := by simpa [inForce] using q
    exact this ▸ ⟨rfl, rfl, rfl, rfl⟩
  exact ⟨s', h'⟩

/-! ## Where it is violated -/

def accepted (xs : List Dir) : Bool := (run empty xs).isSome

/-- `#define F(x, ...) x` and `#define F(x, y) x`: the second is ignored, and the macro goes on
to take more than two arguments. -/
theorem C96_variadic_violated :
    ∃ d d' line line', Written line d ∧ Written line' d' ∧ d.name = d'.name ∧
      d.variadic ≠ d'.variadic ∧ ¬ Same d d' ∧
      ∃ s m, run empty [.define line, .define line'] = some s ∧ s d'.name = some m ∧
        m.vararg ≠ d'.variadic := by
  refine ⟨⟨str% "F", some ([str% "x"], true), [w (str% "x") true]⟩,
    ⟨str% "F", some ([str% "x", str% "y"], false), [w (str% "x") true]⟩,
    [w (str% "F"), lp, w (str% "x"), cm, dt, rp, w (str% "x") true, nl],
    [w (str% "F"), lp, w (str% "x"), cm, w (str% "y"), rp, w (str% "x") true, nl],
    .function (ps := [w (str% "x")] ++ [cm, dt]) (body := [w (str% "x") true]) (n := w (str% "F"))
      rfl rfl rfl (.both (.one (t := w (str% "x")) rfl) rfl rfl) rfl rfl (by decide) (by decide)
      (by decide),
    .function (ps := [w (str% "x"), cm, w (str% "y")]) (body := [w (str% "x") true])
      (n := w (str% "F")) rfl rfl rfl
      (.ids (.more (t := w (str% "x")) rfl rfl (.one (t := w (str% "y")) rfl))) rfl rfl (by decide)
      (by decide) (by decide), rfl, by decide, fun h => ?_, _, _, rfl, rfl, by decide⟩
  have := h.2.1
  revert this
  decide

/-- `#define F(x) x` and `#define F(y) y` differ, and so do `#define A x+x` and `#define A x + x`:
both are accepted. -/
theorem C96_spelling_violated :
    accepted [.define [w (str% "F"), lp, w (str% "x"), rp, w (str% "x"), nl],
      .define [w (str% "F"), lp, w (str% "y"), rp, w (str% "y"), nl]] = true ∧
    accepted [.define [w (str% "A"), w (str% "x") true, plus, w (str% "x"), nl],
      .define [w (str% "A"), w (str% "x") true, plus true, w (str% "x") true, nl]] = true ∧
    ¬ Same ⟨str% "F", some ([str% "x"], false), [w (str% "x")]⟩
      ⟨str% "F", some ([str% "y"], false), [w (str% "y")]⟩ ∧
    ¬ Same ⟨str% "A", none, [w (str% "x") true, plus, w (str% "x")]⟩
      ⟨str% "A", none, [w (str% "x") true, plus true, w (str% "x") true]⟩ := by
  refine ⟨by decide, by decide, fun h => ?_, fun h => ?_⟩
  · have := h.2.1; revert this; decide
  · have := h.2.2.2; revert this; decide

theorem ids_commas {ts : List T} {ns : List Bytes} (h : Ids ts ns) :
    ∀ t, ts.getLast? = some t → t.kind = .word := by
  induction h with
  | one h => intro t e; cases e; exact h
  | @more t c ts ns h hc hi ih =>
    intro u e
    refine ih u ?_
    cases hi <;> simpa using e

/-- `#define F(x,) x` is no list of parameters, and `#define F(x, x) x` has one twice: both are
accepted. -/
theorem C96_parameters_violated :
    accepted [.define [w (str% "F"), lp, w (str% "x"), cm, rp, w (str% "x"), nl]] = true ∧
    (∀ p, ¬ Params [w (str% "x"), cm] p) ∧
    accepted [.define [w (str% "F"), lp, w (str% "x"), cm, w (str% "x"), rp, w (str% "x"), nl]] = true ∧
    ∀ ns v, Params [w (str% "x"), cm, w (str% "x")] (ns, v) → ¬ ns.Nodup := by
  refine ⟨by decide, fun p h => ?_, by decide, fun ns v h => ?_⟩
  · generalize hl : [w (str% "x"), cm] = ts at h
    cases h with
    | none => cases hl
    | dots => cases hl
    | ids h =>
      subst hl
      have := ids_commas h cm rfl
      cases this
    | @both ts ns c d hi hc hd =>
      have := congrArg List.getLast? hl
      simp at this
      rw [← this] at hd
      cases hd
  · generalize hl : [w (str% "x"), cm, w (str% "x")] = ts at h
    cases h with
    | none => cases hl
    | dots => cases hl
    | ids h =>
      subst hl
      cases h with
      | more _ _ h =>
        cases h with
        | one _ => decide
    | @both ts ns c d hi hc hd =>
      have := congrArg List.getLast? hl
      simp at this
      rw [← this] at hd
      cases hd

end Verif.Define
