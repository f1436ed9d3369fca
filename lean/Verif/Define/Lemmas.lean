import Verif.Define.Spec

namespace Verif.Define

def erase : Rep → (K × Bytes) ⊕ Nat
  | .tok t => .inl (t.kind, t.text)
  | .param i => .inr i

def Macro.use (m : Macro) : Use := ⟨m.func, m.params, m.replacement.map erase⟩

theorem tokEq_iff (a b : T) : tokEq a b = true ↔ a.kind = b.kind ∧ a.text = b.text := by
  simp [tokEq]

theorem repEq_iff (a b : Rep) : repEq a b = true ↔ erase a = erase b := by
  cases a <;> cases b <;> simp [repEq, erase, tokEq_iff]

theorem repsEq_iff : ∀ as bs : List Rep, repsEq as bs = true ↔ as.map erase = bs.map erase
  | [], [] => by simp [repsEq]
  | [], b :: bs => by simp [repsEq]
  | a :: as, [] => by simp [repsEq]
  | a :: as, b :: bs => by simp [repsEq, repEq_iff, repsEq_iff as bs]

theorem macroEq_iff (a b : Macro) : macroEq a b = true ↔ a.name = b.name ∧ a.use = b.use := by
  simp only [macroEq, Bool.and_eq_true, beq_iff_eq, repsEq_iff, Macro.use, Use.mk.injEq]
  tauto

theorem readParams_ids {ts : List T} {ns : List Bytes} (h : Ids ts ns) {rp : T} (hr : rp.kind = .rparen)
    (rest : List T) : ∃ ps, readParams (ts ++ rp :: rest) = some (ps, false, rp :: rest) ∧
      ps.map (·.text) = ns ∧ ∀ p ∈ ps, p.kind = .word := by
  induction h with
  | @one t h => exact ⟨[t], by simp [readParams, h, hr], rfl, by simpa using h⟩
  | @more t c ts ns h hc _ ih =>
    obtain ⟨ps, h1, h2, h3⟩ := ih
    refine ⟨t :: ps, by simp [readParams, h, hc, h1], by simp [h2], ?_⟩
    simpa [h] using h3

theorem readParams_both {ts : List T} {ns : List Bytes} (h : Ids ts ns) {c d : T}
    (hc : c.kind = .comma) (hd : d.kind = .dots) (rest : List T) :
    ∃ ps, readParams (ts ++ c :: d :: rest) = some (ps, true, rest) ∧
      ps.map (·.text) = ns ++ [str% "__VA_ARGS__"] ∧ ∀ p ∈ ps, p.kind = .word := by
  induction h with
  | @one t h =>
    have hr : readParams (d :: rest) = some ([vaArgs], true, rest) := by
      unfold readParams
      simp [hd]
    exact ⟨[t, vaArgs], by simp [readParams, h, hc, hr], by simp [vaArgs], by simp [h, vaArgs]⟩
  | @more t c' ts ns h hc' _ ih =>
    obtain ⟨ps, h1, h2, h3⟩ := ih
    refine ⟨t :: ps, by simp [readParams, h, hc', h1], by simp [h2], ?_⟩
    simpa [h] using h3

theorem readParams_params {ts : List T} {ns : List Bytes} {v : Bool} (h : Params ts (ns, v)) {rp : T}
    (hr : rp.kind = .rparen) (rest : List T) :
    ∃ ps, readParams (ts ++ rp :: rest) = some (ps, v, rp :: rest) ∧
      ps.map (·.text) = (ns ++ if v then [str% "__VA_ARGS__"] else []) ∧
      ∀ p ∈ ps, p.kind = .word := by
  cases h with
  | none => exact ⟨[], by unfold readParams; simp [hr], rfl, by simp⟩
  | @dots d hd => exact ⟨[vaArgs], by unfold readParams; simp [hd], rfl, by simp [vaArgs]⟩
  | ids h => simpa using readParams_ids h hr rest
  | both h hc hd => simpa using readParams_both h hc hd (rp :: rest)

theorem findParam_eq {t : T} (ht : t.kind = .word) : ∀ (ps : List T) (i : Nat),
    (∀ p ∈ ps, p.kind = .word) →
    findParam ps t i = if t.text ∈ ps.map (·.text) then some (i + (ps.map (·.text)).idxOf t.text) else none
  | [], i, _ => by simp [findParam]
  | p :: ps, i, h => by
    have hp : p.kind = .word := h p (by simp)
    have ih := findParam_eq ht ps (i + 1) fun q hq => h q (by simp [hq])
    simp only [findParam]
    by_cases e : t.text = p.text
    · rw [if_pos ((tokEq_iff _ _).2 ⟨ht.trans hp.symm, e⟩)]
      simp [e, List.idxOf_cons]
    · rw [if_neg fun q => e ((tokEq_iff _ _).1 q).2, ih]
      have e' : ¬ p.text = t.text := fun q => e q.symm
      have e2 : (p.text == t.text) = false := by simpa using e'
      simp only [List.map_cons, List.mem_cons, e, false_or, List.idxOf_cons, e2, cond_false]
      split_ifs
      · congr 1; omega
      · rfl

theorem replacement_eq (d : Def) {ps : List T} (hp : ps.map (·.text) = d.args)
    (hw : ∀ p ∈ ps, p.kind = .word) {nl : T} (hn : nl.kind = .newline) :
    ∀ body : List T, (∀ t ∈ body, t.kind ≠ .newline) →
      ∃ r, replacement d.params.isSome ps (body ++ [nl]) = some r ∧
        r.map erase = body.map d.item
  | [], _ => ⟨[], by simp [replacement, hn], rfl⟩
  | t :: body, h => by
    obtain ⟨r, h1, h2⟩ := replacement_eq d hp hw hn body fun q hq => h q (by simp [hq])
    have ht : t.kind ≠ .newline := h t (by simp)
    simp only [List.cons_append, replacement, ht, if_false, h1]
    by_cases hk : t.kind = .word
    · cases hs : d.params with
      | none =>
        refine ⟨.tok t :: r, by simp, ?_⟩
        simp [erase, h2, Def.item, Def.args, hs]
      | some q =>
        have hf := findParam_eq hk ps 0 hw
        rw [hp] at hf
        by_cases hm : t.text ∈ d.args
        · rw [if_pos hm] at hf
          refine ⟨.param (d.args.idxOf t.text) :: r, by simp [hk, hf], ?_⟩
          simp [erase, h2, Def.item, hk, hm]
        · rw [if_neg hm] at hf
          refine ⟨.tok t :: r, by simp [hk, hf], ?_⟩
          simp [erase, h2, Def.item, hm]
    · refine ⟨.tok t :: r, by simp [hk], ?_⟩
      simp [erase, h2, Def.item, hk]

theorem read_written {line : List T} {d : Def} (h : Written line d) :
    ∃ m, preprocessDefine line = some m ∧ m.name = d.name ∧ m.use = d.use ∧
      m.vararg = d.variadic := by
  cases h with
  | @object n nl body hn hl hb hs =>
    obtain ⟨r, h1, h2⟩ := replacement_eq ⟨n.text, none, body⟩ (ps := []) rfl (by simp) hl body hb
    refine ⟨⟨n.text, false, 0, false, r⟩, ?_, rfl, ?_, rfl⟩
    · cases body with
      | nil =>
        simp only [List.nil_append] at h1 ⊢
        simp only [Option.isSome] at h1
        simp [preprocessDefine, hn, hl, h1]
      | cons t body =>
        have : ¬(t.kind = .lparen ∧ t.space = false) := fun q => by
          have := hs t rfl q.1
          simp [q.2] at this
        simp only [List.cons_append, Option.isSome] at h1 ⊢
        simp [preprocessDefine, hn, this, h1]
    · simp [Macro.use, Def.use, h2, Def.args]
  | @function n lp rp nl ps names v body hn hlp hls hps hrp hl hb _ _ =>
    obtain ⟨qs, h1, h2, h3⟩ := readParams_params hps hrp (body ++ [nl])
    obtain ⟨r, h4, h5⟩ := replacement_eq ⟨n.text, some (names, v), body⟩ (ps := qs)
      (by simpa [Def.args] using h2) h3 hl body hb
    have h4' : replacement true qs (body ++ [nl]) = some r := h4
    refine ⟨⟨n.text, true, qs.length, v, r⟩, ?_, rfl, ?_, ?_⟩
    · simp [preprocessDefine, hn, hlp, hls, h1, hrp, h4']
    · have hl : qs.length = (Def.args ⟨n.text, some (names, v), body⟩).length := by
        rw [← List.length_map (f := (·.text)) (as := qs), h2]; rfl
      simp only [Macro.use, Def.use, h5, hl]
      rfl
    · simp [Def.variadic]

/-- What is in the table is the definition in force. -/
def Agrees (s : Table) (ds : List SDir) : Prop :=
  ∀ name, (s name).map Macro.use = (inForce name ds).map Def.use ∧
    ∀ m, s name = some m → m.name = name

theorem step_agrees {s s' : Table} {ds : List SDir} {x : Dir} {y : SDir} (ha : Agrees s ds)
    (hw : WrittenDir x y) (h : step s x = some s') : Agrees s' (y :: ds) := by
  cases hw with
  | undef n =>
    cases h
    intro name
    by_cases e : name = n
    · subst e; simp [undef, inForce]
    · have e' : ¬ n = name := fun q => e q.symm
      simpa [undef, inForce, e, e'] using ha name
  | @define line d hw =>
    obtain ⟨m, h1, h2, h3, _⟩ := read_written hw
    simp only [step, h1, define] at h
    intro name
    cases hs : s m.name with
    | none =>
      simp [hs] at h
      subst h
      by_cases e : name = m.name
      · subst e
        simp [inForce, h2, h3]
      · have e' : ¬ d.name = name := fun q => e (by rw [← q, h2])
        simpa [inForce, e, e'] using ha name
    | some old =>
      simp only [hs, bind, Option.bind] at h
      split_ifs at h with q
      cases h
      have q' := (macroEq_iff _ _).1 q
      by_cases e : name = m.name
      · subst e
        refine ⟨?_, (ha _).2⟩
        simp [inForce, ← h2, hs, q'.2, h3]
      · have e' : ¬ d.name = name := fun q => e (by rw [← q, h2])
        simpa [inForce, e'] using ha name

theorem run_agrees {xs : List Dir} {ys : List SDir} (hw : List.Forall₂ WrittenDir xs ys) :
    ∀ {s s' : Table} {ds : List SDir}, Agrees s ds → run s xs = some s' →
      Agrees s' (ys.reverse ++ ds) := by
  induction hw with
  | nil => intro s s' ds ha h; cases h; simpa using ha
  | @cons x y xs ys hxy _ ih =>
    intro s s' ds ha h
    simp only [run] at h
    cases h1 : step s x with
    | none => simp [h1] at h
    | some s1 =>
      simp only [h1] at h
      have := ih (step_agrees ha hxy h1) h
      simpa using this

end Verif.Define
