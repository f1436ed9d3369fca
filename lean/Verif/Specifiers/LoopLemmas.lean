import Verif.Specifiers.Lemmas

namespace Verif.Specifiers
open Verif.Types Verif.Types.Spec Spec

def storageOf : Tok → Option Storage
  | .auto => some .auto
  | .static => some .static
  | .extern => some .extern
  | .typedef => some .typedef
  | _ => none

def namedType : Ty → List Tok → Ty
  | t, [] => t
  | _, .named t :: ts => namedType t ts
  | t, _ :: ts => namedType t ts

/-- What follows the specifiers. -/
def isOther : Tok → Bool
  | .other _ => true
  | _ => false

/-- The state after all of `ts` without error. -/
def after (s : St) (ts : List Tok) (c : Core) : St where
  core := c
  ty := namedType s.ty ts
  const := s.const || ts.contains .const
  volatile := s.volatile || ts.contains .volatile
  storage := s.storage.or (ts.findSome? storageOf)
  inline := s.inline || ts.contains .inline
  noreturn := s.noreturn || ts.contains .noreturn
  register := s.register || ts.contains .register
  errors := s.errors

def b2n (b : Bool) : Nat := if b then 1 else 0

/-- At most one of each kind, and none of them in a specifier-qualifier-list. -/
def FlagsOk (info : Bool) (s : St) (ts : List Tok) : Prop :=
  b2n s.storage.isSome + ts.countP (fun t => (storageOf t).isSome) ≤ 1 ∧
  b2n s.inline + ts.count .inline ≤ 1 ∧ b2n s.noreturn + ts.count .noreturn ≤ 1 ∧ b2n s.register + ts.count .register ≤ 1 ∧
  (info = false → ∀ t ∈ ts, storageOf t = none ∧ t ≠ .inline ∧ t ≠ .noreturn ∧ t ≠ .register)

theorem step_errors {info : Bool} {s s' : St} {t : Tok} (h : step info s t = some s') : s.errors ≤ s'.errors := by
  cases t <;> simp only [step, setStorage] at h
  case named => split at h <;> first | (injection h with h; subst h; exact Nat.le_refl _) | cases h
  case other => simp [coreStep] at h
  all_goals first
    | (injection h with h; subst h; split <;> simp)
    | (injection h with h; subst h; simp; done)
    | (split at h <;> first | (injection h with h; subst h; simp) | cases h)

theorem loop_errors {info : Bool} : ∀ (ts : List Tok) (s : St), s.errors ≤ (loop info s ts).1.errors
  | [], s => Nat.le_refl _
  | t :: ts, s => by
    simp only [loop]
    cases h : step info s t with
    | none => exact Nat.le_refl _
    | some s' => exact Nat.le_trans (step_errors h) (loop_errors ts s')

/-- Tokens that set the type. -/
theorem step_core {info : Bool} {s : St} {t : Tok} {x : S} (h : specOf t = some x) :
    (∀ c', okStep s.core x = some c' → ∃ s', step info s t = some s' ∧ s' = { s with core := c', ty := namedType s.ty [t] }) ∧
    (okStep s.core x = none → step info s t = none ∨ ∃ s', step info s t = some s' ∧ s.errors < s'.errors) := by
  have key : ∀ (o : Option (Core × Bool)), (∀ c', noError o = some c' → o = some (c', false)) ∧
      (noError o = none → o = none ∨ ∃ c', o = some (c', true)) := by
    intro o
    match o with
    | none => simp [noError]
    | some (c, false) => simp [noError]
    | some (c, true) => simp [noError]
  have k := key (coreStep s.core (toTok x))
  unfold okStep
  generalize hc : coreStep s.core (toTok x) = o at k ⊢
  refine ⟨fun c' h' => ?_, fun h' => ?_⟩
  · have e := k.1 c' h'
    subst e
    cases t <;> simp only [specOf] at h <;> first | (injection h with h; subst h) | cases h
    all_goals (simp only [toTok] at hc)
    case named ty =>
      have : coreStep s.core (.named ty) = coreStep s.core (.named { kind := .void }) := rfl
      simp [step, this, hc, namedType]
    all_goals simp [step, hc, namedType]
  · rcases k.2 h' with e | ⟨c', e⟩
    · subst e
      left
      cases t <;> simp only [specOf] at h <;> first | (injection h with h; subst h) | cases h
      all_goals (simp only [toTok] at hc)
      case named ty =>
        have : coreStep s.core (.named ty) = coreStep s.core (.named { kind := .void }) := rfl
        simp [step, this, hc]
      all_goals simp [step, hc]
    · subst e
      right
      cases t <;> simp only [specOf] at h <;> first | (injection h with h; subst h) | cases h
      all_goals (simp only [toTok] at hc)
      case named ty => simp only [coreStep] at hc; split at hc <;> simp at hc
      all_goals simp [step, hc]

theorem loop_flags {info : Bool} : ∀ (ts : List Tok) (s : St), (∀ t ∈ ts, isOther t = false) →
    ((loop info s ts).2 = [] ∧ (loop info s ts).1.errors = s.errors ↔
      (∃ c, coreRun s.core (specs ts) = some c) ∧ FlagsOk info s ts) ∧
    (∀ c, coreRun s.core (specs ts) = some c → FlagsOk info s ts → loop info s ts = (after s ts c, []))
  | [], s, _ => by
    refine ⟨?_, ?_⟩
    · simp [loop, specs, coreRun, FlagsOk, b2n]
      split_ifs <;> omega
    · intro c hc _
      simp only [specs, List.filterMap_nil, coreRun] at hc
      injection hc with hc
      subst hc
      cases s
      simp [loop, after, namedType]
  | t :: ts, s, ho => by
    have ho' : ∀ t ∈ ts, isOther t = false := fun t h => ho t (List.mem_cons_of_mem _ h)
    have ht := ho t List.mem_cons_self
    have fail : ∀ s', step info s t = some s' → s.errors < s'.errors →
        ¬ ((loop info s (t :: ts)).2 = [] ∧ (loop info s (t :: ts)).1.errors = s.errors) := by
      intro s' h1 h2 h3
      simp only [loop, h1] at h3
      have := loop_errors (info := info) ts s'
      omega
    cases hs : specOf t with
    | some x =>
      obtain ⟨k1, k2⟩ := step_core (info := info) (s := s) hs
      have hsp : specs (t :: ts) = x :: specs ts := by simp [specs, hs]
      have hfl : ∀ c', FlagsOk info s (t :: ts) ↔ FlagsOk info { s with core := c', ty := namedType s.ty [t] } ts := by
        intro c'
        have h1 : storageOf t = none ∧ t ≠ .inline ∧ t ≠ .noreturn ∧ t ≠ .register := by
          cases t <;> simp_all [specOf, storageOf]
        obtain ⟨a1, a2, a3, a4⟩ := h1
        simp [FlagsOk, a1, a2, a3, a4, List.count_cons]
      cases hk : okStep s.core x with
      | none =>
        have hr : coreRun s.core (specs (t :: ts)) = none := by rw [hsp]; simp [coreRun, hk]
        refine ⟨⟨fun h => ?_, fun h => by simp [hr] at h⟩, fun c h => by simp [hr] at h⟩
        rcases k2 hk with h1 | ⟨s', h1, h2⟩
        · simp [loop, h1] at h
        · exact absurd h (fail s' h1 h2)
      | some c' =>
        obtain ⟨s', h1, h2⟩ := k1 c' hk
        obtain ⟨i1, i2⟩ := loop_flags (info := info) ts s' ho'
        have hr : coreRun s.core (specs (t :: ts)) = coreRun s'.core (specs ts) := by rw [hsp, h2]; simp [coreRun, hk]
        have hl : loop info s (t :: ts) = loop info s' ts := by simp [loop, h1]
        have he : s'.errors = s.errors := by rw [h2]
        have hf : FlagsOk info s (t :: ts) ↔ FlagsOk info s' ts := by rw [h2]; exact hfl c'
        rw [hr, hl, hf]
        rw [he] at i1
        refine ⟨i1, fun c hc hF => ?_⟩
        rw [i2 c hc hF, h2]
        have h3 : storageOf t = none ∧ t ≠ .inline ∧ t ≠ .noreturn ∧ t ≠ .register ∧ t ≠ .const ∧ t ≠ .volatile := by
          cases t <;> simp_all [specOf, storageOf]
        obtain ⟨a1, a2, a3, a4, a5, a6⟩ := h3
        have hn : namedType s.ty (t :: ts) = namedType (namedType s.ty [t]) ts := by cases t <;> rfl
        simp [after, a1, a2.symm, a3.symm, a4.symm, a5.symm, a6.symm, hn]
    | none =>
      have hsp : specs (t :: ts) = specs ts := by simp [specs, hs]
      rw [hsp]
      have ok : ∀ s', step info s t = some s' → s'.errors = s.errors → s'.core = s.core →
          (FlagsOk info s (t :: ts) ↔ FlagsOk info s' ts) → (FlagsOk info s (t :: ts) → ∀ c, after s (t :: ts) c = after s' ts c) →
          ((loop info s (t :: ts)).2 = [] ∧ (loop info s (t :: ts)).1.errors = s.errors ↔
            (∃ c, coreRun s.core (specs ts) = some c) ∧ FlagsOk info s (t :: ts)) ∧
          (∀ c, coreRun s.core (specs ts) = some c → FlagsOk info s (t :: ts) → loop info s (t :: ts) = (after s (t :: ts) c, [])) := by
        intro s' h1 h2 h3 h4 h5
        obtain ⟨i1, i2⟩ := loop_flags (info := info) ts s' ho'
        have hl : loop info s (t :: ts) = loop info s' ts := by simp [loop, h1]
        rw [hl, h4, ← h3]
        rw [h2] at i1
        exact ⟨i1, fun c hc hF => by rw [i2 c hc hF, h5 (h4.2 hF) c]⟩
      have bad : ∀ s', step info s t = some s' → s.errors < s'.errors → ¬ FlagsOk info s (t :: ts) →
          ((loop info s (t :: ts)).2 = [] ∧ (loop info s (t :: ts)).1.errors = s.errors ↔
            (∃ c, coreRun s.core (specs ts) = some c) ∧ FlagsOk info s (t :: ts)) ∧
          (∀ c, coreRun s.core (specs ts) = some c → FlagsOk info s (t :: ts) → loop info s (t :: ts) = (after s (t :: ts) c, [])) := by
        intro s' h1 h2 h3
        exact ⟨⟨fun h => absurd h (fail s' h1 h2), fun h => absurd h.2 h3⟩, fun c _ h => absurd h h3⟩
      cases t <;> simp only [specOf, reduceCtorEq] at hs
      case other => simp [isOther] at ht
      case const => exact ok _ rfl rfl rfl (by simp [FlagsOk, storageOf, List.count_cons]) (by intro _ c; simp [after, namedType, storageOf, List.findSome?_cons])
      case volatile => exact ok _ rfl rfl rfl (by simp [FlagsOk, storageOf, List.count_cons]) (by intro _ c; simp [after, namedType, storageOf, List.findSome?_cons])
      case inline =>
        by_cases h : info = false ∨ s.inline = true
        · refine bad { s with errors := s.errors + 1 } (by simp [step, h]) (Nat.lt_succ_self _) ?_
          rintro ⟨_, h2, _, _, h5⟩
          rcases h with h | h
          · exact (h5 h _ List.mem_cons_self).2.1 rfl
          · simp [h, b2n] at h2
        · have hi : info = true ∧ s.inline = false := by simpa using h
          refine ok { s with inline := true } (by simp [step, hi]) rfl rfl ?_ ?_
          · simp [FlagsOk, storageOf, List.count_cons, hi, b2n]
          · intro _ c; simp [after, namedType, storageOf, List.findSome?_cons]
      case noreturn =>
        by_cases h : info = false ∨ s.noreturn = true
        · refine bad { s with errors := s.errors + 1 } (by simp [step, h]) (Nat.lt_succ_self _) ?_
          rintro ⟨_, _, h2, _, h5⟩
          rcases h with h | h
          · exact (h5 h _ List.mem_cons_self).2.2.1 rfl
          · simp [h, b2n] at h2
        · have hi : info = true ∧ s.noreturn = false := by simpa using h
          refine ok { s with noreturn := true } (by simp [step, hi]) rfl rfl ?_ ?_
          · simp [FlagsOk, storageOf, List.count_cons, hi, b2n]
          · intro _ c; simp [after, namedType, storageOf, List.findSome?_cons]
      case register =>
        by_cases h : info = false ∨ s.register = true
        · refine bad { s with errors := s.errors + 1 } (by simp [step, h]) (Nat.lt_succ_self _) ?_
          rintro ⟨_, _, _, h2, h5⟩
          rcases h with h | h
          · exact (h5 h _ List.mem_cons_self).2.2.2 rfl
          · simp [h, b2n] at h2
        · have hi : info = true ∧ s.register = false := by simpa using h
          refine ok { s with register := true } (by simp [step, hi]) rfl rfl ?_ ?_
          · simp [FlagsOk, storageOf, List.count_cons, hi, b2n]
          · intro _ c; simp [after, namedType, storageOf, List.findSome?_cons]
      all_goals
        by_cases h : info = false ∨ s.storage.isSome = true
        · refine bad { s with errors := s.errors + 1 } (by simp [step, setStorage, h]) (Nat.lt_succ_self _) ?_
          rintro ⟨h2, _, _, _, h5⟩
          rcases h with h | h
          · have := (h5 h _ List.mem_cons_self).1
            simp [storageOf] at this
          · simp [h, b2n, storageOf] at h2
        · have hi : info = true ∧ s.storage = none := by simpa using h
          have hg : ∀ t, (storageOf t).isSome = true → step info s t = some { s with storage := storageOf t } := by
            intro t ht
            cases t <;> simp [storageOf] at ht <;> simp [step, setStorage, hi, storageOf]
          refine ok _ (hg _ rfl) rfl rfl ?_ ?_
          · simp [FlagsOk, storageOf, List.count_cons, hi, b2n]
            try omega
          · intro _ c; simp [after, namedType, storageOf, List.findSome?_cons, hi]

end Verif.Specifiers
