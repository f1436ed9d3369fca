import Verif.Specifiers.Model
import Verif.Specifiers.Spec
import Verif.Types.Lemmas
import Verif.Tac

namespace Verif.Specifiers
open Verif.Types Verif.Types.Spec Spec

/-- The type specifiers among the tokens. -/
def specOf : Tok → Option S
  | .void => some .void
  | .bool => some .bool
  | .char => some .char
  | .short => some .short
  | .int => some .int
  | .long => some .long
  | .signed => some .signed
  | .unsigned => some .unsigned
  | .float => some .float
  | .double => some .double
  | .named _ => some .named
  | .enum => some .enum
  | _ => none

def specs (ts : List Tok) : List S := ts.filterMap specOf

def isStorage : Tok → Bool
  | .auto | .static | .extern | .typedef => true
  | _ => false

def toTok : S → Tok
  | .void => .void
  | .bool => .bool
  | .char => .char
  | .short => .short
  | .int => .int
  | .long => .long
  | .signed => .signed
  | .unsigned => .unsigned
  | .float => .float
  | .double => .double
  | .named => .named { kind := .void }
  | .enum => .enum

def noError : Option (Core × Bool) → Option Core
  | some (c', false) => some c'
  | _ => none

/-- A step without error. -/
def okStep (c : Core) (x : S) : Option Core := noError (coreStep c (toTok x))

def coreRun : Core → List S → Option Core
  | c, [] => some c
  | c, x :: xs => match okStep c x with
    | some c' => coreRun c' xs
    | none => none

def allBases : List Base := [.none, .void, .bool, .char, .int, .float, .double, .enum, .aggregate]
def allMods : List Modifier := [.none, .short, .long, .longLong]
def allSigns : List Sign := [.none, .signed, .unsigned]
def allCores : List Core := allBases.flatMap fun b => allMods.flatMap fun m => allSigns.map fun s => ⟨b, m, s⟩
def allS : List S := [.void, .bool, .char, .short, .int, .long, .signed, .unsigned, .float, .double, .named, .enum]

theorem mem_allCores (c : Core) : c ∈ allCores := by
  obtain ⟨b, m, s⟩ := c
  cases b <;> cases m <;> cases s <;> decide

theorem mem_allS (x : S) : x ∈ allS := by cases x <;> decide

/-- The specifiers a state stands for. -/
def content (c : Core) : List S :=
  (match c.sign with | .none => [] | .signed => [.signed] | .unsigned => [.unsigned]) ++
  (match c.mod with | .none => [] | .short => [.short] | .long => [.long] | .longLong => [.long, .long]) ++
  (match c.base with
    | .none => [] | .void => [.void] | .bool => [.bool] | .char => [.char] | .int => [.int] | .float => [.float]
    | .double => [.double] | .enum => [.enum] | .aggregate => [.named])

def isSign (x : S) : Bool := x == .signed || x == .unsigned
def noSign (x : S) : Bool := x == .void || x == .bool || x == .float || x == .double || x == .named || x == .enum

/-- No `signed` or `unsigned` after a specifier it cannot be combined with. -/
def SignFirst (l : List S) : Prop := l.Pairwise fun a b => ¬ (noSign a = true ∧ isSign b = true)

/-- No `long` after `int` or `double`. -/
def LongFirst (l : List S) : Prop := l.Pairwise fun a b => ¬ ((a = .int ∨ a = .double) ∧ b = .long)

def sameCounts (a b : List S) : Bool := allS.all fun x => a.count x == b.count x

theorem perm_of_sameCounts {a b : List S} (h : sameCounts a b = true) : a.Perm b := by
  rw [List.perm_iff_count]
  intro x
  have := List.all_eq_true.1 h x (mem_allS x)
  simpa using this

theorem sameCounts_of_perm {a b : List S} (h : a.Perm b) : sameCounts a b = true := by
  rw [sameCounts, List.all_eq_true]
  intro x _
  simpa using h.count_eq x

theorem step_content_tab : ∀ c ∈ allCores, ∀ x ∈ allS, ∀ c' ∈ okStep c x, sameCounts (content c ++ [x]) (content c') = true := by
  decide +kernel

theorem step_content {c c' : Core} {x : S} (h : okStep c x = some c') : (content c ++ [x]).Perm (content c') :=
  perm_of_sameCounts (step_content_tab c (mem_allCores c) x (mem_allS x) c' h)

theorem run_content : ∀ (l : List S) (c c' : Core), coreRun c l = some c' → (content c ++ l).Perm (content c')
  | [], c, c', h => by simp only [coreRun] at h; injection h with h; subst h; simp
  | x :: xs, c, c', h => by
    simp only [coreRun] at h
    cases h1 : okStep c x with
    | none => simp [h1] at h
    | some c1 =>
      simp only [h1] at h
      have h2 := run_content xs c1 c' h
      have h3 := step_content h1
      have : (content c ++ x :: xs) = (content c ++ [x]) ++ xs := by simp
      rw [this]
      exact (h3.append_right xs).trans h2

/-- States whose specifiers are in the table. -/
def good (c : Core) : Bool := table.any fun row => sameCounts (content c) row.1

theorem step_good_tab : ∀ c ∈ allCores, ∀ x ∈ allS, ∀ c' ∈ okStep c x, good c = true →
    ((content c).any noSign && isSign x) = false → good c' = true := by
  decide +kernel

theorem good_denotes {c : Core} (h : good c = true) {l : List S} (hl : l.Perm (content c)) : ∃ m, Denotes l m := by
  obtain ⟨row, hr, h1⟩ := List.any_eq_true.1 h
  exact ⟨row.2, row, hr, rfl, hl.trans (perm_of_sameCounts h1)⟩

theorem run_good : ∀ (l p : List S) (c c' : Core), coreRun c l = some c' → p.Perm (content c) → SignFirst (p ++ l) →
    good c = true → good c' = true
  | [], p, c, c', h, hp, hs, hg => by simp only [coreRun] at h; injection h with h; subst h; exact hg
  | x :: xs, p, c, c', h, hp, hs, hg => by
    simp only [coreRun] at h
    cases h1 : okStep c x with
    | none => simp [h1] at h
    | some c1 =>
      simp only [h1] at h
      refine run_good xs (p ++ [x]) c1 c' h ((hp.append_right [x]).trans (step_content h1)) (by simpa using hs) ?_
      refine step_good_tab c (mem_allCores c) x (mem_allS x) c1 h1 hg ?_
      by_contra hc
      simp only [Bool.not_eq_false, Bool.and_eq_true, List.any_eq_true] at hc
      obtain ⟨⟨y, hy, h2⟩, h3⟩ := hc
      unfold SignFirst at hs
      rw [List.pairwise_append] at hs
      exact hs.2.2 y (hp.mem_iff.2 hy) x List.mem_cons_self ⟨h2, h3⟩

theorem stuck_tab : ∀ c ∈ allCores, ∀ x ∈ allS, okStep c x = none →
    (((content c).any fun y => y == .int || y == .double) && (x == .long)) = false →
    ∀ row ∈ table, (allS.any fun y => decide (row.1.count y < (content c ++ [x]).count y)) = true := by
  decide +kernel

theorem run_complete {row : List S × Meaning} (hr : row ∈ table) : ∀ (l p : List S) (c : Core), p.Perm (content c) →
    (p ++ l).Perm row.1 → LongFirst (p ++ l) → ∃ c', coreRun c l = some c'
  | [], p, c, hp, h, hs => ⟨c, rfl⟩
  | x :: xs, p, c, hp, h, hs => by
    simp only [coreRun]
    cases h1 : okStep c x with
    | some c1 =>
      exact run_complete hr xs (p ++ [x]) c1 ((hp.append_right [x]).trans (step_content h1)) (by simpa using h) (by simpa using hs)
    | none =>
      exfalso
      have hb : (((content c).any fun y => y == .int || y == .double) && (x == .long)) = false := by
        by_contra hc
        simp only [Bool.not_eq_false, Bool.and_eq_true, List.any_eq_true, Bool.or_eq_true, beq_iff_eq] at hc
        obtain ⟨⟨y, hy, h2⟩, h3⟩ := hc
        unfold LongFirst at hs
        rw [List.pairwise_append] at hs
        exact hs.2.2 y (hp.mem_iff.2 hy) x List.mem_cons_self ⟨h2, h3⟩
      have := stuck_tab c (mem_allCores c) x (mem_allS x) h1 hb row hr
      obtain ⟨y, _, hy⟩ := List.any_eq_true.1 this
      have hy := of_decide_eq_true hy
      have e := h.count_eq y
      have e2 := hp.count_eq y
      simp only [List.count_append, List.count_cons, List.count_nil] at e e2 hy
      omega

/-- The type the table prescribes, as it is represented. -/
def typeOf : Meaning → Ty → Ty
  | .void, _ => { kind := .void }
  | .basic b, _ => { kind := kindOf b, uns := unsOf b }
  | .named, t => t

theorem type_tab : ∀ c ∈ allCores, ∀ row ∈ table, sameCounts (content c) row.1 = true →
    (row.2 = .named ∧ c.base = .aggregate) ∨ (row.2 ≠ .named ∧ c.base ≠ .aggregate ∧
      coreType c { kind := .void } = typeOf row.2 { kind := .void }) := by
  decide +kernel

theorem type_eq {c : Core} {l : List S} {m : Meaning} (h : Denotes l m) (hc : l.Perm (content c)) (t : Ty) :
    coreType c t = typeOf m t := by
  obtain ⟨row, hr, rfl, hp⟩ := h
  rcases type_tab c (mem_allCores c) row hr (sameCounts_of_perm (hc.symm.trans hp)) with ⟨h1, h2⟩ | ⟨h1, h2, h3⟩
  · rw [h1]; unfold coreType; rw [h2]; rfl
  · have e1 : coreType c t = coreType c { kind := .void } := by
      obtain ⟨b, m, s⟩ := c
      cases b <;> first | rfl | exact absurd rfl h2
    rw [e1, h3]
    cases hm : row.2 with
    | named => exact absurd hm h1
    | void => rfl
    | basic b => rfl

end Verif.Specifiers
