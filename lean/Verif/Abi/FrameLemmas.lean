import Verif.Abi.Arrive

/-!
# The parts of a frame

Offsets from `%rbp` and sizes in bytes.
-/

namespace Verif.Abi

/-- Two parts of memory have no byte in common. -/
def Apart (a b : Int × Nat) : Prop := a.1 + a.2 ≤ b.1 ∨ b.1 + b.2 ≤ a.1

/-- The registers saved at entry. -/
def savedParts (k : Nat) : List (Int × Nat) := (List.range k).map fun i : Nat => (-(8 * (i + 1) : Int), 8)

/-- The parameters which were passed in registers (`b = true`), or on the stack. -/
def paramParts (b : Bool) (params : List Ty) (f : Frame) : List (Int × Nat) :=
  (params.zip (f.classes.zip f.params)).filterMap fun (t, (_, b'), o) => if b' = b then some (o, t.size) else none

def localParts (locals : List Nat) (f : Frame) : List (Int × Nat) := f.locals.zip locals

/-- Parts from `hi` down to `lo`, in order. -/
def Chain (lo hi : Int) : List (Int × Nat) → Prop
  | [] => lo ≤ hi
  | (o, n) :: l => o + n ≤ hi ∧ Chain lo o l

theorem Chain.mono {lo lo' hi hi' : Int} : ∀ {l : List (Int × Nat)}, Chain lo hi l → lo' ≤ lo → hi ≤ hi' → Chain lo' hi' l
  | [], h, h1, h2 => by simp only [Chain] at *; omega
  | (o, n) :: l, h, h1, h2 => by simp only [Chain] at *; exact ⟨by omega, h.2.mono h1 (Int.le_refl _)⟩

theorem Chain.append {lo mid hi : Int} : ∀ {a b : List (Int × Nat)}, Chain mid hi a → Chain lo mid b → Chain lo hi (a ++ b)
  | [], b, h1, h2 => by simp only [Chain] at h1; exact h2.mono (Int.le_refl _) h1
  | (o, n) :: a, b, h1, h2 => by simp only [List.cons_append, Chain] at *; exact ⟨h1.1, h1.2.append h2⟩

theorem Chain.bounds {lo hi : Int} : ∀ {l : List (Int × Nat)}, Chain lo hi l → ∀ p ∈ l, lo ≤ p.1 ∧ p.1 + p.2 ≤ hi
  | [], _, p, hp => by simp at hp
  | (o, n) :: l, h, p, hp => by
    simp only [Chain] at h
    have hlo : ∀ {l : List (Int × Nat)} {hi : Int}, Chain lo hi l → lo ≤ hi := by
      intro l
      induction l with
      | nil => intro hi h; exact h
      | cons x l ih => intro hi h; obtain ⟨o, n⟩ := x; simp only [Chain] at h; have := ih h.2; omega
    rcases List.mem_cons.mp hp with rfl | hp
    · exact ⟨hlo h.2, h.1⟩
    · have := h.2.bounds p hp
      omega

theorem Chain.apart {lo hi : Int} : ∀ {l : List (Int × Nat)}, Chain lo hi l → l.Pairwise Apart
  | [], _ => List.Pairwise.nil
  | (o, n) :: l, h => by
    simp only [Chain] at h
    refine List.pairwise_cons.mpr ⟨fun p hp => ?_, h.2.apart⟩
    have := h.2.bounds p hp
    exact .inr (by simp only; omega)

theorem saved_chain : ∀ k : Nat, Chain (-(8 * k : Int)) 0 (savedParts k)
  | 0 => by simp [savedParts, Chain]
  | k + 1 => by
    have h := saved_chain k
    have e : savedParts (k + 1) = savedParts k ++ [(-(8 * (k + 1) : Int), 8)] := by
      simp [savedParts, List.range_succ]
    rw [e]
    refine h.append ?_
    simp only [Chain]
    push_cast
    omega

theorem reg_chain (ro : Nat) : ∀ (ts : List Ty) (l : List (PC × Bool)) (so mo : Int),
    Chain ((paramOffsets ro ts l so mo).2.1 - ro) (so - ro)
      ((ts.zip (l.zip (paramOffsets ro ts l so mo).1)).filterMap fun (t, (_, b'), o) =>
        if b' = true then some (o, t.size) else none)
  | [], _, _, _ => by simp [paramOffsets, Chain]
  | _ :: _, [], _, _ => by simp [paramOffsets, Chain]
  | t :: ts, (pc, b) :: l, so, mo => by
    have hn : t.size ≤ 8 * eightbytes t := by simp only [eightbytes]; omega
    cases b with
    | true =>
      have ih := reg_chain ro ts l (so - (8 * eightbytes t : Nat)) mo
      simp only [paramOffsets, if_true, List.zip_cons_cons, List.filterMap_cons, Chain]
      exact ⟨by omega, ih⟩
    | false =>
      have ih := reg_chain ro ts l so (mo + (8 * eightbytes t : Nat))
      simp only [paramOffsets, Bool.false_eq_true, if_false, List.zip_cons_cons, List.filterMap_cons]
      exact ih

/-- Parameters on the stack, in ascending order. -/
theorem stack_chain (ro : Nat) : ∀ (ts : List Ty) (l : List (PC × Bool)) (so mo : Int),
    let ps := (ts.zip (l.zip (paramOffsets ro ts l so mo).1)).filterMap fun (t, (_, b'), o) =>
        if b' = false then some (o, t.size) else none
    ps.Pairwise Apart ∧ (∀ p ∈ ps, mo ≤ p.1 ∧ p.1 + p.2 ≤ (paramOffsets ro ts l so mo).2.2) ∧
      mo ≤ (paramOffsets ro ts l so mo).2.2
  | [], _, _, _ => by simp [paramOffsets]
  | _ :: _, [], _, _ => by simp [paramOffsets]
  | t :: ts, (pc, b) :: l, so, mo => by
    have hn : t.size ≤ 8 * eightbytes t := by simp only [eightbytes]; omega
    cases b with
    | true =>
      have ih := stack_chain ro ts l (so - (8 * eightbytes t : Nat)) mo
      simpa only [paramOffsets, if_true, List.zip_cons_cons, List.filterMap_cons, Bool.true_eq_false, if_false] using ih
    | false =>
      obtain ⟨h1, h2, h3⟩ := stack_chain ro ts l so (mo + (8 * eightbytes t : Nat))
      simp only [paramOffsets, Bool.false_eq_true, if_false, List.zip_cons_cons, List.filterMap_cons, if_true]
      refine ⟨List.pairwise_cons.mpr ⟨fun p hp => .inl ?_, h1⟩, ?_, by omega⟩
      · have := h2 p hp
        simp only
        omega
      · intro p hp
        rcases List.mem_cons.mp hp with rfl | hp
        · simp only; omega
        · have := h2 p hp; omega

theorem local_chain (ro : Nat) : ∀ (ls : List Nat) (so : Int),
    Chain ((localOffsets ro ls so).2 - ro) (so - ro) ((localOffsets ro ls so).1.zip ls)
  | [], so => by simp [localOffsets, Chain]
  | n :: ls, so => by
    have ih := local_chain ro ls (so - ((n + 7) / 8 * 8 : Nat))
    simp only [localOffsets, List.zip_cons_cons, Chain]
    exact ⟨by omega, ih⟩

theorem paramOffsets_mod (ro : Nat) (hr : ro % 8 = 0) : ∀ (ts : List Ty) (l : List (PC × Bool)) (so mo : Int),
    so % 8 = 0 → mo % 8 = 0 → (∀ o ∈ (paramOffsets ro ts l so mo).1, o % 8 = 0) ∧ (paramOffsets ro ts l so mo).2.1 % 8 = 0
  | [], _, so, _, h, _ => by simp [paramOffsets, h]
  | _ :: _, [], so, _, h, _ => by simp [paramOffsets, h]
  | t :: ts, (pc, b) :: l, so, mo, h, hm => by
    cases b with
    | true =>
      have ih := paramOffsets_mod ro hr ts l (so - (8 * eightbytes t : Nat)) mo (by omega) hm
      simp only [paramOffsets, if_true, List.mem_cons, forall_eq_or_imp]
      exact ⟨⟨by omega, ih.1⟩, ih.2⟩
    | false =>
      have ih := paramOffsets_mod ro hr ts l so (mo + (8 * eightbytes t : Nat)) h (by omega)
      simp only [paramOffsets, Bool.false_eq_true, if_false, List.mem_cons, forall_eq_or_imp]
      exact ⟨⟨by omega, ih.1⟩, ih.2⟩

theorem localOffsets_mod (ro : Nat) (hr : ro % 8 = 0) : ∀ (ls : List Nat) (so : Int), so % 8 = 0 →
    ∀ o ∈ (localOffsets ro ls so).1, o % 8 = 0
  | [], so, _ => by simp [localOffsets]
  | n :: ls, so, h => by
    have ih := localOffsets_mod ro hr ls (so - ((n + 7) / 8 * 8 : Nat)) (by omega)
    simp only [localOffsets, List.mem_cons, forall_eq_or_imp]
    exact ⟨by omega, ih⟩

end Verif.Abi
