import Verif.Flow.WalkLemmas

/-!
# From items to instructions
-/

namespace Verif.Flow

open Verif.Conv (CM Val)
open Verif.Compare (Flags runJumps)
open Verif.Expr
open Verif.Linear (Item)

variable {enc : Nat → Option ℚ → List UInt8}

theorem step_flags {s s1 : CM} {f0 f f1 : Option Flags} {i : XIns} (h : f0 = none ∨ f0 = f) (e : Expr.step enc (s, f0) i = some (s1, f1)) :
    ∃ g, Expr.step enc (s, f) i = some (s1, g) ∧ (f1 = none ∨ f1 = g) := by
  cases i with
  | a i =>
    simp only [Expr.step] at e ⊢
    obtain ⟨t, h1, h2⟩ := Option.map_eq_some_iff.mp e
    cases h2
    exact ⟨none, by rw [h1]; rfl, .inl rfl⟩
  | cmp w d r =>
    simp only [Expr.step, Option.some.injEq, Prod.mk.injEq] at e
    obtain ⟨rfl, rfl⟩ := e
    exact ⟨_, rfl, .inr rfl⟩
  | setcc c r =>
    rcases h with rfl | rfl
    · cases e
    · exact ⟨f1, e, .inr rfl⟩

/-- What the flags were does not matter. -/
theorem run_flags : ∀ (c : List XIns) {s s1 : CM} {f0 f f1 : Option Flags}, f0 = none ∨ f0 = f → run enc (s, f0) c = some (s1, f1) →
    ∃ g, run enc (s, f) c = some (s1, g)
  | [], s, s1, f0, f, f1, h, e => by
    simp only [run, Option.some.injEq, Prod.mk.injEq] at e
    obtain ⟨rfl, rfl⟩ := e
    exact ⟨f, rfl⟩
  | i :: c, s, s1, f0, f, f1, h, e => by
    simp only [run] at e ⊢
    obtain ⟨⟨s2, f2⟩, h1, h2⟩ := Option.bind_eq_some_iff.mp e
    obtain ⟨g, g1, g2⟩ := step_flags h h1
    obtain ⟨g', g3⟩ := run_flags c g2 h2
    exact ⟨g', by rw [g1]; exact g3⟩

theorem Steps.trans {prog : List MIns} : ∀ {n m : Nat} {s t u : Nat × XM}, Steps enc prog n s t → Steps enc prog m t u → Steps enc prog (n + m) s u
  | 0, m, s, t, u, h, g => by rw [Nat.zero_add, show s = t from h]; exact g
  | n + 1, m, s, t, u, ⟨x, hx, h⟩, g => by
    rw [show n + 1 + m = (n + m) + 1 by omega]
    exact ⟨x, hx, h.trans g⟩

/-- Instructions in a row. -/
theorem run_steps {prog : List MIns} : ∀ (c : List XIns) {p : Nat} {s t : XM}, (∀ j < c.length, prog[p + j]? = (c.map MIns.x)[j]?) → run enc s c = some t →
    Steps enc prog c.length (p, s) (p + c.length, t)
  | [], p, s, t, _, e => by
    simp only [run, Option.some.injEq] at e
    subst e; rfl
  | i :: c, p, s, t, h, e => by
    simp only [run] at e
    obtain ⟨u, h1, h2⟩ := Option.bind_eq_some_iff.mp e
    have h0 := h 0 (by simp)
    simp only [Nat.add_zero, List.map_cons, List.getElem?_cons_zero] at h0
    refine ⟨(p + 1, u), ?_, ?_⟩
    · simp only [mstep, h0, h1, Option.map_some]
    · have := run_steps (p := p + 1) c (fun j hj => by
        have := h (j + 1) (by simp only [List.length_cons]; omega)
        rw [show p + 1 + j = p + (j + 1) by omega, this]
        simp) h2
      rw [List.length_cons, show p + (c.length + 1) = p + 1 + c.length by omega]
      exact this

/-- Where an item is among the instructions. -/
def pos (code : List (Item (List XIns) Test)) (k : Nat) : Nat := ((code.take k).flatMap flat).length

theorem pos_succ {code : List (Item (List XIns) Test)} {k : Nat} {it : Item (List XIns) Test} (h : code[k]? = some it) :
    pos code (k + 1) = pos code k + (flat it).length := by
  simp only [pos, List.take_add_one, h, Option.toList_some, List.flatMap_append, List.flatMap_singleton, List.length_append]

theorem at_pos {code : List (Item (List XIns) Test)} {k j : Nat} {it : Item (List XIns) Test} (h : code[k]? = some it) (hj : j < (flat it).length) :
    (code.flatMap flat)[pos code k + j]? = (flat it)[j]? := by
  have hk : k < code.length := (List.getElem?_eq_some_iff.mp h).1
  have e : code = code.take k ++ it :: code.drop (k + 1) := by
    have : it = code[k] := (List.getElem?_eq_some_iff.mp h).2.symm
    rw [this, List.getElem_cons_drop, List.take_append_drop]
  have e2 : code.flatMap flat = (code.take k).flatMap flat ++ (flat it ++ (code.drop (k + 1)).flatMap flat) := by
    conv => lhs; rw [e]
    simp only [List.flatMap_append, List.flatMap_cons]
  rw [e2, pos, List.getElem?_append_right (by omega), Nat.add_sub_cancel_left, List.getElem?_append_left hj]

theorem flat_label {n : Nat} {it : Item (List XIns) Test} (h : Linear.isLabel n it = false) : ∀ x ∈ flat it, (x == MIns.label n) = false := by
  intro x hx
  cases it with
  | label k =>
    simp only [flat, List.mem_singleton] at hx
    subst hx
    simp only [Linear.isLabel, beq_eq_false_iff_ne, ne_eq] at h
    simp only [beq_eq_false_iff_ne, ne_eq, MIns.label.injEq]
    exact h
  | stmt c =>
    simp only [flat, List.mem_map] at hx
    obtain ⟨_, _, rfl⟩ := hx
    simp
  | test t => simp only [flat, List.mem_singleton] at hx; subst hx; simp
  | jcc c m => simp only [flat, List.mem_singleton] at hx; subst hx; simp
  | jmp m => simp only [flat, List.mem_singleton] at hx; subst hx; simp
  | ret b => simp only [flat, List.mem_singleton] at hx; subst hx; simp

theorem target_pos {n : Nat} : ∀ {code : List (Item (List XIns) Test)} {p : Nat}, Linear.find code n = some p →
    target (code.flatMap flat) n = some (pos code p)
  | [], p, h => by cases h
  | it :: code, p, h => by
    unfold Linear.find at h
    rw [List.findIdx?_cons] at h
    by_cases hl : Linear.isLabel n it = true
    · rw [if_pos hl] at h
      cases h
      cases it with
      | label k =>
        simp only [Linear.isLabel, beq_iff_eq] at hl
        subst hl
        simp only [target, List.flatMap_cons, flat, List.singleton_append, List.findIdx?_cons, beq_self_eq_true, if_true]
        rfl
      | stmt _ => cases hl
      | test _ => cases hl
      | jcc _ _ => cases hl
      | jmp _ => cases hl
      | ret _ => cases hl
    · rw [if_neg hl] at h
      obtain ⟨q, hq, rfl⟩ := Option.map_eq_some_iff.mp h
      have ih := target_pos (code := code) hq
      simp only [target] at ih ⊢
      rw [List.flatMap_cons, List.findIdx?_append, ih]
      have hnone : (flat it).findIdx? (fun i => i == MIns.label n) = none := by
        rw [List.findIdx?_eq_none_iff]
        intro x hx
        exact flat_label (by simpa using hl) x hx
      rw [hnone]
      simp only [Option.map_some, pos, List.take_succ_cons, List.flatMap_cons, List.length_append, Option.none_or]
      congr 1
      omega

theorem mem_none {code : List (Item (List XIns) Test)} {s t : Linear.S (Option CM)} (h : Linear.step (se enc) code s = .go t) (hs : s.mem = none) :
    t.mem = none := by
  unfold Linear.step at h
  split at h
  · cases h
  · cases h; exact hs
  · cases h; simp only [hs]; rfl
  · cases h; exact hs
  · split at h
    · cases h
    · split_ifs at h
      · unfold Linear.jump at h
        split at h <;> cases h
        exact hs
      · cases h; exact hs
  · unfold Linear.jump at h
    split at h <;> cases h
    exact hs
  · cases h

theorem steps_none {code : List (Item (List XIns) Test)} : ∀ {n : Nat} {s t : Linear.S (Option CM)}, Linear.Steps (se enc) code n s t → s.mem = none →
    t.mem = none
  | 0, _, _, h, hs => by cases show _ = _ from h; exact hs
  | _ + 1, _, _, ⟨_, h1, h2⟩, hs => steps_none h2 (mem_none h1 hs)

/-- One item. -/
theorem item_steps {code : List (Item (List XIns) Test)} {k : Nat} {s t : CM} {fl : Option Flags} {k' : Nat} {fl' : Option Flags} {f : Option Flags}
    (h : Linear.step (se enc) code ⟨k, some s, fl⟩ = .go ⟨k', some t, fl'⟩) (hf : ∀ g, fl = some g → f = some g) :
    ∃ n f', Steps enc (code.flatMap flat) n (pos code k, (s, f)) (pos code k', (t, f')) ∧ ∀ g, fl' = some g → f' = some g := by
  have jmp : ∀ {m : Nat}, Linear.jump code m ⟨k, some s, fl⟩ = .go ⟨k', some t, fl'⟩ →
      target (code.flatMap flat) m = some (pos code k') ∧ t = s ∧ fl' = fl := by
    intro m hj
    unfold Linear.jump at hj
    split at hj
    · rename_i p hp
      cases hj
      exact ⟨target_pos hp, rfl, rfl⟩
    · cases hj
  unfold Linear.step at h
  split at h
  · cases h
  · rename_i m hc
    cases h
    refine ⟨1, f, ⟨_, ?_, rfl⟩, hf⟩
    have := at_pos (j := 0) hc (by simp [flat])
    simp only [Nat.add_zero, flat, List.getElem?_cons_zero] at this
    simp only [mstep, this, pos_succ hc]
    rfl
  · rename_i c hc
    simp only [se, exec, Option.bind_some, Linear.Out.go.injEq, Linear.S.mk.injEq] at h
    obtain ⟨rfl, h2, rfl⟩ := h
    obtain ⟨⟨t', g⟩, h3, h4⟩ := Option.map_eq_some_iff.mp h2
    cases h4
    obtain ⟨g', h5⟩ := run_flags (f := f) c (.inl rfl) h3
    refine ⟨c.length, g', ?_, by simp⟩
    have := run_steps (prog := code.flatMap flat) c (p := pos code k) (fun j hj => at_pos hc (by simpa [flat] using hj)) h5
    rw [pos_succ hc]
    simpa [flat] using this
  · rename_i T hc
    cases h
    refine ⟨1, some (T.flags s.m), ⟨_, ?_, rfl⟩, fun g hg => hg⟩
    have := at_pos (j := 0) hc (by simp [flat])
    simp only [Nat.add_zero, flat, List.getElem?_cons_zero] at this
    simp only [mstep, this, pos_succ hc]
    rfl
  · rename_i c m hc
    have hat := at_pos (j := 0) hc (by simp [flat])
    simp only [Nat.add_zero, flat, List.getElem?_cons_zero] at hat
    split at h
    · cases h
    · rename_i g hg
      have hfg : f = some g := hf g hg
      by_cases hcc : c.eval g = true
      · rw [if_pos hcc] at h
        obtain ⟨h1, rfl, rfl⟩ := jmp h
        refine ⟨1, f, ⟨_, ?_, rfl⟩, hf⟩
        simp only [mstep, hat, hfg, Option.bind_some, hcc, if_true, h1, Option.map_some]
      · rw [if_neg hcc] at h
        cases h
        refine ⟨1, f, ⟨_, ?_, rfl⟩, hf⟩
        simp only [mstep, hat, hfg, Option.bind_some, if_neg hcc, pos_succ hc]
        rfl
  · rename_i m hc
    have hat := at_pos (j := 0) hc (by simp [flat])
    simp only [Nat.add_zero, flat, List.getElem?_cons_zero] at hat
    obtain ⟨h1, rfl, rfl⟩ := jmp h
    refine ⟨1, f, ⟨_, ?_, rfl⟩, hf⟩
    simp only [mstep, hat, h1, Option.map_some]
  · cases h

theorem flat_steps {code : List (Item (List XIns) Test)} : ∀ {n : Nat} {k k' : Nat} {s t : CM} {fl fl' f : Option Flags},
    Linear.Steps (se enc) code n ⟨k, some s, fl⟩ ⟨k', some t, fl'⟩ → (∀ g, fl = some g → f = some g) →
    ∃ m f', Steps enc (code.flatMap flat) m (pos code k, (s, f)) (pos code k', (t, f'))
  | 0, k, k', s, t, fl, fl', f, h, _ => by
    cases show (⟨k, some s, fl⟩ : Linear.S (Option CM)) = _ from h
    exact ⟨0, f, rfl⟩
  | n + 1, k, k', s, t, fl, fl', f, ⟨⟨k1, m1, f1⟩, h1, h2⟩, hf => by
    cases m1 with
    | none => cases steps_none h2 rfl
    | some s1 =>
      obtain ⟨a, g, e1, e2⟩ := item_steps h1 hf
      obtain ⟨b, g', e3⟩ := flat_steps h2 e2
      exact ⟨a + b, g', e1.trans e3⟩

/-- The instructions return where the items do. -/
theorem finishes_returns {code : List (Item (List XIns) Test)} {s s' : CM} {b : Nat} (h : Linear.Finishes (se enc) code (some s) b (some s'))
    (f : Option Flags) : ∃ g, Returns enc (code.flatMap flat) (s, f) (s', g) := by
  obtain ⟨n, ⟨k, mem, fl⟩, h1, h2⟩ := h
  have hd : code[k]? = some (.ret b) ∧ mem = some s' := by
    unfold Linear.step at h2
    split at h2
    · cases h2
    · cases h2
    · cases h2
    · cases h2
    · split at h2
      · cases h2
      · split_ifs at h2
        unfold Linear.jump at h2
        split at h2 <;> cases h2
    · unfold Linear.jump at h2
      split at h2 <;> cases h2
    · rename_i hc
      cases h2
      exact ⟨hc, rfl⟩
  obtain ⟨hc, rfl⟩ := hd
  obtain ⟨m, g, e⟩ := flat_steps (f := f) h1 (by simp)
  refine ⟨g, m, pos code k, e, ?_⟩
  have := at_pos (j := 0) hc (by simp [flat])
  simpa [flat] using this

end Verif.Flow
