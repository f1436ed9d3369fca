import Verif.Declarator.Lemmas

/-!
# All declarators
-/

namespace Verif.Declarator

set_option linter.unusedSimpArgs false

/-- A declarator is read. -/
def Reads (d : Dcl) : Prop := ∀ (t : Ty) (named len : Bool) (rest : List Tok), d.Ok t → (named = true ∨ d.ident = none) → Stop rest →
  ∃ r, (Ev fun f => declarator f named len t (d.toks ++ rest) = .ok (r, d.ident, rest)) ∧ (len = false → r = d.type t) ∧ adjust r = asParameter (d.type t)

theorem adjust_eq (t : Ty) : adjust t = asParameter t := by cases t <;> rfl

theorem adjust_void {r t : Ty} (h : adjust r = asParameter t) (ht : t ≠ .void) : r.isVoid = false := by
  cases r with
  | void =>
    cases t with
    | void => exact (ht rfl).elim
    | _ => cases h
  | _ => rfl

theorem spec_read (s : Sp) (x : List Tok) : specifiers (s.toks ++ x) = .ok (s.type, x) := by
  cases s <;> rfl

theorem Ps.head (ps : Ps) : ∃ s x, ps.toks = Sp.toks s ++ x := by
  cases ps with
  | last s d va => exact ⟨s, d.toks ++ if va then [.comma, .dots] else [], by simp [Ps.toks]⟩
  | cons s d r => exact ⟨s, d.toks ++ .comma :: r.toks, by simp [Ps.toks]⟩

/-- One round of the loop. -/
theorem param_step {f : Nat} {base : Ty} {acc : List Ty} {s : Sp} {x rest : List Tok} {r : Ty} {n : Option Nat}
    (h : declarator f true true s.type x = .ok (r, n, rest)) (hr : r.isVoid = false) :
    parameters (f + 1) base acc (s.toks ++ x) =
      match (generalizing := false) rest with
      | .comma :: .dots :: r' => .ok (.fn base (some (acc ++ [adjust r], true)), r')
      | .comma :: r' => parameters f base (acc ++ [adjust r]) r'
      | r' => .ok (.fn base (some (acc ++ [adjust r], false)), r') := by
  have hs := spec_read s x
  cases s with
  | kw t =>
    simp only [Sp.toks, List.cons_append, List.nil_append] at hs ⊢
    simp only [parameters, hs, R.bind]
    rw [h]
    simp only [hr, Bool.false_eq_true, if_false]
    rfl
  | td m t =>
    simp only [Sp.toks, List.cons_append, List.nil_append] at hs ⊢
    simp only [parameters, hs, R.bind]
    rw [h]
    simp only [hr, Bool.false_eq_true, if_false]
    rfl

theorem params_read {N : Nat} (ih : ∀ d : Dcl, sizeOf d < N → Reads d) {base : Ty} {rest : List Tok} : ∀ (n : Nat) (ps : Ps) (acc : List Ty), sizeOf ps ≤ n →
    sizeOf ps ≤ N → ps.Ok → Ev fun f => parameters f base acc (ps.toks ++ .rp :: rest) = .ok (.fn base (some (acc ++ ps.types.1, ps.types.2)), .rp :: rest) := by
  intro n
  induction n with
  | zero => intro ps acc h; cases ps <;> simp at h
  | succ n ihn =>
    intro ps acc hn hN hok
    cases ps with
    | last s d va =>
      simp only [Ps.Ok] at hok
      simp only [Ps.toks, Ps.types, List.append_assoc]
      simp at hN
      cases va with
      | false =>
        obtain ⟨r, he, _, ha⟩ := ih d (by omega) s.type true true (.rp :: rest) hok.1 (.inl rfl) trivial
        refine Ev.succ (he.mono fun f hf => ?_)
        simp only [Bool.false_eq_true, if_false, List.nil_append]
        rw [param_step hf (adjust_void ha hok.2)]
        simp [ha]
      | true =>
        obtain ⟨r, he, _, ha⟩ := ih d (by omega) s.type true true (.comma :: .dots :: .rp :: rest) hok.1 (.inl rfl) trivial
        refine Ev.succ (he.mono fun f hf => ?_)
        simp only [if_true, List.cons_append, List.nil_append]
        rw [param_step hf (adjust_void ha hok.2)]
        simp [ha]
    | cons s d ps =>
      simp only [Ps.Ok] at hok
      simp only [Ps.toks, Ps.types, List.append_assoc, List.cons_append]
      simp at hN hn
      obtain ⟨r, he, _, ha⟩ := ih d (by omega) s.type true true (.comma :: (ps.toks ++ .rp :: rest)) hok.1.1 (.inl rfl) trivial
      have h2 := ihn ps (acc ++ [adjust r]) (by omega) (by omega) hok.2
      refine Ev.succ ((he.and h2).mono fun f hf => ?_)
      rw [param_step hf.1 (adjust_void ha hok.1.2)]
      obtain ⟨s', x, hx⟩ := Ps.head ps
      rw [hx] at hf ⊢
      cases s' with
      | kw t =>
        simp only [Sp.toks, List.cons_append, List.nil_append] at hf ⊢
        rw [hf.2, ha]
        simp
      | td m t =>
        simp only [Sp.toks, List.cons_append, List.nil_append] at hf ⊢
        rw [hf.2, ha]
        simp

theorem args_read {N : Nat} (ih : ∀ d : Dcl, sizeOf d < N → Reads d) {base : Ty} {rest : List Tok} (a : Args) (hN : sizeOf a ≤ N) (hok : a.Ok) (len : Bool) :
    Ev fun f => suffix f len base (.lp :: (a.toks ++ .rp :: rest)) = .ok (.fn base a.types, rest) := by
  have h : Ev fun f => parameters f base [] (a.toks ++ .rp :: rest) = .ok (.fn base a.types, .rp :: rest) := by
    cases a with
    | none => exact Ev.succ (Ev.all fun f => by simp [Args.toks, Args.types, parameters])
    | void s =>
      simp only [Args.Ok] at hok
      refine Ev.succ (Ev.succ (Ev.succ (Ev.succ (Ev.all fun f => ?_))))
      have hs := spec_read s (.rp :: rest)
      have hd : declarator (f + 1 + 1 + 1) true true s.type (.rp :: rest) = .ok (.void, none, .rp :: rest) := by
        simp [declarator, pointers, direct, head, suffix, R.bind, Ty.isVoid, hok]
      simp only [Args.toks, Args.types]
      cases s with
      | kw t =>
        simp only [Sp.toks, List.cons_append, List.nil_append] at hs ⊢
        rw [parameters]
        simp only [hs, R.bind, hd, Ty.isVoid]
        simp
        simp
      | td m t =>
        simp only [Sp.toks, List.cons_append, List.nil_append] at hs ⊢
        rw [parameters]
        simp only [hs, R.bind, hd, Ty.isVoid]
        simp
        simp
    | some ps =>
      simp only [Args.Ok] at hok
      simp at hN
      have := params_read ih (base := base) (rest := rest) _ ps [] le_rfl (by omega) hok
      simpa [Args.toks, Args.types] using this
  refine Ev.succ (h.mono fun f hf => ?_)
  have hid : ∀ n x, a.toks ++ .rp :: rest ≠ .ident n :: x := by
    intro n x e
    cases a with
    | none => simp [Args.toks] at e
    | void s => cases s <;> simp [Args.toks, Sp.toks] at e
    | some ps =>
      obtain ⟨s, y, hy⟩ := Ps.head ps
      rw [Args.toks, hy] at e
      cases s <;> simp [Sp.toks] at e
  simp only [suffix]
  rw [hf]
  rfl

/-- What follows the name. -/
theorem suffix_read {N : Nat} (ih : ∀ d : Dcl, sizeOf d < N → Reads d) {t : Ty} {rest : List Tok} (hr : Stop rest) {l : List Suf} (hl : SufsOk l t)
    (hN : ∀ a, Suf.fn a ∈ l → sizeOf a ≤ N) (len : Bool) :
    ∃ r, (Ev fun f => suffix f len t (sufToks l ++ rest) = .ok (r, rest)) ∧ (len = false → r = aps l t) ∧ adjust r = asParameter (aps l t) := by
  rcases suf_shape hl with rfl | ⟨n, r, rfl⟩ | ⟨a, rfl⟩
  · refine ⟨t, Ev.succ (Ev.all fun f => ?_), fun _ => rfl, adjust_eq t⟩
    rcases rest with _ | ⟨a, r⟩ <;> (try cases a) <;> first | exact hr.elim | rfl
  · refine ⟨if len then .ptr {} (aps r t) else .arr n (aps r t), Ev.succ ((array_toks hr r n len hl).mono fun f hf => ?_), ?_, ?_⟩
    · rw [show sufToks (.arr n :: r) ++ rest = .lb :: (lenToks n ++ .rb :: (sufToks r ++ rest)) by simp [sufToks, Suf.toks]]
      simp only [suffix]
      exact hf
    · intro h
      rw [h]
      rfl
    · cases len <;> rfl
  · refine ⟨.fn t a.types, ?_, fun _ => rfl, rfl⟩
    have := args_read ih (base := t) (rest := rest) a (hN a (by simp)) hl.1.2 len
    rw [show sufToks [.fn a] ++ rest = .lp :: (a.toks ++ .rp :: rest) by simp [sufToks, Suf.toks]]
    exact this

/-- The name, or a declarator in parentheses. -/
theorem head_read {N : Nat} (ih : ∀ d : Dcl, sizeOf d < N → Reads d) {t : Ty} {rest : List Tok} (hr : Stop rest) {d : Dir} (hN : sizeOf d ≤ N) (hok : d.Ok t)
    {named : Bool} (hn : named = true ∨ d.ident = none) :
    ∃ h, (Ev fun f => head f named (d.core.toks ++ (sufToks d.tail ++ rest)) = .ok (h, d.ident, sufToks d.tail ++ rest)) ∧
      ∀ T, (if h.isVoid then T else patch h T) = d.core.type T := by
  have hok' := (Dir.ok_eq d t).1 hok
  rw [Dir.ident_eq] at hn ⊢
  have hst : Stop (sufToks d.tail ++ rest) ∨ (∃ x, sufToks d.tail ++ rest = .lb :: x) ∨
      ∃ a, d.tail = [.fn a] := by
    rcases suf_shape hok'.2 with h | ⟨n, r, h⟩ | ⟨a, h⟩
    · rw [h]; exact .inl hr
    · rw [h]; exact .inr (.inl ⟨lenToks n ++ .rb :: (sufToks r ++ rest), by simp [sufToks, Suf.toks]⟩)
    · exact .inr (.inr ⟨a, h⟩)
  rcases Dir.core_cases d with ⟨n, hc⟩ | hc | ⟨c, hc, hs⟩
  · rw [hc] at hn ⊢
    have hn : named = true := by
      rcases hn with h | h
      · exact h
      · simp [Dir.ident] at h
    refine ⟨.void, Ev.succ (Ev.all fun f => ?_), fun T => rfl⟩
    simp [Dir.toks, head, hn, Dir.ident]
  · rw [hc]
    refine ⟨.void, Ev.succ (Ev.all fun f => ?_), fun T => rfl⟩
    simp only [Dir.toks, List.nil_append, Dir.ident]
    rcases hst with h | ⟨x, h⟩ | ⟨a, h⟩
    · generalize sufToks d.tail ++ rest = z at h
      rcases z with _ | ⟨a, r⟩ <;> (try cases a) <;> first | exact h.elim | rfl
    · rw [h]
      rfl
    · rw [h, show sufToks [.fn a] ++ rest = .lp :: (a.toks ++ .rp :: rest) by simp [sufToks, Suf.toks]]
      have hne : nested (a.toks ++ .rp :: rest) = false := by
        cases a with
        | none => rfl
        | void s => cases s <;> rfl
        | some ps =>
          obtain ⟨s, y, hy⟩ := Ps.head ps
          rw [Args.toks, hy]
          cases s <;> rfl
      simp [head, hne]
  · rw [hc] at hn ⊢
    rw [hc] at hok'
    have hpo := hok'.1
    simp only [Dir.Ok] at hpo
    have hcv : c.Ok .void := Dcl.ok_patch c (T := aps d.tail t) hpo.2
    simp only [Dir.ident] at hn ⊢
    obtain ⟨r, he, hl, _⟩ := ih c (by omega) .void named false (.rp :: (sufToks d.tail ++ rest)) hcv hn trivial
    have hl := hl rfl
    subst hl
    refine ⟨c.type .void, Ev.succ (he.mono fun f hf => ?_), fun T => ?_⟩
    · have hne := Dcl.opens_nested (x := .rp :: (sufToks d.tail ++ rest)) c hpo.1
      simp only [Dir.toks, List.cons_append, List.append_assoc, List.nil_append, head, hne, if_true]
      rw [hf]
      rfl
    · rw [patched]
      simp only [Dir.type]

theorem core_plain (d : Dir) {t : Ty} (hok : d.Ok t) {rest : List Tok} (hr : Stop rest) : Plain (d.toks ++ rest) := by
  rw [Dir.toks_eq, List.append_assoc]
  rcases Dir.core_cases d with ⟨n, hc⟩ | hc | ⟨c, hc, _⟩ <;> rw [hc]
  · simp [Dir.toks, Plain]
  · simp only [Dir.toks, List.nil_append]
    rcases suf_shape ((Dir.ok_eq d t).1 hok).2 with h | ⟨n, r, h⟩ | ⟨a, h⟩ <;> rw [h]
    · exact hr.plain
    · simp [sufToks, Suf.toks, Plain]
    · simp [sufToks, Suf.toks, Plain]
  · simp [Dir.toks, Plain]

/-- With something in parentheses the type is no longer the one of the brackets. -/
theorem reads (N : Nat) : ∀ d : Dcl, sizeOf d < N → Reads d := by
  induction N with
  | zero => intro d h; omega
  | succ N ih =>
    intro d hN t named len rest hok hn hr
    cases d with
    | mk ps d =>
      simp only [Dcl.Ok] at hok
      simp only [Dcl.ident] at hn ⊢
      simp at hN
      obtain ⟨h, he, hp⟩ := head_read ih hr (d := d) (by omega) hok hn
      have hso := ((Dir.ok_eq d _).1 hok).2
      obtain ⟨r, hs, hl, ha⟩ := suffix_read ih hr hso (fun a h => by have := Dir.tail_size d h; omega) (len && h.isVoid)
      refine ⟨if h.isVoid then r else patch h r, Ev.succ (Ev.succ ((he.and hs).mono fun f hf => ?_)), ?_, ?_⟩
      · simp only [declarator, Dcl.toks, List.append_assoc]
        rw [pointers_toks (core_plain d hok hr)]
        simp only [direct]
        rw [Dir.toks_eq, List.append_assoc, hf.1]
        simp only [R.bind]
        rw [hf.2]
      · intro h0
        rw [hl (by simp [h0]), hp]
        simp only [Dcl.type]
        exact (Dir.type_eq d _).symm
      · simp only [Dcl.type]
        rw [Dir.type_eq d]
        have hp2 := hp
        cases hv : h.isVoid with
        | false =>
          have hl := hl (by simp [hv])
          have := hp (aps d.tail (pointersTo t ps))
          simp only [hv, Bool.false_eq_true, if_false] at this
          simp only [Bool.false_eq_true, if_false]
          rw [hl, this, adjust_eq]
        | true =>
          have := hp (aps d.tail (pointersTo t ps))
          simp only [hv, if_true] at this
          simp only [if_true]
          rw [ha, ← this]

end Verif.Declarator
