import Verif.Linear.Spec
import Verif.Props.C31

namespace Verif.Linear

open Verif.Compare

set_option linter.unusedSectionVars false

variable {M F α τ : Type} [Jumps τ] {G : Nat → Block α τ}

/-! ## What is emitted -/

/-- The code starts with a jump to the block or with the block itself. -/
def Follows (c : List (Item α τ)) (x : Nat) : Prop := ∃ r, c = .jmp x :: r ∨ c = .label x :: r

/-- Block `b` starts here. -/
def Laid (G : Nat → Block α τ) (b : Nat) (c : List (Item α τ)) : Prop :=
  match (G b).j0, (G b).j1 with
  | none, none => ∃ r, c = head G b ++ .ret b :: r
  | some x, none => ∃ r, c = head G b ++ r ∧ Follows r x
  | some x, some y => ∃ r, c = head G b ++ (.test (G b).test :: (Jumps.jumps (G b).test).map (place x y)) ++ r ∧ Follows r y
  | none, some _ => False

theorem Follows.append {c : List (Item α τ)} {x : Nat} (h : Follows c x) (d : List (Item α τ)) : Follows (c ++ d) x := by
  obtain ⟨r, h | h⟩ := h
  · exact ⟨r ++ d, .inl (by simp [h])⟩
  · exact ⟨r ++ d, .inr (by simp [h])⟩

theorem Laid.append {b : Nat} {c : List (Item α τ)} (h : Laid G b c) (d : List (Item α τ)) : Laid G b (c ++ d) := by
  unfold Laid at h ⊢
  split at h
  · obtain ⟨r, rfl⟩ := h; exact ⟨r ++ d, by simp⟩
  · obtain ⟨r, rfl, hr⟩ := h; exact ⟨r ++ d, by simp, hr.append d⟩
  · obtain ⟨r, rfl, hr⟩ := h; exact ⟨r ++ d, by simp, hr.append d⟩
  · exact h

def labelOf : Item α τ → Option Nat
  | .label n => some n
  | _ => none

def labels (c : List (Item α τ)) : List Nat := c.filterMap labelOf

theorem labels_append (c d : List (Item α τ)) : labels (c ++ d) = labels c ++ labels d := List.filterMap_append

theorem labels_head (b : Nat) : labels (head G b) = [b] := by
  unfold head labels
  simp only [List.filterMap_cons, labelOf]
  rw [List.filterMap_eq_nil_iff.2]
  intro a ha
  obtain ⟨f, -, rfl⟩ := List.mem_map.1 ha
  rfl

theorem labels_jumps (x y : Nat) (t : τ) (js : List Jump) : labels (.test t :: js.map (place x y) : List (Item α τ)) = [] := by
  unfold labels
  rw [List.filterMap_eq_nil_iff]
  intro a ha
  rcases List.mem_cons.1 ha with rfl | ha
  · rfl
  · obtain ⟨j, -, rfl⟩ := List.mem_map.1 ha
    cases j <;> rfl

/-- All successors of `n` are in `l`. -/
def Succs (G : Nat → Block α τ) (n : Nat) (l : List Nat) : Prop := ∀ t, (G n).j0 = some t ∨ (G n).j1 = some t → t ∈ l

structure Emitted (G : Nat → Block α τ) (black : List Nat) (b : Nat) (c : List (Item α τ)) (black' : List Nat) : Prop where
  sub : ∀ n ∈ black, n ∈ black'
  here : b ∈ black'
  starts : b ∉ black → ∃ r, c = .label b :: r
  nodup : (labels c).Nodup
  mem : ∀ n, n ∈ labels c ↔ n ∈ black' ∧ n ∉ black
  laid : ∀ n ∈ black', n ∉ black → (∃ pre suf, c = pre ++ suf ∧ Laid G n suf) ∧ Succs G n black'

theorem laid_prepend {n : Nat} {c d : List (Item α τ)} (h : ∃ pre suf, c = pre ++ suf ∧ Laid G n suf) :
    ∃ pre suf, d ++ c = pre ++ suf ∧ Laid G n suf := by
  obtain ⟨pre, suf, rfl, h⟩ := h
  exact ⟨d ++ pre, suf, by simp, h⟩

theorem laid_append {n : Nat} {c d : List (Item α τ)} (h : ∃ pre suf, c = pre ++ suf ∧ Laid G n suf) :
    ∃ pre suf, c ++ d = pre ++ suf ∧ Laid G n suf := by
  obtain ⟨pre, suf, rfl, h⟩ := h
  exact ⟨pre, suf ++ d, by simp, h.append d⟩

theorem compile_emitted : ∀ (fuel : Nat) (black : List Nat) (b : Nat) (c : List (Item α τ)) (black' : List Nat),
    compile G fuel black b = some (c, black') → Emitted G black b c black' := by
  intro fuel
  induction fuel with
  | zero => intro black b c black' h; cases h
  | succ fuel ih =>
    intro black b c black' h
    unfold compile at h
    by_cases hb : b ∈ black
    · rw [if_pos hb] at h
      simp only [Option.some.injEq, Prod.mk.injEq] at h
      obtain ⟨rfl, rfl⟩ := h
      exact ⟨fun _ h => h, hb, fun h => absurd hb h, by simp [labels], fun n => by simp [labels], fun n h1 h2 => absurd h1 h2⟩
    rw [if_neg hb] at h
    rcases h0 : (G b).j0 with _ | x <;> rcases h1 : (G b).j1 with _ | y <;> rw [h0, h1] at h <;> dsimp only at h
    · -- return
      simp only [Option.some.injEq, Prod.mk.injEq] at h
      obtain ⟨rfl, rfl⟩ := h
      have hl : labels (head G b ++ [.ret b]) = [b] := by rw [labels_append, labels_head]; rfl
      refine ⟨fun n h => .tail _ h, .head _, fun _ => ⟨_, rfl⟩, by rw [hl]; simp, fun n => ?_, fun n hn hn' => ?_⟩
      · rw [hl]; simp only [List.mem_cons, List.not_mem_nil, or_false]
        constructor
        · rintro rfl; exact ⟨.inl rfl, hb⟩
        · rintro ⟨rfl | h, h'⟩
          · rfl
          · exact absurd h h'
      · obtain rfl | hn := List.mem_cons.1 hn
        · refine ⟨⟨[], _, rfl, ?_⟩, ?_⟩
          · unfold Laid; rw [h0, h1]; exact ⟨[], rfl⟩
          · intro t ht; rw [h0, h1] at ht; simp at ht
        · exact absurd hn hn'
    · cases h
    · -- one successor
      by_cases hx : x ∈ b :: black
      · rw [if_pos hx] at h
        simp only [Option.some.injEq, Prod.mk.injEq] at h
        obtain ⟨rfl, rfl⟩ := h
        have hl : labels (head G b ++ [.jmp x]) = [b] := by rw [labels_append, labels_head]; rfl
        refine ⟨fun n h => .tail _ h, .head _, fun _ => ⟨_, rfl⟩, by rw [hl]; simp, fun n => ?_, fun n hn hn' => ?_⟩
        · rw [hl]; simp only [List.mem_cons, List.not_mem_nil, or_false]
          constructor
          · rintro rfl; exact ⟨.inl rfl, hb⟩
          · rintro ⟨rfl | h, h'⟩
            · rfl
            · exact absurd h h'
        · obtain rfl | hn := List.mem_cons.1 hn
          · refine ⟨⟨[], _, rfl, ?_⟩, ?_⟩
            · unfold Laid; rw [h0, h1]; exact ⟨_, rfl, ⟨[], .inl rfl⟩⟩
            · intro t ht; rw [h0, h1] at ht; simp only [Option.some.injEq, reduceCtorEq, or_false] at ht; rw [← ht]; exact hx
          · exact absurd hn hn'
      · rw [if_neg hx] at h
        rcases hc : compile G fuel (b :: black) x with _ | ⟨d, bl⟩ <;> rw [hc] at h
        · cases h
        simp only [Option.map_some, Option.some.injEq, Prod.mk.injEq] at h
        obtain ⟨rfl, rfl⟩ := h
        have e := ih _ _ _ _ hc
        obtain ⟨r, hr⟩ := e.starts hx
        have hl : labels (head G b ++ d) = b :: labels d := by rw [labels_append, labels_head]; rfl
        have hbl : b ∈ bl := e.sub b (.head _)
        refine ⟨fun n h => e.sub n (.tail _ h), hbl, fun _ => ⟨_, rfl⟩, ?_, fun n => ?_, fun n hn hn' => ?_⟩
        · rw [hl]
          refine List.nodup_cons.2 ⟨fun hm => ?_, e.nodup⟩
          exact ((e.mem b).1 hm).2 (.head _)
        · rw [hl, List.mem_cons, e.mem, List.mem_cons]
          constructor
          · rintro (rfl | ⟨h, h'⟩)
            · exact ⟨hbl, hb⟩
            · exact ⟨h, fun h'' => h' (.inr h'')⟩
          · rintro ⟨h, h'⟩
            by_cases hnb : n = b
            · exact .inl hnb
            · exact .inr ⟨h, fun h'' => h''.elim hnb h'⟩
        · by_cases hnb : n = b
          · subst hnb
            refine ⟨⟨[], _, rfl, ?_⟩, ?_⟩
            · unfold Laid; rw [h0, h1]; exact ⟨d, rfl, r, .inr hr⟩
            · intro t ht; rw [h0, h1] at ht; simp only [Option.some.injEq, reduceCtorEq, or_false] at ht; rw [← ht]; exact e.here
          · obtain ⟨hL, hs⟩ := e.laid n hn (by simp [hnb, hn'])
            exact ⟨laid_prepend hL, hs⟩
    · -- two successors
      rcases hc : (if y ∈ b :: black then some ([.jmp y], b :: black) else compile G fuel (b :: black) y) with _ | ⟨d, bl⟩ <;> rw [hc] at h
      · cases h
      simp only [Option.bind_some] at h
      rcases hc2 : compile G fuel bl x with _ | ⟨d2, bl2⟩ <;> rw [hc2] at h
      · cases h
      simp only [Option.map_some, Option.some.injEq, Prod.mk.injEq] at h
      obtain ⟨rfl, rfl⟩ := h
      have e2 := ih _ _ _ _ hc2
      -- the part for `jump[1]`
      have e1 : Follows d y ∧ y ∈ bl ∧ (∀ n ∈ b :: black, n ∈ bl) ∧ (labels d).Nodup ∧ (∀ n, n ∈ labels d ↔ n ∈ bl ∧ n ∉ b :: black) ∧
          (∀ n ∈ bl, n ∉ b :: black → (∃ pre suf, d = pre ++ suf ∧ Laid G n suf) ∧ Succs G n bl) := by
        by_cases hy : y ∈ b :: black
        · rw [if_pos hy] at hc
          simp only [Option.some.injEq, Prod.mk.injEq] at hc
          obtain ⟨rfl, rfl⟩ := hc
          refine ⟨⟨[], .inl rfl⟩, hy, fun _ h => h, List.nodup_nil, fun n => ?_, fun n h h' => absurd h h'⟩
          constructor
          · intro hn; exact absurd hn List.not_mem_nil
          · rintro ⟨h, h'⟩; exact absurd h h'
        · rw [if_neg hy] at hc
          have e := ih _ _ _ _ hc
          obtain ⟨r, hr⟩ := e.starts hy
          exact ⟨⟨r, .inr hr⟩, e.here, e.sub, e.nodup, e.mem, e.laid⟩
      obtain ⟨hf, hy, hsub, hnd, hmem, hlaid⟩ := e1
      have hl : labels (head G b ++ (.test (G b).test :: (Jumps.jumps (G b).test).map (place x y)) ++ (d ++ d2)) = b :: (labels d ++ labels d2) := by
        rw [labels_append, labels_append, labels_head, labels_jumps, labels_append]; rfl
      have hbl : b ∈ bl2 := e2.sub b (hsub b (.head _))
      refine ⟨fun n h => e2.sub n (hsub n (.tail _ h)), hbl, fun _ => ⟨_, rfl⟩, ?_, fun n => ?_, fun n hn hn' => ?_⟩
      · rw [hl]
        refine List.nodup_cons.2 ⟨fun hm => ?_, List.nodup_append.2 ⟨hnd, e2.nodup, ?_⟩⟩
        · rcases List.mem_append.1 hm with hm | hm
          · exact ((hmem b).1 hm).2 (.head _)
          · exact ((e2.mem b).1 hm).2 (hsub b (.head _))
        · rintro n hn _ hn' rfl
          exact ((e2.mem n).1 hn').2 ((hmem n).1 hn).1
      · rw [hl, List.mem_cons, List.mem_append, hmem, e2.mem, List.mem_cons]
        constructor
        · rintro (rfl | ⟨h, h'⟩ | ⟨h, h'⟩)
          · exact ⟨hbl, hb⟩
          · exact ⟨e2.sub n h, fun h'' => h' (.inr h'')⟩
          · exact ⟨h, fun h'' => h' (hsub n (.tail _ h''))⟩
        · rintro ⟨h, h'⟩
          by_cases hnb : n = b
          · exact .inl hnb
          · by_cases hnd : n ∈ bl
            · exact .inr (.inl ⟨hnd, fun h'' => h''.elim hnb h'⟩)
            · exact .inr (.inr ⟨h, hnd⟩)
      · by_cases hnb : n = b
        · subst hnb
          refine ⟨⟨[], _, rfl, ?_⟩, ?_⟩
          · unfold Laid; rw [h0, h1]; exact ⟨d ++ d2, rfl, hf.append d2⟩
          · intro t ht; rw [h0, h1] at ht
            simp only [Option.some.injEq] at ht
            rcases ht with rfl | rfl
            · exact e2.here
            · exact e2.sub _ hy
        · by_cases hnd : n ∈ bl
          · obtain ⟨hL, hs⟩ := hlaid n hnd (by simp [hnb, hn'])
            exact ⟨laid_prepend (laid_append hL), fun t ht => e2.sub t (hs t ht)⟩
          · obtain ⟨hL, hs⟩ := e2.laid n hn hnd
            exact ⟨laid_prepend (laid_prepend hL), hs⟩

/-! ## Positions of labels -/

theorem find_of_split {c : List (Item α τ)} (hn : (labels c).Nodup) {pre suf : List (Item α τ)} {n : Nat}
    (h : c = pre ++ .label n :: suf) : find c n = some pre.length := by
  subst h
  rw [labels_append] at hn
  have hpre : ∀ a ∈ pre, isLabel n a = false := by
    intro a ha
    by_contra hc
    rw [Bool.not_eq_false] at hc
    have : n ∈ labels pre := by
      refine List.mem_filterMap.2 ⟨a, ha, ?_⟩
      cases a <;> simp_all [isLabel, labelOf]
    exact (List.nodup_append.1 hn).2.2 n this n (by simp [labels, labelOf]) rfl
  unfold find
  rw [List.findIdx?_append, List.findIdx?_eq_none_iff.2 hpre]
  simp [List.findIdx?_cons, isLabel]

theorem Laid.starts {b : Nat} {c : List (Item α τ)} (h : Laid G b c) : ∃ r, c = .label b :: r := by
  unfold Laid at h
  split at h
  · obtain ⟨r, rfl⟩ := h; exact ⟨_, rfl⟩
  · obtain ⟨r, rfl, -⟩ := h; exact ⟨_, rfl⟩
  · obtain ⟨r, rfl, -⟩ := h; exact ⟨_, rfl⟩
  · exact h.elim

/-! ## Running it -/

variable {se : Sem α τ M} {code : List (Item α τ)}

theorem Steps.trans : ∀ {n k : Nat} {s t u : S M}, Steps se code n s t → Steps se code k t u →
    Steps se code (n + k) s u
  | 0, k, s, t, u, h, h' => by cases h; simpa using h'
  | n + 1, k, s, t, u, ⟨v, hv, h⟩, h' => by
    rw [Nat.add_right_comm]
    exact ⟨v, hv, Steps.trans h h'⟩

theorem Steps.one {s t : S M} (h : step se code s = .go t) : Steps se code 1 s t := ⟨t, h, rfl⟩

theorem at_split {pre suf : List (Item α τ)} {i : Item α τ} (h : code = pre ++ i :: suf) : code[pre.length]? = some i := by
  subst h; simp

theorem run_stmts : ∀ (fs : List α) (pre suf : List (Item α τ)) (m : M) (f : Option Flags), code = pre ++ fs.map .stmt ++ suf →
    ∃ f', Steps se code fs.length ⟨pre.length, m, f⟩ ⟨pre.length + fs.length, fs.foldl (fun m g => se.exec g m) m, f'⟩
  | [], _, _, _, f, _ => ⟨f, rfl⟩
  | g :: fs, pre, suf, m, f, h => by
    obtain ⟨f', hs⟩ := run_stmts fs (pre ++ [.stmt g]) suf (se.exec g m) none (by simp [h])
    refine ⟨f', ⟨pre.length + 1, se.exec g m, none⟩, ?_, ?_⟩
    · unfold step
      rw [at_split (pre := pre) (suf := fs.map .stmt ++ suf) (i := .stmt g) (by simp [h])]
    · simpa [Nat.add_assoc, Nat.add_comm 1] using hs

theorem run_head (b : Nat) (pre suf : List (Item α τ)) (m : M) (f : Option Flags) (h : code = pre ++ head G b ++ suf) :
    ∃ f', Steps se code ((G b).stmts.length + 1) ⟨pre.length, m, f⟩ ⟨pre.length + (head G b).length, after se G b m, f'⟩ := by
  obtain ⟨f', hs⟩ := run_stmts (se := se) (code := code) (G b).stmts (pre ++ [.label b]) suf m f (by simp [h, head])
  refine ⟨f', ⟨pre.length + 1, m, f⟩, ?_, ?_⟩
  · unfold step
    rw [at_split (pre := pre) (i := .label b) (suf := (G b).stmts.map .stmt ++ suf) (by simp [h, head])]
  · simpa [head, after, Nat.add_assoc, Nat.add_comm 1] using hs

/-- At the label of block `b`. -/
def At (code : List (Item α τ)) (b : Nat) (pc : Nat) : Prop := find code b = some pc

theorem run_follows {y py : Nat} (hn : (labels code).Nodup) (pre suf : List (Item α τ)) (m : M) (f : Option Flags) (h : code = pre ++ suf) (hf : Follows suf y)
    (hy : At code y py) : ∃ k, Steps se code k ⟨pre.length, m, f⟩ ⟨py, m, f⟩ := by
  obtain ⟨r, rfl | rfl⟩ := hf
  · refine ⟨1, Steps.one ?_⟩
    unfold step
    rw [at_split h]
    unfold At at hy
    simp only [jump, hy]
  · have := find_of_split hn h
    unfold At at hy
    rw [this] at hy
    cases hy
    exact ⟨0, rfl⟩

theorem run_jumps {x y px py : Nat} (hn : (labels code).Nodup) (hx : At code x px) (hy : At code y py) (m : M) (f : Flags) :
    ∀ (js : List Jump) (pre suf : List (Item α τ)), code = pre ++ js.map (place x y) ++ suf → Follows suf y →
    ∃ k, Steps se code k ⟨pre.length, m, some f⟩ ⟨if runJumps f js then py else px, m, some f⟩
  | [], pre, suf, h, hf => run_follows hn pre suf m (some f) (by simpa using h) hf hy
  | .jmp t :: js, pre, suf, h, hf => by
    refine ⟨1, Steps.one ?_⟩
    unfold step
    rw [at_split (pre := pre) (i := .jmp (if t then y else x)) (suf := js.map (place x y) ++ suf) (by simp [h, place])]
    unfold At at hx hy
    cases t <;> simp [jump, hx, hy, runJumps]
  | .jcc c t :: js, pre, suf, h, hf => by
    have e := at_split (code := code) (pre := pre) (i := .jcc c (if t then y else x)) (suf := js.map (place x y) ++ suf) (by simp [h, place])
    by_cases hc : c.eval f = true
    · refine ⟨1, Steps.one ?_⟩
      unfold step
      rw [e]
      unfold At at hx hy
      cases t <;> simp [jump, hx, hy, runJumps, hc]
    · obtain ⟨k, hk⟩ := run_jumps hn hx hy m f js (pre ++ [.jcc c (if t then y else x)]) suf (by simp [h, place]) hf
      refine ⟨k + 1, ⟨pre.length + 1, m, some f⟩, ?_, ?_⟩
      · unfold step
        rw [e]
        simp [hc]
      · simpa [runJumps, hc] using hk

/-- The jumps decide as the test says. -/
theorem test_jumps {o : Order F} {zero : F} {par : M → Bool} (t : Test M F) (h : t.Ok) (m : M) :
    runJumps (t.flags o zero par m) t.jumps = t.holds o zero m := by
  cases t with
  | int w k op lf rf l r =>
    have := (C41_integer k h.2 op (w == 64) lf rf w h.1 (l m) (r m) (par m)).1
    have hk : isSigned k = (k == .signed) := by cases k <;> rfl
    rw [hk] at this
    exact this
  | intTruth w k v =>
    have := C41_truth w (v m) (par m) none
    have hk : k.isReal = false := h
    rcases k with _ | _ | _ | _
    · exact this.1
    · exact this.2.1
    · cases hk
    · cases hk
  | real k op l r =>
    have hk : k = .sse := h
    subst hk
    exact (C41_float o op (l m) (r m)).1
  | realTruth k v =>
    have hk : k = .sse := h
    subst hk
    have := (C41_truth 8 0 false (o.cmp zero (v m))).2.2
    show runJumps (ucomisFlags (o.cmp zero (v m))) (truthBranches .sse) = !(o.cmp (v m) zero == some .eq)
    rw [this, o.swap zero (v m)]
    rcases o.cmp zero (v m) with _ | (_ | _ | _) <;> rfl

/-- The jumps of a test decide as the test says. -/
def Sem.Right (se : Sem α τ M) (t : τ) : Prop := ∀ m, runJumps (se.flags t m) (Jumps.jumps t) = se.holds t m

theorem sem_right {o : Order F} {zero : F} {par : M → Bool} {t : Test M F} (h : t.Ok) : (sem o zero par).Right t := test_jumps t h

/-- One block: from its label to the label of the next, or to the return. -/
theorem run_block (hn : (labels code).Nodup) {b pc : Nat} {pre suf : List (Item α τ)} (hc : code = pre ++ suf) (hL : Laid G b suf)
    (hpc : At code b pc) (hs : ∀ t, (G b).j0 = some t ∨ (G b).j1 = some t → ∃ p, At code t p) (hok : se.Right (G b).test) (m : M) (f : Option Flags) :
    match next se G b m with
    | some (c, m') => ∃ k p f', Steps se code (k + 1) ⟨pc, m, f⟩ ⟨p, m', f'⟩ ∧ At code c p
    | none => ∃ k t, Steps se code k ⟨pc, m, f⟩ t ∧ step se code t = .done b (after se G b m) := by
  have hp : pc = pre.length := by
    obtain ⟨r, hr⟩ := hL.starts
    have := find_of_split hn (hr ▸ hc)
    unfold At at hpc
    rw [this] at hpc
    exact (Option.some.inj hpc).symm
  subst hp
  unfold Laid at hL
  rcases h0 : (G b).j0 with _ | x <;> rcases h1 : (G b).j1 with _ | y <;> rw [h0, h1] at hL <;> dsimp only at hL
  · obtain ⟨r, rfl⟩ := hL
    obtain ⟨f', hr⟩ := run_head (G := G) (code := code) (se := se) b pre (.ret b :: r) m f (by simp [hc])
    have hnext : next se G b m = none := by unfold next; rw [h0, h1]; rfl
    rw [hnext]
    refine ⟨_, _, hr, ?_⟩
    unfold step
    have := at_split (code := code) (pre := pre ++ head G b) (i := .ret b) (suf := r) (by simp [hc])
    rw [List.length_append] at this
    rw [this]
  · obtain ⟨r, rfl, hf⟩ := hL
    obtain ⟨f', hr⟩ := run_head (G := G) (code := code) (se := se) b pre r m f (by simp [hc])
    have hnext : next se G b m = some (x, after se G b m) := by unfold next; rw [h0, h1]; rfl
    rw [hnext]
    obtain ⟨px, hx⟩ := hs x (.inl h0)
    obtain ⟨k, hk⟩ := run_follows (se := se) hn (pre ++ head G b) r (after se G b m) f' (by simp [hc]) hf hx
    rw [List.length_append] at hk
    refine ⟨(G b).stmts.length + k, px, f', ?_, hx⟩
    rw [Nat.add_right_comm]
    exact hr.trans hk
  · obtain ⟨r, rfl, hf⟩ := hL
    obtain ⟨f', hr⟩ := run_head (G := G) (code := code) (se := se) b pre ((.test (G b).test :: (Jumps.jumps (G b).test).map (place x y)) ++ r) m f (by simp [hc])
    obtain ⟨px, hx⟩ := hs x (.inl h0)
    obtain ⟨py, hy⟩ := hs y (.inr h1)
    have ht : Steps se code 1 ⟨pre.length + (head G b).length, after se G b m, f'⟩
        ⟨pre.length + (head G b).length + 1, after se G b m, some (se.flags (G b).test (after se G b m))⟩ := by
      refine Steps.one ?_
      unfold step
      have := at_split (code := code) (pre := pre ++ head G b) (i := .test (G b).test) (suf := (Jumps.jumps (G b).test).map (place x y) ++ r) (by simp [hc])
      rw [List.length_append] at this
      rw [this]
    obtain ⟨k, hk⟩ := run_jumps (se := se) hn hx hy (after se G b m) (se.flags (G b).test (after se G b m)) (Jumps.jumps (G b).test)
      (pre ++ head G b ++ [.test (G b).test]) r (by simp [hc]) hf
    rw [hok _, List.length_append, List.length_append] at hk
    have hnext : next se G b m = some (if se.holds (G b).test (after se G b m) then y else x, after se G b m) := by
      unfold next; rw [h0, h1]
      cases se.holds (G b).test (after se G b m) <;> rfl
    rw [hnext]
    refine ⟨(G b).stmts.length + 1 + k, if se.holds (G b).test (after se G b m) then py else px,
      some (se.flags (G b).test (after se G b m)), ?_, ?_⟩
    · have := (hr.trans ht).trans hk
      rw [show (G b).stmts.length + 1 + k + 1 = (G b).stmts.length + 1 + 1 + k by omega]
      exact this
    · cases se.holds (G b).test (after se G b m)
      · exact hx
      · exact hy

/-! ## Everything is compiled -/

def white (N : Nat) (black : List Nat) : Nat := ((List.range N).filter (· ∉ black)).length

theorem white_mono {N : Nat} {l l' : List Nat} (h : ∀ n ∈ l, n ∈ l') : white N l' ≤ white N l := by
  unfold white
  rw [← List.countP_eq_length_filter, ← List.countP_eq_length_filter]
  refine List.countP_mono_left fun x _ hx => ?_
  simp only [decide_eq_true_eq] at hx ⊢
  exact fun hm => hx (h x hm)

theorem white_cons {N : Nat} {l : List Nat} {b : Nat} (hb : b < N) (h : b ∉ l) : white N (b :: l) < white N l := by
  have hsub : ((List.range N).filter (· ∉ b :: l)).Sublist ((List.range N).filter (· ∉ l)) := by
    refine List.monotone_filter_right _ fun x hx => ?_
    simp only [List.mem_cons, not_or, decide_eq_true_eq] at hx ⊢
    exact hx.2
  refine Nat.lt_of_le_of_ne hsub.length_le fun he => ?_
  have := hsub.eq_of_length he
  have hm : b ∈ (List.range N).filter (· ∉ l) := by simp [hb, h]
  rw [← this] at hm
  simp at hm

theorem compile_total {N : Nat} (hG : Closed G N) : ∀ (fuel : Nat) (black : List Nat) (b : Nat), b < N → white N black < fuel →
    ∃ r, compile G fuel black b = some r := by
  intro fuel
  induction fuel with
  | zero => intro _ _ _ h; exact absurd h (Nat.not_lt_zero _)
  | succ fuel ih =>
    intro black b hb hw
    unfold compile
    by_cases hm : b ∈ black
    · rw [if_pos hm]; exact ⟨_, rfl⟩
    rw [if_neg hm]
    have hlt := white_cons hb hm
    obtain ⟨ht, hj⟩ := hG b hb
    rcases h0 : (G b).j0 with _ | x <;> rcases h1 : (G b).j1 with _ | y <;> rw [h0, h1] at hj <;> dsimp only
    · exact ⟨_, rfl⟩
    · simp at hj
    · by_cases hx : x ∈ b :: black
      · rw [if_pos hx]; exact ⟨_, rfl⟩
      · rw [if_neg hx]
        obtain ⟨r, hr⟩ := ih (b :: black) x (ht x (.inl h0)) (by omega)
        rw [hr]; exact ⟨_, rfl⟩
    · by_cases hy : y ∈ b :: black
      · rw [if_pos hy]
        obtain ⟨r, hr⟩ := ih (b :: black) x (ht x (.inl h0)) (by omega)
        simp only [Option.bind_some, hr]; exact ⟨_, rfl⟩
      · rw [if_neg hy]
        obtain ⟨⟨d, bl⟩, hr⟩ := ih (b :: black) y (ht y (.inr h1)) (by omega)
        have hsub := (compile_emitted _ _ _ _ _ hr).sub
        have := white_mono (N := N) hsub
        obtain ⟨r, hr'⟩ := ih bl x (ht x (.inl h0)) (by omega)
        simp only [hr, Option.bind_some, hr']; exact ⟨_, rfl⟩

/-! ## The whole -/

/-- Every block of the code can be run. -/
theorem sim_block {fuel b0 : Nat} {black : List Nat} (h : compile G fuel [] b0 = some (code, black)) {b pc : Nat} (hpc : At code b pc) (hb : b ∈ black)
    (hok : se.Right (G b).test) (m : M) (f : Option Flags) :
    match next se G b m with
    | some (c, m') => c ∈ black ∧ ∃ k p f', Steps se code (k + 1) ⟨pc, m, f⟩ ⟨p, m', f'⟩ ∧ At code c p
    | none => ∃ k t, Steps se code k ⟨pc, m, f⟩ t ∧ step se code t = .done b (after se G b m) := by
  have e := compile_emitted _ _ _ _ _ h
  have hall : ∀ n ∈ black, ∃ p, At code n p := by
    intro n hn
    obtain ⟨⟨pre, suf, hc, hL⟩, -⟩ := e.laid n hn List.not_mem_nil
    obtain ⟨r, hr⟩ := hL.starts
    exact ⟨_, find_of_split e.nodup (hr ▸ hc)⟩
  obtain ⟨⟨pre, suf, hc, hL⟩, hs⟩ := e.laid b hb List.not_mem_nil
  have := run_block (se := se) e.nodup hc hL hpc (fun t ht => hall t (hs t ht)) hok m f
  split
  · rename_i c m' hn
    rw [hn] at this
    refine ⟨hs c ?_, this⟩
    unfold next at hn
    split at hn
    · rename_i y hy
      split at hn
      · simp only [Option.map_some, Option.some.injEq, Prod.mk.injEq] at hn
        right; rw [hy, hn.1]
      · rcases h0 : (G b).j0 with _ | x <;> rw [h0] at hn
        · cases hn
        · simp only [Option.map_some, Option.some.injEq, Prod.mk.injEq] at hn
          left; rw [hn.1]
    · rcases h0 : (G b).j0 with _ | x <;> rw [h0] at hn
      · cases hn
      · simp only [Option.map_some, Option.some.injEq, Prod.mk.injEq] at hn
        left; rw [hn.1]
  · rename_i hn
    rw [hn] at this
    exact this

theorem at_start {fuel b0 : Nat} {black : List Nat} (h : compile G fuel [] b0 = some (code, black)) : At code b0 0 ∧ b0 ∈ black := by
  have e := compile_emitted _ _ _ _ _ h
  obtain ⟨r, hr⟩ := e.starts List.not_mem_nil
  exact ⟨find_of_split e.nodup (pre := []) hr, e.here⟩

theorem sim_walk {fuel b0 : Nat} {black : List Nat} (h : compile G fuel [] b0 = some (code, black)) (hok : ∀ b, se.Right (G b).test) :
    ∀ (n : Nat) {b pc b' : Nat} {m m' : M} {f : Option Flags}, At code b pc → b ∈ black → Walk se G n b m b' m' →
    ∃ k p f', n ≤ k ∧ Steps se code k ⟨pc, m, f⟩ ⟨p, m', f'⟩ ∧ At code b' p ∧ b' ∈ black
  | 0, b, pc, b', m, m', f, hpc, hb, hw => by
    obtain ⟨rfl, rfl⟩ := hw
    exact ⟨0, pc, f, Nat.le_refl _, rfl, hpc, hb⟩
  | n + 1, b, pc, b', m, m', f, hpc, hb, hw => by
    obtain ⟨c, k, hn, hw⟩ := hw
    have := sim_block (se := se) h hpc hb (hok b) m f
    rw [hn] at this
    obtain ⟨hc, j, p, f', hs, hp⟩ := this
    obtain ⟨j', p', f'', hle, hs', hp', hb'⟩ := sim_walk h hok n hp hc hw
    exact ⟨_, p', f'', by omega, hs.trans hs', hp', hb'⟩

theorem steps_det : ∀ (n : Nat) {k : Nat} {s t u : S M}, Steps se code n s t → Steps se code k s u → n ≤ k →
    Steps se code (k - n) t u := by
  intro n
  induction n with
  | zero => intro k s t u h h' _; cases h; exact h'
  | succ n ih =>
    intro k s t u h h' hle
    obtain ⟨k, rfl⟩ : ∃ j, k = j + 1 := ⟨k - 1, by omega⟩
    obtain ⟨v, hv, h⟩ := h
    obtain ⟨w, hw, h'⟩ := h'
    rw [hv] at hw
    cases hw
    rw [Nat.add_sub_add_right]
    exact ih h h' (by omega)

/-- The graph walks `n` blocks, or returns before. -/
theorem walk_or_leave {fuel b0 : Nat} {black : List Nat} (h : compile G fuel [] b0 = some (code, black)) (hok : ∀ b, se.Right (G b).test) :
    ∀ (n : Nat) {b : Nat} {m : M}, b ∈ black → (∃ b' m', Walk se G n b m b' m') ∨ ∃ b' m', Leaves se G b m b' m'
  | 0, b, m, _ => .inl ⟨b, m, rfl, rfl⟩
  | n + 1, b, m, hb => by
    rcases hn : next se G b m with _ | ⟨c, k⟩
    · exact .inr ⟨b, _, 0, m, ⟨rfl, rfl⟩, hn, rfl⟩
    · have hc : c ∈ black := by
        have e := compile_emitted _ _ _ _ _ h
        obtain ⟨⟨pre, suf, hc, hL⟩, -⟩ := e.laid b hb List.not_mem_nil
        obtain ⟨r, hr⟩ := hL.starts
        have := sim_block (se := se) h (find_of_split e.nodup (hr ▸ hc)) hb (hok b) m none
        rw [hn] at this
        exact this.1
      rcases walk_or_leave h hok n (m := k) hc with ⟨b', m', hw⟩ | ⟨b', m', j, k', hw, h1, h2⟩
      · exact .inl ⟨b', m', c, k, hn, hw⟩
      · exact .inr ⟨b', m', j + 1, k', ⟨c, k, hn, hw⟩, h1, h2⟩

theorem leaves_finishes {fuel b0 : Nat} {black : List Nat} (h : compile G fuel [] b0 = some (code, black)) (hok : ∀ b, se.Right (G b).test)
    {m m' : M} {b' : Nat} (hl : Leaves se G b0 m b' m') : Finishes se code m b' m' := by
  obtain ⟨n, k, hw, hn, ha⟩ := hl
  obtain ⟨h0, hb⟩ := at_start h
  obtain ⟨j, p, f, -, hs, hp, hb'⟩ := sim_walk (f := none) h hok n h0 hb hw
  have := sim_block (se := se) h hp hb' (hok b') k f
  rw [hn] at this
  obtain ⟨j', t, hs', hd⟩ := this
  exact ⟨_, t, hs.trans hs', by rw [hd, ha]⟩

theorem finishes_unique {m m1 m2 : M} {b1 b2 : Nat} (h1 : Finishes se code m b1 m1) (h2 : Finishes se code m b2 m2) :
    b1 = b2 ∧ m1 = m2 := by
  obtain ⟨n, s, hs, hd⟩ := h1
  obtain ⟨k, t, ht, he⟩ := h2
  have key : s = t := by
    rcases Nat.le_total n k with hle | hle
    · have := steps_det _ hs ht hle
      rcases hk : k - n with _ | j <;> rw [hk] at this
      · exact this
      · obtain ⟨v, hv, -⟩ := this; rw [hd] at hv; cases hv
    · have := steps_det _ ht hs hle
      rcases hk : n - k with _ | j <;> rw [hk] at this
      · exact this.symm
      · obtain ⟨v, hv, -⟩ := this; rw [he] at hv; cases hv
  subst key
  rw [hd] at he
  cases he
  exact ⟨rfl, rfl⟩

end Verif.Linear
