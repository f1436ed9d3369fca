import Verif.Linear.Source
import Verif.Props.C29

/-!
# C74 the linear code of a function does what its graph says
-/

namespace Verif.Linear

open Verif.Compare

variable {M F : Type} {G : Nat → Block (M → M) (Test M F)} {o : Order F} {zero : F} {par : M → Bool} {code : List (Item (M → M) (Test M F))}

/-- **C74** (all of it is compiled): for every graph with `N` blocks whose jumps lead to blocks, and where a second successor comes
with a first one, code is emitted; the recursion is at most `N + 1` deep and no assertion fails. -/
theorem C74_compiled {N : Nat} (hG : Closed G N) {b : Nat} (hb : b < N) : ∃ r, compile G (N + 1) [] b = some r := by
  refine compile_total hG _ _ _ hb ?_
  unfold white
  have := List.length_filter_le (· ∉ ([] : List Nat)) (List.range N)
  rw [List.length_range] at this
  omega

/-- **C74**: the code, run from its beginning, returns from block `b'` in state `m'` exactly when the graph does, for every graph
(loops, joins, blocks reached in several ways) and every state.  Missing: tests of type `long double`, which leave a register of
the x87 stack occupied (C75). -/
theorem C74_same_result_partial {fuel b : Nat} {black : List Nat} (h : compile G fuel [] b = some (code, black)) (hok : ∀ i, (G i).test.Ok)
    (m : M) (b' : Nat) (m' : M) : Finishes (sem o zero par) code m b' m' ↔ Leaves (sem o zero par) G b m b' m' := by
  refine ⟨fun hf => ?_, leaves_finishes h (fun i => sem_right (hok i))⟩
  obtain ⟨n, t, hs, hd⟩ := hf
  obtain ⟨h0, hb⟩ := at_start h
  rcases walk_or_leave (se := sem o zero par) h (fun i => sem_right (hok i)) (n + 1) (m := m) hb with ⟨c, k, hw⟩ | ⟨c, k, hl⟩
  · obtain ⟨j, p, f, hle, hs', -, -⟩ := sim_walk (se := sem o zero par) (f := none) h (fun i => sem_right (hok i)) (n + 1) h0 hb hw
    have := steps_det _ hs hs' (by omega)
    obtain ⟨i, hi⟩ : ∃ i, j - n = i + 1 := ⟨j - n - 1, by omega⟩
    rw [hi] at this
    obtain ⟨v, hv, -⟩ := this
    rw [hd] at hv
    cases hv
  · obtain ⟨rfl, rfl⟩ := finishes_unique (leaves_finishes (se := sem o zero par) h (fun i => sem_right (hok i)) hl) ⟨n, t, hs, hd⟩
    exact hl

/-- **C74** (never astray): the code never runs past its end, jumps nowhere or tests flags that were not set; so it runs forever
when the graph does. -/
theorem C74_never_stuck_partial {fuel b : Nat} {black : List Nat} (h : compile G fuel [] b = some (code, black)) (hok : ∀ i, (G i).test.Ok)
    (m : M) (n : Nat) (s : S M) (hs : Steps (sem o zero par) code n ⟨0, m, none⟩ s) : step (sem o zero par) code s ≠ .stuck := by
  obtain ⟨h0, hb⟩ := at_start h
  rcases walk_or_leave (se := sem o zero par) h (fun i => sem_right (hok i)) (n + 1) (m := m) hb with ⟨c, k, hw⟩ | ⟨c, k, hl⟩
  · obtain ⟨j, p, f, hle, hs', -, -⟩ := sim_walk (se := sem o zero par) (f := none) h (fun i => sem_right (hok i)) (n + 1) h0 hb hw
    have := steps_det _ hs hs' (by omega)
    obtain ⟨i, hi⟩ : ∃ i, j - n = i + 1 := ⟨j - n - 1, by omega⟩
    rw [hi] at this
    obtain ⟨v, hv, -⟩ := this
    rw [hv]; simp
  · obtain ⟨j, t, ht, hd⟩ := leaves_finishes (se := sem o zero par) h (fun i => sem_right (hok i)) hl
    rcases Nat.le_total n j with hle | hle
    · have := steps_det _ hs ht hle
      rcases hk : j - n with _ | i <;> rw [hk] at this
      · cases this; rw [hd]; simp
      · obtain ⟨v, hv, -⟩ := this; rw [hv]; simp
    · have := steps_det _ ht hs hle
      rcases hk : n - j with _ | i <;> rw [hk] at this
      · cases this; rw [hd]; simp
      · obtain ⟨v, hv, -⟩ := this; rw [hd] at hv; cases hv

/-- **C74** (order): whatever block the graph enters, in whatever state, the code comes to the label of that block in that
state, after at least as many steps; so effects happen in the same order, also in functions that never return. -/
theorem C74_order_partial {fuel b : Nat} {black : List Nat} (h : compile G fuel [] b = some (code, black)) (hok : ∀ i, (G i).test.Ok)
    (m : M) (n b' : Nat) (m' : M) (hw : Walk (sem o zero par) G n b m b' m') :
    ∃ k p f, n ≤ k ∧ Steps (sem o zero par) code k ⟨0, m, none⟩ ⟨p, m', f⟩ ∧ find code b' = some p := by
  obtain ⟨h0, hb⟩ := at_start h
  obtain ⟨k, p, f, hle, hs, hp, -⟩ := sim_walk (se := sem o zero par) (f := none) h (fun i => sem_right (hok i)) n h0 hb hw
  exact ⟨k, p, f, hle, hs, hp⟩

/-- **C74** (labels): every block that is reached gets its label exactly once. -/
theorem C74_labels {fuel b : Nat} {black : List Nat} (h : compile G fuel [] b = some (code, black)) (n : Nat) (hn : n ∈ black) :
    (code.filter (isLabel n)).length = 1 := by
  have e := compile_emitted _ _ _ _ _ h
  obtain ⟨⟨pre, suf, hc, hL⟩, -⟩ := e.laid n hn List.not_mem_nil
  obtain ⟨r, rfl⟩ := hL.starts
  have hnd := e.nodup
  have key : ∀ c : List (Item (M → M) (Test M F)), n ∉ labels c → c.filter (isLabel n) = [] := by
    intro c hc
    rw [List.filter_eq_nil_iff]
    intro a ha hl
    refine hc (List.mem_filterMap.2 ⟨a, ha, ?_⟩)
    cases a <;> simp_all [isLabel, labelOf]
  rw [hc, labels_append] at hnd
  have hnd' := List.nodup_append.1 hnd
  have h1 : n ∉ labels pre := fun hm => hnd'.2.2 n hm n (by simp [labels, labelOf]) rfl
  have h2 : n ∉ labels r := by
    have := hnd'.2.1
    simp only [labels, List.filterMap_cons, labelOf] at this
    exact (List.nodup_cons.1 this).1
  rw [hc, List.filter_append, key pre h1, List.filter_cons]
  simp [isLabel, key r h2]

/-- `do x += 1; while (x < 5);` as a graph; the parity flag is whatever. -/
def sampleGraph (i : Nat) : Block (BitVec 32 → BitVec 32) (Test (BitVec 32) Unit) :=
  match i with
  | 0 => ⟨[(· + 1)], .intTruth 32 .signed fun _ => 0, some 1, none⟩
  | 1 => ⟨[], .int 32 .signed .gt .imm (.direct false) (fun _ => 5) id, some 2, some 0⟩
  | _ => ⟨[], .intTruth 32 .signed fun _ => 0, none, none⟩

/-- Its code: `.L0: add; .L1: cmp $5, x; jge .L2; jmp .L0; .L2: ret`.  From 3 the result is 5. -/
example : Closed sampleGraph 3 ∧ (∀ i, (sampleGraph i).test.Ok) ∧
    compile sampleGraph 4 [] 0 = some ([.label 0, .stmt (· + 1), .label 1, .test (sampleGraph 1).test, .jcc .ge 2, .jmp 0, .label 2, .ret 2], [2, 1, 0]) ∧
    Leaves (sem ⟨fun _ _ => none, fun _ _ => rfl⟩ () fun _ => false) sampleGraph 0 3 2 5 := by
  refine ⟨?_, ?_, rfl, 4, 5, ⟨_, _, rfl, _, _, rfl, _, _, rfl, _, _, rfl, rfl, rfl⟩, rfl, rfl⟩
  · intro i hi
    obtain rfl | rfl | rfl : i = 0 ∨ i = 1 ∨ i = 2 := by omega
    all_goals simp [sampleGraph]
    rintro t (rfl | rfl) <;> omega
  · rintro (_ | _ | i)
    · rfl
    · exact ⟨.inr (.inr (.inl rfl)), rfl⟩
    · rfl

/-! ## From the source -/

section

variable {σ : Type} [Cfg.Prim σ] {o : Order F} {par : Cfg.Mem σ → Bool}

/-- **C74** (from the source): for every accepted function body in which `break` and `continue` are where C allows them, code is
emitted for its graph, and the body ends in a state with a returned value on the abstract machine exactly when the code
returns in that state, from a block that returns that value.  `T` says how the expression at the end of each block is tested,
and may be any tests that decide what the expressions say.  Missing: tests of type `long double`; the optimizer, which
rearranges the graph before it is compiled (C33 to C36). -/
theorem C74_source_partial (body : Cfg.Stmt σ) (b : Cfg.B σ) (hw : Cfg.WellFormed body) (h : Cfg.build body = some b)
    (T : Nat → Test (Cfg.Mem σ) F) (hT : Faithful o zero b.blk T) :
    ∃ code black, compile (ofCfg b.blk T) (b.n + 1) [] 0 = some (code, black) ∧
      ∀ u tmp u' r, Cfg.Ends body u u' r ↔
        ∃ i m', Finishes (sem o zero par) code ⟨u, tmp⟩ i m' ∧ m'.user = u' ∧ Cfg.returned b.blk ⟨i, 0, m'⟩ = r := by
  obtain ⟨hs, hn⟩ := Cfg.build_shape hw h
  have hc : Closed (ofCfg b.blk T) b.n := fun i _ => ⟨(hs i).1, (hs i).2 id⟩
  obtain ⟨⟨code, black⟩, hcode⟩ := C74_compiled hc hn
  have hok : ∀ i, ((ofCfg b.blk T) i).test.Ok := fun i => (hT i).1
  refine ⟨code, black, hcode, fun u tmp u' r => ⟨fun he => ?_, ?_⟩⟩
  · obtain ⟨k, t, hr, hn, hu, hv⟩ := (Cfg.C30_control_flow body b hw h u u' r).1 he tmp
    exact ⟨t.blk, t.mem, (C74_same_result_partial hcode hok _ _ _).2 (crun_leaves (par := par) hT k hr hn), hu, hv⟩
  · rintro ⟨i, m', hf, rfl, rfl⟩
    obtain ⟨k, t, hr, hn, rfl, rfl⟩ := leaves_crun (par := par) hT ((C74_same_result_partial hcode hok _ _ _).1 hf)
    exact Cfg.C30_terminates body b hw h u tmp k t hr hn

/-- There are such tests for every graph, e.g. the comparison of a truth value with zero. -/
def sampleTests (g : Nat → Cfg.Block σ) (i : Nat) : Test (Cfg.Mem σ) Unit :=
  .intTruth 32 .signed fun m => if (g i).expr.get m ≠ 0 then 1 else 0

theorem sample_faithful (o : Order Unit) (g : Nat → Cfg.Block σ) : Faithful o () g (sampleTests g) := by
  intro i
  refine ⟨rfl, fun _ m => ?_⟩
  show decide ((if (g i).expr.get m ≠ 0 then (1 : BitVec 32) else 0) ≠ 0) = _
  by_cases h : (g i).expr.get m ≠ 0
  · rw [if_pos h]; simp [h]
  · rw [if_neg h]; simp at h; simp [h]

end

/-- The loop of C30, from 2: the code returns 9. -/
example : Cfg.WellFormed Cfg.sampleBody ∧ (Cfg.build Cfg.sampleBody).isSome = true ∧ Cfg.Ends Cfg.sampleBody (2 : Int) (9 : Int) (some 9) := by
  refine ⟨by simp [Cfg.WellFormed, Cfg.sampleBody, Cfg.Stmt.wf, Cfg.addTo], by decide, 25, ?_⟩
  repeat first | exact rfl | refine ⟨_, rfl, ?_⟩

end Verif.Linear
