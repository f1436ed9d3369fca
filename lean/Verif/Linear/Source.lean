import Verif.Linear.Graph

namespace Verif.Linear

open Verif.Compare

variable {F σ : Type} [Cfg.Prim σ] {o : Order F} {zero : F} {par : Cfg.Mem σ → Bool}

set_option linter.unusedSectionVars false

/-- The graph of the parser and the graph of the backend step alike. -/
theorem crun_acts (g : Nat → Cfg.Block σ) (i : Nat) : ∀ (as : List (Cfg.Act σ)) (pre : List (Cfg.Act σ)) (m : Cfg.Mem σ), (g i).acts = pre ++ as →
    Cfg.CRun g as.length ⟨i, pre.length, m⟩ ⟨i, (g i).acts.length, (as.map Cfg.Act.run).foldl (fun m f => f m) m⟩
  | [], pre, m, h => by simp [Cfg.CRun, h]
  | a :: as, pre, m, h => by
    refine ⟨⟨i, pre.length + 1, a.run m⟩, ?_, ?_⟩
    · unfold Cfg.cstep
      rw [show (g i).acts[pre.length]? = some a by rw [h]; simp]
    · have := crun_acts g i as (pre ++ [a]) (a.run m) (by simp [h])
      simpa using this

theorem crun_block {g : Nat → Cfg.Block σ} {T : Nat → Test (Cfg.Mem σ) F} (hT : Faithful o zero g T) (i : Nat) (m : Cfg.Mem σ) :
    ∃ t, Cfg.CRun g (g i).acts.length ⟨i, 0, m⟩ t ∧ t.blk = i ∧ t.mem = after (sem o zero par) (ofCfg g T) i m ∧
      Cfg.cstep g t = (next (sem o zero par) (ofCfg g T) i m).map fun r => ⟨r.1, 0, r.2⟩ := by
  have h := crun_acts g i (g i).acts [] m rfl
  refine ⟨_, h, rfl, rfl, ?_⟩
  unfold Cfg.cstep next
  have he : (g i).acts[(g i).acts.length]? = none := by simp
  simp only [he]
  show _ = Option.map _ (match (g i).j1 with | some y => _ | none => _)
  rcases h1 : (g i).j1 with _ | y
  · show _ = Option.map _ (Option.map _ (g i).j0)
    cases (g i).j0 <;> rfl
  · have hh := (hT i).2 (by rw [h1]; rfl) (after (sem o zero par) (ofCfg g T) i m)
    show (if (g i).expr.get (after (sem o zero par) (ofCfg g T) i m) ≠ 0 then _ else _) =
      Option.map _ (Option.map _ (if (T i).holds o zero (after (sem o zero par) (ofCfg g T) i m) = true then some y else (g i).j0))
    rw [hh]
    by_cases hc : (g i).expr.get (after (sem o zero par) (ofCfg g T) i m) ≠ 0
    · rw [if_pos hc, if_pos (by simpa using hc)]; rfl
    · rw [if_neg hc, if_neg (by simpa using hc)]
      show Option.map _ (g i).j0 = _
      cases (g i).j0 <;> rfl

theorem crun_trans {g : Nat → Cfg.Block σ} : ∀ {n k : Nat} {s t u : Cfg.CState σ}, Cfg.CRun g n s t → Cfg.CRun g k t u → Cfg.CRun g (n + k) s u
  | 0, k, s, t, u, h, h' => by cases h; simpa using h'
  | n + 1, k, s, t, u, ⟨v, hv, h⟩, h' => by
    rw [Nat.add_right_comm]
    exact ⟨v, hv, crun_trans h h'⟩

theorem walk_crun {g : Nat → Cfg.Block σ} {T : Nat → Test (Cfg.Mem σ) F} (hT : Faithful o zero g T) :
    ∀ (n : Nat) {i j : Nat} {m m' : Cfg.Mem σ}, Walk (sem o zero par) (ofCfg g T) n i m j m' → ∃ k, Cfg.CRun g k ⟨i, 0, m⟩ ⟨j, 0, m'⟩
  | 0, i, j, m, m', h => by obtain ⟨rfl, rfl⟩ := h; exact ⟨0, rfl⟩
  | n + 1, i, j, m, m', ⟨c, k, hn, hw⟩ => by
    obtain ⟨t, ht, -, -, hs⟩ := crun_block (par := par) hT i m
    rw [hn] at hs
    obtain ⟨l, hl⟩ := walk_crun hT n hw
    exact ⟨_, crun_trans ht (show Cfg.CRun g (l + 1) _ _ from ⟨_, hs, hl⟩)⟩

theorem leaves_crun {g : Nat → Cfg.Block σ} {T : Nat → Test (Cfg.Mem σ) F} (hT : Faithful o zero g T) {i j : Nat} {m m' : Cfg.Mem σ}
    (h : Leaves (sem o zero par) (ofCfg g T) i m j m') : ∃ k t, Cfg.CRun g k ⟨i, 0, m⟩ t ∧ Cfg.cstep g t = none ∧ t.blk = j ∧ t.mem = m' := by
  obtain ⟨n, k, hw, hn, rfl⟩ := h
  obtain ⟨l, hl⟩ := walk_crun (par := par) hT n hw
  obtain ⟨t, ht, hb, hm, hs⟩ := crun_block (par := par) hT j k
  rw [hn] at hs
  exact ⟨_, t, crun_trans hl ht, hs, hb, hm⟩

theorem crun_leaves {g : Nat → Cfg.Block σ} {T : Nat → Test (Cfg.Mem σ) F} (hT : Faithful o zero g T) : ∀ (N : Nat) {i : Nat} {m : Cfg.Mem σ}
    {t : Cfg.CState σ}, Cfg.CRun g N ⟨i, 0, m⟩ t → Cfg.cstep g t = none → Leaves (sem o zero par) (ofCfg g T) i m t.blk t.mem := by
  intro N
  induction N using Nat.strongRecOn with
  | _ N ih =>
    intro i m t hr hn
    obtain ⟨s, hs, hb, hm, hst⟩ := crun_block (par := par) hT i m
    obtain ⟨d, hN, hrest⟩ := Cfg.crun_split hs hr hn
    rcases hnx : next (sem o zero par) (ofCfg g T) i m with _ | ⟨c, k⟩ <;> rw [hnx] at hst
    · have : s = t := by
        rcases d with _ | d
        · exact hrest
        · obtain ⟨v, hv, -⟩ := hrest; rw [hst] at hv; cases hv
      subst this
      rw [hb]
      exact ⟨0, m, ⟨rfl, rfl⟩, hnx, hm.symm⟩
    · rcases d with _ | d
      · cases hrest; rw [hst] at hn; cases hn
      · obtain ⟨v, hv, hv'⟩ := hrest
        rw [hst] at hv
        cases hv
        obtain ⟨n, k', hw, h1, h2⟩ := ih d (by omega) hv' hn
        exact ⟨n + 1, k', ⟨c, k, hnx, hw⟩, h1, h2⟩

end Verif.Linear
