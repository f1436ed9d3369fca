import Verif.Flow.BlockLemmas

/-!
# Blocks one after the other
-/

namespace Verif.Flow

open Verif.Abi (AX DX BP Place isTempInt)
open Verif.Conv (CM Val)
open Verif.Arith (Calm Operand)
open Verif.Types.Spec (Basic)
open Verif.Compare (Flags runJumps)
open Verif.Fold (tyOf isInt isOpTy)
open Verif.Fold.Spec (conv fits)
open Verif.Cfg (V Act Prim Mem XRun cstep CState Safe)
open Verif.Expr

variable {C : Ctx} {bp : Int}

/-- What is in a place stays when only scratch registers change. -/
theorem place_same {s t : CM} (h : Same s t) {b : Basic} {p : Place} (hb : isInt b) (hp : ∀ r, p = .temp r → isTempInt r) :
    (⟨size b, b.isSigned, none, .place p⟩ : Val).value t.m = (⟨size b, b.isSigned, none, .place p⟩ : Val).value s.m := by
  refine Arith.value_calm h.calm ⟨isSize_size hb, ?_, ?_, ?_, ?_, ?_⟩ <;> simp
  exact hp

theorem inv_same {s t : CM} {σ : Env} (hL : C.L.Good C.Γ C.N C.M bp) (h : Same s t) (hI : Inv C.L C.Γ C.N C.M bp s σ) :
    Inv C.L C.Γ C.N C.M bp t σ where
  bp := by rw [h.calm.reg BP Arith.bp_scratch]; exact hI.bp
  skip := by rw [h.same]; exact hI.skip
  vars i hi := by
    obtain ⟨h1, h2⟩ := hI.vars i hi
    refine ⟨?_, h2⟩
    unfold Stores at h1 ⊢
    rw [place_same h (Fold.fits_isInt h2) (fun r e => (hL.var i hi r e).elim)]
    exact h1
  tmps k hk b x hx := by
    obtain ⟨h1, h2⟩ := hI.tmps k hk b x hx
    refine ⟨h1, ?_⟩
    rw [place_same h h1 (fun r e => tmp_temp hL hk e)]
    exact h2

theorem untouched_same {s t : CM} (h : Same s t) : Untouched C.L C.Γ C.N C.M bp s t :=
  ⟨h.same, fun r hr _ => h.calm.reg r hr, fun x _ _ => by rw [h.calm.mem]⟩

theorem rel_same {m : Mem (LeafOf C.Γ)} {s t : CM} {σ : Env} (hL : C.L.Good C.Γ C.N C.M bp) (h : Same s t) (hR : Rel C bp m s σ) : Rel C bp m t σ :=
  ⟨hR.user, inv_same hL h hR.inv, hR.ctl⟩

/-- A value is returned. -/
theorem ret_ok {m : Mem (LeafOf C.Γ)} {s : CM} {σ : Env} {e : IExp} {b a : Basic} {i : Nat} {x : Int} {c : List XIns} (enc) (f : Option Flags)
    (hL : C.L.Good C.Γ C.N C.M bp) (h : Rel C bp m s σ) (he : EHolds C.Γ C.N (C.nl + C.K) σ e a x) (hc : retCode C i b e = some c) :
    ∃ t g σ', run enc (s, f) c = some (t, g) ∧ Inv C.L C.Γ C.N C.M bp t σ' ∧ σ'.vars = σ.vars ∧ Untouched C.L C.Γ C.N C.M bp s t ∧
      t.m.reg AX % 256 ^ size b = conv b x % 256 ^ size b := by
  unfold retCode at hc
  split at hc
  · rename_i e' n st hp
    split_ifs at hc with hg
    obtain ⟨hb, hb', hn, hM⟩ := hg
    obtain ⟨_, n1, st1, σ1, e1, l1, d1, hk, ha⟩ := prepareAssign_sound (he.keep (Keep.refl _ _) hn) hb
    rw [hp] at e1
    simp only [Option.some.injEq, Prod.mk.injEq] at e1
    obtain ⟨rfl, rfl, rfl⟩ := e1
    have he1 : EHolds C.Γ C.N n σ1 e' b (conv b x) := by
      rcases ha with ha | ⟨rfl, _⟩
      · exact ha
      · exact (hb' rfl).elim
    obtain ⟨c1, g1, t1, f1, r1, I1, u1⟩ := does_ok enc hL (d1.mono hM) f h.inv
    obtain ⟨c2, r, g2, hr, t2, f2, r2, R2⟩ := expr_ok enc f1 hL I1 hM he1
    rw [g1, g2] at hc
    simp only [Option.some.injEq] at hc
    subst hc
    have S2 : Same t1 t2 := ⟨R2.same, R2.mem, R2.reg⟩
    have run2 := run_two r1 r2
    by_cases hx : r = AX
    · subst hx
      refine ⟨t2, f2, σ1, by simpa using run2, inv_same hL S2 I1, hk.vars, u1.trans (untouched_same S2), R2.low⟩
    · have hsk : t2.skip = none := (inv_same hL S2 I1).skip
      have hz : Types.scalarSize (tyOf b {}) = size b := size_tyOf hb
      let t3 : CM := { t2 with m := Arith.set t2.m (size b) AX (t2.m.reg r) }
      have S3 : Same t1 t3 := by
        refine ⟨?_, ?_, ?_⟩
        · show ({ t2 with m := _ } : CM) = _
          rw [R2.same]
        · show (Arith.set t2.m (size b) AX (t2.m.reg r)).mem = _
          simp only [Arith.set, Abi.set_mem]
          exact R2.mem
        · intro q hq
          show (Arith.set t2.m (size b) AX (t2.m.reg r)).reg q = _
          simp only [Arith.set, Abi.set_reg]
          rw [if_neg (by rintro rfl; exact hq (by decide))]
          exact R2.reg q hq
      refine ⟨t3, none, σ1, ?_, inv_same hL S3 I1, hk.vars, u1.trans (untouched_same S3), ?_⟩
      · rw [if_neg hx]
        refine run_two run2 ?_
        simp only [run, Expr.step, Arith.step, Conv.step, hsk, Option.map_some, Option.bind_some, hz]
        show some (({ t2 with m := t2.m.set AX (Abi.merged (decide (size b < 4) || decide (17 ≤ AX)) (size b) (t2.m.reg AX) (t2.m.reg r)) } : CM), none) = _
        rw [show decide (17 ≤ AX) = false from rfl, Bool.or_false]
        rfl
      · show (Arith.set t2.m (size b) AX (t2.m.reg r)).reg AX % _ = _
        rw [Arith.set_low]
        exact R2.low
  · cases hc

/-- What is known at a `ret`. -/
structure Final (C : Ctx) (bp : Int) (r : Option Int) (u : Option U) (t : CM) : Prop where
  rep : ∃ w, u = some w ∧ Rep C.L C.Γ C.N t.m w.vars
  val : ∀ x, r = some x → ∃ b, C.tr = some b ∧ t.m.reg AX % 256 ^ size b = conv b x % 256 ^ size b

def dflt : Flags := ⟨false, false, false, false, false⟩

def flagsOf (T : Test) : Option CM → Flags
  | some s => T.flags s.m
  | none => dflt

/-- Code, with the machine. -/
def se (enc : Nat → Option ℚ → List UInt8) : Linear.Sem (List XIns) Test (Option CM) :=
  ⟨exec enc, fun T m => runJumps (flagsOf T m) T.jumps, flagsOf⟩

theorem xrun_acts {G : Nat → Cfg.Block (LeafOf C.Γ)} {i : Nat} {t : CState (LeafOf C.Γ)} (ht : cstep G t = none) :
    ∀ (as pre : List (Act (LeafOf C.Γ))) (m : Mem (LeafOf C.Γ)) (n : Nat), (G i).acts = pre ++ as → XRun G n ⟨i, pre.length, m⟩ t →
      Safes as m ∧ ∃ n', n = as.length + n' ∧ XRun G n' ⟨i, (G i).acts.length, acts as m⟩ t
  | [], pre, m, n, h, hr => ⟨trivial, n, by simp, by rw [h]; simpa [acts] using hr⟩
  | a :: as, pre, m, n, h, hr => by
    have ha : (G i).acts[pre.length]? = some a := by rw [h]; simp
    have hs : cstep G ⟨i, pre.length, m⟩ = some ⟨i, pre.length + 1, a.run m⟩ := by
      unfold cstep
      simp only [ha]
    cases n with
    | zero =>
      cases show (⟨i, pre.length, m⟩ : CState (LeafOf C.Γ)) = t from hr
      rw [hs] at ht; cases ht
    | succ n =>
      obtain ⟨q, ⟨h1, h2⟩, h3⟩ := hr
      rw [hs] at h1
      cases h1
      obtain ⟨g1, n', g2, g3⟩ := xrun_acts (i := i) ht as (pre ++ [a]) (a.run m) n (by simp [h]) (by simpa using h3)
      refine ⟨⟨?_, g1⟩, n', by simp only [List.length_cons]; omega, g3⟩
      unfold Safe at h2
      simp only [ha] at h2
      cases a <;> exact h2

theorem cstep_user {G : Nat → Cfg.Block (LeafOf C.Γ)} {s t : CState (LeafOf C.Γ)} (h : cstep G s = some t) (hs : s.mem.user = none) : t.mem.user = none := by
  unfold cstep at h
  split at h
  · rename_i a _
    cases h
    exact act_none a hs
  · split at h
    · split_ifs at h
      · cases h; exact hs
      · obtain ⟨f, _, rfl⟩ := Option.map_eq_some_iff.mp h
        exact hs
    · obtain ⟨f, _, rfl⟩ := Option.map_eq_some_iff.mp h
      exact hs

theorem xrun_user {G : Nat → Cfg.Block (LeafOf C.Γ)} : ∀ {n : Nat} {s t : CState (LeafOf C.Γ)}, XRun G n s t → s.mem.user = none → t.mem.user = none
  | 0, _, _, h, hs => by cases show _ = _ from h; exact hs
  | _ + 1, _, _, ⟨_, h1, h2⟩, hs => xrun_user h2 (cstep_user h1.1 hs)

theorem foldl_snoc {α β : Type} (f : β → α → β) (l : List α) (a : α) (b : β) : (l ++ [a]).foldl f b = f (l.foldl f b) a := by simp

/-- From the beginning of a block to the end of the function. -/
theorem walk_ok (enc) (hL : C.L.Good C.Γ C.N C.M bp) (hM : C.nl + C.K ≤ C.M) {G : Nat → Cfg.Block (LeafOf C.Γ)}
    {LG : Nat → Linear.Block (List XIns) Test} {nb : Nat} (hG : ∀ i < nb, blockCode C G i = some (LG i))
    (hS : ∀ i t, (G i).j0 = some t ∨ (G i).j1 = some t → t < nb) (hj : ∀ i, (G i).j1.isSome = true → (G i).j0.isSome = true)
    {t : CState (LeafOf C.Γ)} (ht : cstep G t = none) (hu : t.mem.user ≠ none) (hr : (G t.blk).ret = true → (G t.blk).expr.ok t.mem) :
    ∀ (n : Nat) {i : Nat} {m : Mem (LeafOf C.Γ)} {s : CM} {σ : Env}, i < nb → XRun G n ⟨i, 0, m⟩ t → Rel C bp m s σ →
      ∃ s', Linear.Leaves (se enc) LG i (some s) t.blk (some s') ∧ Final C bp (Cfg.returned G t) t.mem.user s' ∧
        Untouched C.L C.Γ C.N C.M bp s s' := by
  intro n
  induction n using Nat.strongRecOn with
  | _ n ih =>
    intro i m s σ hi hx hR
    obtain ⟨hsafe, n', hn', hx'⟩ := xrun_acts ht (G i).acts [] m n rfl hx
    have hu1 : (acts (G i).acts m).user ≠ none := fun e => hu (xrun_user hx' e)
    have hb := hG i hi
    unfold blockCode at hb
    split at hb
    · cases hb
    rename_i cs hcs
    obtain ⟨s1, σ1, e1, R1, u1⟩ := acts_ok enc hL hM hR hcs hsafe hu1
    have hend : (G i).acts[(G i).acts.length]? = none := by simp
    have hstep : cstep G ⟨i, (G i).acts.length, acts (G i).acts m⟩ = (match (G i).j1 with
        | some t => if (G i).expr.get (acts (G i).acts m) ≠ 0 then some ⟨t, 0, acts (G i).acts m⟩ else (G i).j0.map fun f => ⟨f, 0, acts (G i).acts m⟩
        | none => (G i).j0.map fun t => ⟨t, 0, acts (G i).acts m⟩) := by
      unfold cstep
      simp only [hend]
      cases (G i).j1 <;> rfl
    -- one block, then the others
    have more : ∀ (j : Nat) (s2 : CM), cstep G ⟨i, (G i).acts.length, acts (G i).acts m⟩ = some ⟨j, 0, acts (G i).acts m⟩ → j < nb →
        Linear.next (se enc) LG i (some s) = some (j, some s2) → Same s1 s2 →
        ∃ s', Linear.Leaves (se enc) LG i (some s) t.blk (some s') ∧ Final C bp (Cfg.returned G t) t.mem.user s' ∧
          Untouched C.L C.Γ C.N C.M bp s s' := by
      intro j s2 hc hjn hnx hsame
      cases n' with
      | zero =>
        cases show (⟨_, _, _⟩ : CState (LeafOf C.Γ)) = t from hx'
        rw [hc] at ht; cases ht
      | succ k =>
        obtain ⟨q, ⟨h1, h2⟩, h3⟩ := hx'
        rw [hc] at h1
        cases h1
        obtain ⟨s', ⟨l, kk, hw, hn2, ha⟩, hf, hu2⟩ := ih k (by omega) hjn h3 (rel_same hL hsame R1)
        exact ⟨s', ⟨l + 1, kk, ⟨j, some s2, hnx, hw⟩, hn2, ha⟩, hf, (u1.trans (untouched_same hsame)).trans hu2⟩
    cases h1 : (G i).j1 with
    | some y =>
      simp only [h1] at hb hstep
      obtain ⟨z, hz⟩ := Option.isSome_iff_exists.mp (hj i (by rw [h1]; rfl))
      split at hb
      · rename_i c T hT
        obtain ⟨e, hv, hT⟩ := Option.bind_eq_some_iff.mp hT
        simp only [Option.some.injEq] at hb
        have hok : (G i).expr.ok (acts (G i).acts m) := by
          have : ∃ q, cstep G ⟨i, (G i).acts.length, acts (G i).acts m⟩ = some q := by
            rw [hstep, hz]
            split_ifs
            · exact ⟨_, rfl⟩
            · exact ⟨_, rfl⟩
          obtain ⟨q, hq⟩ := this
          cases n' with
          | zero =>
            cases show (⟨_, _, _⟩ : CState (LeafOf C.Γ)) = t from hx'
            rw [hq] at ht; cases ht
          | succ k =>
            obtain ⟨_, ⟨_, h2⟩, _⟩ := hx'
            unfold Safe at h2
            simp only [hend] at h2
            exact h2 (by rw [h1]; simp)
        obtain ⟨b, hbv⟩ := vExp_sound R1 hv hok
        obtain ⟨c', T', g1, s2, f2, g2, g3, g4⟩ := test_ok enc none hL R1.inv hM hbv
        rw [hT] at g1
        cases g1
        have haft : Linear.after (se enc) LG i (some s) = some s2 := by
          unfold Linear.after
          rw [← hb]
          show (cs ++ [c]).foldl (fun m f => exec enc f m) (some s) = some s2
          rw [foldl_snoc, e1]
          simp only [exec, Option.bind_some, g2, Option.map_some]
        have hholds : (se enc).holds (LG i).test (some s2) = decide ((G i).expr.get (acts (G i).acts m) ≠ 0) := by
          rw [← hb]; exact g4
        by_cases hc : (G i).expr.get (acts (G i).acts m) ≠ 0
        · refine more y s2 (by rw [hstep, if_pos hc]) (hS i y (.inr h1)) ?_ g3
          unfold Linear.next
          simp only [show (LG i).j1 = some y by rw [← hb], haft, hholds, decide_eq_true hc, if_true, Option.map_some]
        · refine more z s2 (by rw [hstep, if_neg hc, hz]; rfl) (hS i z (.inl hz)) ?_ g3
          unfold Linear.next
          simp only [show (LG i).j1 = some y by rw [← hb], show (LG i).j0 = some z by rw [← hb]; exact hz, haft, hholds, decide_eq_false hc,
            Bool.false_eq_true, if_false, Option.map_some]
      · cases hb
    | none =>
      cases h0 : (G i).j0 with
      | some z =>
        simp only [h1, h0, Option.some.injEq] at hb hstep
        have haft : Linear.after (se enc) LG i (some s) = some s1 := by
          unfold Linear.after
          rw [← hb]
          exact e1
        refine more z s1 (by rw [hstep]; rfl) (hS i z (.inl h0)) ?_ (Same.refl _)
        unfold Linear.next
        rw [haft, ← hb]
        rfl
      | none =>
        simp only [h1, h0] at hb hstep
        have hlast : (⟨i, (G i).acts.length, acts (G i).acts m⟩ : CState (LeafOf C.Γ)) = t := by
          cases n' with
          | zero => exact hx'
          | succ k =>
            obtain ⟨_, ⟨h, _⟩, _⟩ := hx'
            rw [hstep] at h; cases h
        subst hlast
        obtain ⟨w, hw, hv, _⟩ := R1.user
        split_ifs at hb with hret
        · split at hb
          · rename_i b e htr hve
            split at hb
            · rename_i c hc
              simp only [Option.some.injEq] at hb
              obtain ⟨a, ha⟩ := vExp_sound R1 hve (hr hret)
              obtain ⟨s2, f2, σ2, g1, I2, v2, u2, ax⟩ := ret_ok enc none hL R1 ha hc
              have haft : Linear.after (se enc) LG i (some s) = some s2 := by
                unfold Linear.after
                rw [← hb]
                show (cs ++ [c]).foldl (fun m f => exec enc f m) (some s) = some s2
                rw [foldl_snoc, e1]
                simp only [exec, Option.bind_some, g1, Option.map_some]
              refine ⟨s2, ⟨0, some s, ⟨rfl, rfl⟩, ?_, haft⟩, ⟨⟨w, hw, ?_⟩, ?_⟩, u1.trans u2⟩
              · unfold Linear.next
                rw [← hb]
                rfl
              · rw [← hv, ← v2]; exact I2.vars
              · intro x hxr
                simp only [Cfg.returned, hret, if_true, Option.some.injEq] at hxr
                subst hxr
                exact ⟨b, htr, ax⟩
            · cases hb
          · cases hb
        · simp only [Option.some.injEq] at hb
          have haft : Linear.after (se enc) LG i (some s) = some s1 := by
            unfold Linear.after
            rw [← hb]
            exact e1
          refine ⟨s1, ⟨0, some s, ⟨rfl, rfl⟩, ?_, haft⟩, ⟨⟨w, hw, ?_⟩, ?_⟩, u1⟩
          · unfold Linear.next
            rw [← hb]
            rfl
          · rw [← hv]; exact R1.inv.vars
          · intro x hxr
            simp only [Cfg.returned, hret] at hxr
            cases hxr

end Verif.Flow
