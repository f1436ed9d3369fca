import Verif.Flow.SourceLemmas
import Verif.Conv.CastLemmas

/-!
# The body of a function
-/

namespace Verif.Flow

open Verif.Abi (AX BP Place isTempInt)
open Verif.Conv (CM Val)
open Verif.Types.Spec (Basic)
open Verif.Compare (Flags)
open Verif.Fold (tyOf isInt isOpTy)
open Verif.Fold.Spec (conv fits)
open Verif.Cfg (Stmt WellFormed build)
open Verif.Expr

variable {C : Ctx}

/-- Whatever is in a place is a number of the type. -/
theorem place_fits {b : Basic} {p : Place} {s : Abi.M} (hb : isOpTy b) (hp : ∀ r, p = .temp r → isTempInt r) :
    fits b ((⟨size b, b.isSigned, none, .place p⟩ : Val).value s) := by
  have ho : Arith.Operand s ⟨size b, b.isSigned, none, .place p⟩ := by
    refine ⟨isSize_size hb.isInt.1, ?_, ?_, ?_, ?_, ?_⟩ <;> simp
    exact hp
  have h := Conv.value_range_size (ho.good (by simp) (by simp))
  dsimp only at h
  generalize (⟨size b, b.isSigned, none, .place p⟩ : Val).value s = x at h ⊢
  rcases hb with rfl | rfl | rfl | rfl
  · obtain ⟨h1, h2⟩ : -2147483648 ≤ x ∧ x < 2147483648 := h
    exact ⟨_, _, rfl, h1, by omega⟩
  · obtain ⟨h1, h2⟩ : 0 ≤ x ∧ x < 4294967296 := h
    exact ⟨_, _, rfl, h1, by omega⟩
  · obtain ⟨h1, h2⟩ : -9223372036854775808 ≤ x ∧ x < 9223372036854775808 := h
    exact ⟨_, _, rfl, h1, by omega⟩
  · obtain ⟨h1, h2⟩ : 0 ≤ x ∧ x < 18446744073709551616 := h
    exact ⟨_, _, rfl, h1, by omega⟩

instance (b : Basic) : Decidable (isOpTy b) := by unfold isOpTy; infer_instance

/-- At the beginning temporaries have the values that happen to be in their places. -/
theorem rel_start {bp : Int} {s : CM} {ρ : Nat → Int} (hL : C.L.Good C.Γ C.N C.M bp) (hM : C.nl + C.K ≤ C.M) (hb : s.m.reg BP = bp) (hk : s.skip = none)
    (hr : Rep C.L C.Γ C.N s.m ρ) : ∃ tmp σ, Rel C bp ⟨some ⟨ρ, none⟩, tmp⟩ s σ := by
  let v (k : Nat) : Int := (⟨size (C.tt k), (C.tt k).isSigned, none, .place (C.L.tmp (C.nl + k))⟩ : Val).value s.m
  refine ⟨v, ⟨ρ, fun j => if C.nl ≤ j ∧ j < C.nl + C.K ∧ isOpTy (C.tt (j - C.nl)) then some (C.tt (j - C.nl), v (j - C.nl)) else none⟩, ⟨?_, ?_, ?_⟩⟩
  · exact ⟨⟨ρ, none⟩, rfl, rfl, by simp⟩
  · refine ⟨hb, hk, hr, ?_⟩
    intro j hj b x hx
    simp only at hx
    split_ifs at hx with h
    cases hx
    refine ⟨h.2.2.isInt.1, ?_⟩
    simp only [v]
    rw [show C.nl + (j - C.nl) = j by omega]
  · intro k hkK ho
    simp only
    rw [if_pos ⟨by omega, by omega, by rw [Nat.add_sub_cancel_left]; exact ho⟩, Nat.add_sub_cancel_left]
    exact ⟨rfl, place_fits ho (fun r e => tmp_temp hL (by omega) e)⟩

theorem blockCodes_get {G : Nat → Cfg.Block Leaf} : ∀ {n : Nat} {bs : List (Linear.Block (List XIns) Test)}, blockCodes C G n = some bs →
    bs.length = n ∧ ∀ i < n, ∃ b, bs[i]? = some b ∧ blockCode C G i = some b
  | 0, bs, h => by cases h; exact ⟨rfl, fun i hi => absurd hi (by omega)⟩
  | n + 1, bs, h => by
    simp only [blockCodes] at h
    split at h
    · rename_i bs' b h1 h2
      cases h
      obtain ⟨g1, g2⟩ := blockCodes_get h1
      refine ⟨by simp [g1], ?_⟩
      intro i hi
      by_cases e : i = n
      · subst e
        exact ⟨b, by rw [List.getElem?_append_right (by omega), g1]; simp, h2⟩
      · obtain ⟨c, g3, g4⟩ := g2 i (by omega)
        exact ⟨c, by rw [List.getElem?_append_left (by omega)]; exact g3, g4⟩
    · cases h

theorem body_returns {body : Stmt Leaf} {prog : List MIns} {ρ ρ' : Nat → Int} {r : Option Int} {s : CM} (enc) (f : Option Flags)
    (hw : WellFormed body) (hc : compileBody C body = some prog) (hL : C.L.Good C.Γ C.N C.M (s.m.reg BP)) (hM : C.nl + C.K ≤ C.M) (hk : s.skip = none)
    (hr : Rep C.L C.Γ C.N s.m ρ) (h : Ends C.Γ body ρ ρ' r) :
    ∃ t g, Returns enc prog (s, f) (t, g) ∧ Rep C.L C.Γ C.N t.m ρ' ∧ Untouched C.L C.Γ C.N C.M (s.m.reg BP) s t ∧
      ∀ x, r = some x → ∃ b, C.tr = some b ∧ t.m.reg AX % 256 ^ size b = conv b x % 256 ^ size b := by
  unfold compileBody at hc
  split_ifs at hc with hok
  split at hc
  · cases hc
  rename_i b hbuild
  split at hc
  · cases hc
  rename_i bs hbs
  obtain ⟨⟨code, black⟩, hlin, rfl⟩ := Option.map_eq_some_iff.mp hc
  obtain ⟨tmp, σ, R⟩ := rel_start hL hM rfl hk hr
  obtain ⟨n, hn⟩ := h
  obtain ⟨l, hs⟩ := source_run hok (s := .exec body .stop ρ) ⟨hok, trivial, fun i hi => (hr i hi).2⟩ hn none
  obtain ⟨Lb, hfwd⟩ := Cfg.forward (σ := LeafOf C.Γ) hw hbuild (some ⟨ρ, none⟩) tmp
  obtain ⟨j, c, hx, h1, h2, h3, h4⟩ := hfwd hs
  obtain ⟨hsh, hpos⟩ := Cfg.build_shape (σ := LeafOf C.Γ) hw hbuild
  obtain ⟨_, hget⟩ := blockCodes_get hbs
  have hG : ∀ i < b.n, blockCode C b.blk i = some (bs.getD i ⟨[], noTest, none, none⟩) := by
    intro i hi
    obtain ⟨lb, g1, g2⟩ := hget i hi
    rw [g2, List.getD_eq_getElem?_getD, g1]; rfl
  obtain ⟨t, hleave, hfin, hun⟩ := walk_ok (C := C) (G := b.blk) (LG := fun i => bs.getD i ⟨[], noTest, none, none⟩) enc hL hM hG
    (fun i t => (hsh i).1 t) (fun i => (hsh i).2 (fun h => h)) h1 (by rw [h2]; simp) h4 j hpos hx R
  have hfinish := Linear.leaves_finishes (se := se enc) hlin (fun b m => rfl) hleave
  obtain ⟨g, hret⟩ := finishes_returns hfinish f
  obtain ⟨w, hw1, hw2⟩ := hfin.rep
  rw [h2] at hw1
  cases hw1
  refine ⟨t, g, hret, hw2, hun, ?_⟩
  intro x hx
  exact hfin.val x (by rw [h3]; exact hx)

end Verif.Flow
