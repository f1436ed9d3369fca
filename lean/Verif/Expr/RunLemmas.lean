import Verif.Expr.CodeLemmas
import Verif.Expr.SoundLemmas

/-!
# The code of statements does what they say
-/

namespace Verif.Expr

open Verif.Abi (M Place Src AX BP isTempInt)
open Verif.Conv (CM Val IsSize)
open Verif.Arith (Operand Target Assigned)
open Verif.Types (scalarSize)
open Verif.Types.Spec (Basic)
open Verif.Compare (Flags)
open Verif.Fold (tyOf isInt isOpTy isSigned)
open Verif.Fold.Spec (conv fits)

variable {Γ : Nat → Basic} {N : Nat} {L : Layout} {bp : Int}

/-- The machine has the numbers. -/
structure Inv (L : Layout) (Γ : Nat → Basic) (N M : Nat) (bp : Int) (s : CM) (σ : Env) : Prop where
  bp : s.m.reg BP = bp
  skip : s.skip = none
  vars : Rep L Γ N s.m σ.vars
  tmps : ∀ k < M, ∀ b x, σ.tmps k = some (b, x) → isInt b ∧ (⟨size b, b.isSigned, none, .place (L.tmp k)⟩ : Val).value s.m = x

theorem imm_value {m : M} {b : Basic} {x : Int} {i : Fold.Imm} (hi : i.v = BitVec.ofInt 64 x) (hf : fits b x) :
    (⟨size b, b.isSigned, none, .imm i.v.toInt⟩ : Val).value m = x := by
  have hz := isSize_size (Fold.fits_isInt hf)
  refine Arith.value_of_emod rfl hz (has_fits hf) ?_
  show Abi.val (Conv.bytes m (.imm i.v.toInt) (size b)) = _
  rw [Arith.val_bytes_imm, hi, BitVec.toInt_ofInt]
  show _ = x % 256 ^ size b
  have : (256 : Int) ^ size b ∣ ((2 ^ 64 : Nat) : Int) := by
    rcases hz with h | h | h | h <;> rw [h] <;> decide
  rw [← Int.emod_emod_of_dvd _ this, Int.bmod_emod, Int.emod_emod_of_dvd _ this]

/-- Operands that the statements have. -/
theorem operand {M : Nat} {s : CM} {σ : Env} {v : IVar} {b : Basic} {x : Int} (hL : L.Good Γ N M bp) (hI : Inv L Γ N M bp s σ)
    (h : VHolds Γ N M σ v b x) :
    Operand s.m (v.val L) ∧ (v.val L).value s.m = x ∧ (v.val L).sz = size b ∧ (v.val L).signed = b.isSigned ∧ (v.val L).field = none ∧
      (∀ p, (v.val L).src ≠ .addr p) := by
  have hi := Fold.fits_isInt h.fits
  have hz := isSize_size hi
  have e1 : scalarSize v.ty = size b := by rw [h.ty]; exact size_tyOf hi
  have e2 : isSigned v.ty = b.isSigned := by rw [h.ty]; exact Fold.isSigned_tyOf hi {}
  have hat := h.at_
  cases v with
  | imm i =>
    have e : (IVar.imm i).val L = ⟨size b, b.isSigned, none, .imm i.v.toInt⟩ := by rw [← e1, ← e2]; rfl
    rw [e]
    refine ⟨⟨hz, ?_, ?_, ?_, ?_, ?_⟩, imm_value hat h.fits, rfl, rfl, rfl, by simp⟩ <;> simp
  | obj i t =>
    obtain ⟨h1, rfl, h3⟩ := hat
    have e : (IVar.obj i t).val L = ⟨size (Γ i), (Γ i).isSigned, none, .place (L.var i)⟩ := by rw [← e1, ← e2]; rfl
    rw [e]
    refine ⟨⟨hz, ?_, ?_, ?_, ?_, ?_⟩, (hI.vars i h1).1.trans h3, rfl, rfl, rfl, by simp⟩ <;> simp
    intro r hr
    exact (hL.var i h1 r hr).elim
  | tmp k t =>
    obtain ⟨h1, h2⟩ := hat
    have e : (IVar.tmp k t).val L = ⟨size b, b.isSigned, none, .place (L.tmp k)⟩ := by rw [← e1, ← e2]; rfl
    rw [e]
    refine ⟨⟨hz, ?_, ?_, ?_, ?_, ?_⟩, (hI.tmps k h1 b x h2).2, rfl, rfl, rfl, by simp⟩ <;> simp
    intro r hr
    rcases hL.tmp k h1 with ⟨q, e, hq⟩ | ⟨o, e⟩
    · rw [hr] at e; cases e; exact hq
    · rw [hr] at e; cases e

theorem run_map {enc} {s u : CM} {f : Option Flags} {c : List Arith.AIns} (h : Arith.run enc s c = some u) :
    ∃ t g, run enc (s, f) (c.map .a) = some (t, g) ∧ t = u := by
  obtain ⟨g, e⟩ := run_arith c f h
  exact ⟨u, g, e, rfl⟩

/-- One statement. -/
theorem stmt_ok {M n : Nat} {s : CM} {σ : Env} {e : IExp} {tv : IVar} {b : Basic} {x : Int} {p : Place} (enc) (f : Option Flags)
    (hL : L.Good Γ N M bp) (hI : Inv L Γ N M bp s σ) (hn : n ≤ M) (h : AHolds Γ N n σ e b x)
    (hx : tv.val L = ⟨size b, b.isSigned, none, .place p⟩) (hp : ∀ q, p = .temp q → isTempInt q)
    (hp' : ∀ op o t l r, e = .bin op t l r → arithOp op = some o → ∀ q, p = .temp q → ∀ k < n, L.tmp k ≠ .temp q) :
    ∃ c, stmtCode L ⟨tv, e⟩ = some c ∧ ∃ t g, run enc (s, f) c = some (t, g) ∧ Assigned s t ⟨size b, b.isSigned, none, .place p⟩ x := by
  have up : ∀ {v : IVar} {a : Basic} {y : Int}, VHolds Γ N n σ v a y → VHolds Γ N M σ v a y := fun h => h.keep (Keep.refl _ _) hn
  have hib : isInt b := by
    rcases h with h | ⟨hb, _⟩
    · exact Fold.fits_isInt h.fits
    · rw [hb]; rfl
  have hT : Target s.m ⟨size b, b.isSigned, none, .place p⟩ := by
    refine ⟨⟨isSize_size hib, ?_, ?_, ?_, ?_, ?_⟩, ?_, ?_, ?_⟩ <;> simp
    exact hp
  have reg : ∀ {v : IVar} {a : Basic} {y : Int} {q : Nat}, VHolds Γ N n σ v a y → (∀ k < n, L.tmp k ≠ .temp q) → (v.val L).src ≠ .place (.temp q) := by
    intro v a y q hv hq
    have := hv.at_
    cases v with
    | imm i => simp [IVar.val]
    | obj i t =>
      simp only [IVar.val, ne_eq, Src.place.injEq]
      exact hL.var i this.1 q
    | tmp k t =>
      simp only [IVar.val, ne_eq, Src.place.injEq]
      exact hq k this.1
  have compare : ∀ {op : Fold.Op} {o : Compare.Op} {t : Types.Ty} {l r : IVar} {a : Basic} {y z : Int}, compareOp op = some o → isOpTy a → size b ≤ 4 →
      VHolds Γ N n σ l a y → VHolds Γ N n σ r a z → ∃ c, stmtCode L ⟨tv, .bin op t l r⟩ = some c ∧ ∃ t g, run enc (s, f) c = some (t, g) ∧
        Assigned s t ⟨size b, b.isSigned, none, .place p⟩ (if o.holds (some (Ord.compare y z)) then 1 else 0) := by
    intro op o t l r a y z ho ha hb hl hr
    obtain ⟨ol, vl, zl, sl, fl, al⟩ := operand hL hI (up hl)
    obtain ⟨or, vr, zr, sr, fr, ar⟩ := operand hL hI (up hr)
    obtain ⟨c, cc, st, g1, g2, u, g, e, h⟩ := compare_outcome (op := o) enc f ol or fl fr (zl.trans zr.symm) (sl.trans sr.symm)
      (by rw [zl]; exact opTy_size ha) hI.skip hT hb
    rw [vl, vr] at h
    refine ⟨_, ?_, u, g, e, h⟩
    have hno : arithOp op = none := by cases op <;> first | rfl | cases ho
    simp only [stmtCode, hno, ho, g1, hx]
    simp only [Option.bind_eq_bind, Option.bind_some, g2]
  rcases h with h | ⟨hb, op, o, l, r, rfl, ho, h⟩
  · cases h with
    | @same v _ _ hv =>
      obtain ⟨ov, vv, zv, sv, fv, av⟩ := operand hL hI (up hv)
      obtain ⟨c, g, u, e, h⟩ := copy_outcome enc hI.skip ov fv (x := ⟨size b, b.isSigned, none, .place p⟩) rfl hT zv.symm sv.symm
      obtain ⟨t, g', e', rfl⟩ := run_map (f := f) e
      rw [vv] at h
      refine ⟨_, ?_, t, g', e', h⟩
      simp only [stmtCode, castCode, hx]
      rw [if_pos hv.ty]
      rw [show (v.val L).sz = scalarSize (tyOf b {}) from zv.trans (size_tyOf hib).symm,
        show (v.val L).signed = isSigned (tyOf b {}) from sv.trans (Fold.isSigned_tyOf hib {}).symm] at g
      simp only [g]; rfl
    | @conv v a _ y hv hi _ hb ha =>
      obtain ⟨ov, vv, zv, sv, fv, av⟩ := operand hL hI (up hv)
      obtain ⟨c, g, u, e, h⟩ := convert_outcome enc hI.skip ov (x := ⟨size b, b.isSigned, none, .place p⟩) (w := scalarSize (tyOf b {}))
        (sg := isSigned (tyOf b {})) (by cases v with
          | imm i => exact (hi i rfl).elim
          | _ => simp [IVar.val]) av (by rw [size_tyOf hib]; exact isSize_size hib) hT (size_tyOf hib).symm (Fold.isSigned_tyOf hib {}).symm
      obtain ⟨t, g', e', rfl⟩ := run_map (f := f) e
      rw [vv] at h
      refine ⟨_, ?_, t, g', e', Assigned.congr h rfl (conv_low hib hb y).symm⟩
      simp only [stmtCode, castCode, hx]
      rw [if_neg (by rw [hv.ty]; exact fun e => ha (tyOf_inj e))]
      simp only [g]; rfl
    | @not v _ y hv hb =>
      obtain ⟨ov, vv, zv, sv, fv, av⟩ := operand hL hI (up hv)
      obtain ⟨c, g, u, e, h⟩ := Arith.not_outcome (t := some ⟨size b, b.isSigned, none, .place p⟩) enc hI.skip ov (by
        intro X hX
        simp only [Option.mem_some_iff] at hX
        subst hX
        exact ⟨hT, zv.symm⟩)
      obtain ⟨t, g', e', rfl⟩ := run_map (f := f) e
      rw [vv] at h
      refine ⟨_, ?_, t, g', e', Assigned.congr h rfl (conv_low hib hb.isInt.2 _).symm⟩
      simp only [stmtCode, hx, g]; rfl
    | @arith op o l r a _ y z _ ho hb hl hr ha hm =>
      obtain ⟨ol, vl, zl, sl, fl, al⟩ := operand hL hI (up hl)
      obtain ⟨or, vr, zr, sr, fr, ar⟩ := operand hL hI (up hr)
      obtain ⟨c, g, u, e, h⟩ := Arith.binary_outcome (t := some ⟨size b, b.isSigned, none, .place p⟩) (op := o) (c := x) enc hI.skip ol or
        (opTy_size hb) zl sl (by
          rcases ha with ha | ha | rfl
          · exact .inl ha
          · exact .inr (.inl ha)
          · exact .inr (.inr ⟨zr, sr⟩)) (by
        intro X hX
        simp only [Option.mem_some_iff] at hX
        subst hX
        exact ⟨hT, rfl⟩) (fun _ hf => (hf fl).elim) (by
        intro _ X hX q hq
        simp only [Option.mem_some_iff] at hX
        subst hX
        simp only [Src.place.injEq] at hq
        exact ⟨fun e => (reg hl (hp' _ _ _ _ _ rfl ho q hq) e).elim, fun e => (reg hr (hp' _ _ _ _ _ rfl ho q hq) e).elim⟩) (by rw [vl, vr]; exact hm)
      obtain ⟨t, g', e', rfl⟩ := run_map (f := f) e
      refine ⟨_, ?_, t, g', e', h⟩
      simp only [stmtCode, ho, hx]
      rw [size_tyOf hib, Fold.isSigned_tyOf hib]
      simp only [g]; rfl
    | rel ho ha hl hr => exact compare ho ha (by decide) hl hr
  · subst hb
    generalize he : IExp.bin op intTy l r = e at h
    generalize hb : Basic.int = b at h
    cases h with
    | @arith op' o' _ _ _ _ _ _ _ ho' =>
      simp only [IExp.bin.injEq] at he
      rw [← he.1] at ho'
      cases op <;> first | (cases ho; done) | (cases ho'; done)
    | same => cases he
    | conv => cases he
    | not => cases he
    | rel ho' ha hl hr =>
      simp only [IExp.bin.injEq] at he
      obtain ⟨rfl, _, rfl, rfl⟩ := he
      rw [ho] at ho'
      cases ho'
      exact compare ho ha (by decide) hl hr

/-! ### What is left alone -/

theorem home_address {s : M} {p : Place} (h : s.reg BP = bp) : p.address s = home bp p := by
  cases p <;> simp only [Place.address, home]
  rw [h]

theorem bp_kept {s t : CM} {X : Val} {x : Int} {p : Place} (h : Assigned s t X x) (hs : X.src = .place p) (hp : ∀ q, p = .temp q → isTempInt q) :
    t.m.reg BP = s.m.reg BP := by
  refine h.reg BP Arith.bp_scratch ?_
  rw [hs]
  intro e
  cases e
  exact absurd (hp BP rfl) (by decide)

theorem value_kept {s t : CM} {X v : Val} {x : Int} {p q : Place} (h : Assigned s t X x) (hs : X.src = .place p) (hp : ∀ r, p = .temp r → isTempInt r)
    (hv : v.src = .place q) (hf : v.field = none) (hq : ∀ r, q = .temp r → isTempInt r) (hpq : ∀ r, q = .temp r → p ≠ .temp r)
    (hbp : s.m.reg BP = bp)
    (ha : (∀ r, p ≠ .temp r) → (∀ r, q ≠ .temp r) → Apart (home bp q) v.sz (home bp p) X.sz) : v.value t.m = v.value s.m := by
  have hb : Conv.bytes t.m v.src v.sz = Conv.bytes s.m v.src v.sz := by
    unfold Conv.bytes
    apply List.map_congr_left
    intro j hj
    rw [List.mem_range] at hj
    rw [hv]
    have hadd : q.address t.m = q.address s.m := by
      rw [home_address (bp := bp) (by rw [bp_kept h hs hp]; exact hbp), home_address hbp]
    by_cases hqt : ∃ r, q = .temp r
    · obtain ⟨r, rfl⟩ := hqt
      simp only [Src.byte, Place.byte]
      rw [h.reg r (Arith.temp_scratch (hq r rfl)) (by rw [hs]; intro e; cases e; exact hpq r rfl rfl)]
    · have hb : ∀ m : M, (Src.place q).byte m j = m.mem (q.address m + j) := by
        intro m
        cases q with
        | temp r => exact (hqt ⟨r, rfl⟩).elim
        | _ => rfl
      rw [hb, hb, hadd]
      by_cases hpt : ∃ r, p = .temp r
      · obtain ⟨r, rfl⟩ := hpt
        rw [(h.temp r hs).2]
      · refine h.mem _ ?_
        have := ha (fun r e => hpt ⟨r, e⟩) (fun r e => hqt ⟨r, e⟩)
        rw [hs]
        simp only [Src.object]
        rw [home_address hbp, home_address hbp]
        unfold Apart at this
        omega
  unfold Val.value
  simp only [hf, hb]

theorem skip_kept {s t : CM} {X : Val} {x : Int} (h : Assigned s t X x) : t.skip = s.skip := by rw [h.same]

theorem tmp_temp {M k r : Nat} (hL : L.Good Γ N M bp) (hk : k < M) (h : L.tmp k = .temp r) : isTempInt r := by
  rcases hL.tmp k hk with ⟨q, e, hq⟩ | ⟨o, e⟩
  · rw [h] at e; cases e; exact hq
  · rw [h] at e; cases e

theorem size_le {b : Basic} (h : isInt b) : size b ≤ 8 := by
  rcases isSize_size h with h | h | h | h <;> omega

/-- A variable is assigned. -/
theorem setVar_inv {M i : Nat} {s t : CM} {σ : Env} {x : Int} (hL : L.Good Γ N M bp) (hI : Inv L Γ N M bp s σ) (hi : i < N) (hf : fits (Γ i) x)
    (h : Assigned s t ⟨size (Γ i), (Γ i).isSigned, none, .place (L.var i)⟩ x) :
    Inv L Γ N M bp t (σ.setVar i x) ∧ Untouched L Γ N M bp s t := by
  have hp : ∀ q, L.var i = .temp q → isTempInt q := fun q e => (hL.var i hi q e).elim
  have hT : Target s.m ⟨size (Γ i), (Γ i).isSigned, none, .place (L.var i)⟩ := by
    refine ⟨⟨isSize_size (Fold.fits_isInt hf), ?_, ?_, ?_, ?_, ?_⟩, ?_, ?_, ?_⟩ <;> simp
    exact hp
  refine ⟨⟨(bp_kept h rfl hp).trans hI.bp, (skip_kept h).trans hI.skip, ?_, ?_⟩, h.same, ?_, ?_⟩
  · intro j hj
    simp only [Env.setVar, put]
    by_cases e : j = i
    · subst e
      rw [if_pos rfl]
      exact ⟨Arith.Assigned.value hT (by simp) h (Arith.has_room rfl (has_fits hf)), hf⟩
    · rw [if_neg e]
      obtain ⟨h1, h2⟩ := hI.vars j hj
      refine ⟨?_, h2⟩
      unfold Stores
      rw [value_kept h rfl hp rfl rfl (fun r e => (hL.var j hj r e).elim) (fun r e => (hL.var j hj r e).elim) hI.bp (fun _ _ => hL.vars j hj i hi e)]
      exact h1
  · intro k hk b y hy
    obtain ⟨h1, h2⟩ := hI.tmps k hk b y hy
    refine ⟨h1, ?_⟩
    rw [value_kept h rfl hp (q := L.tmp k) rfl rfl (fun r => tmp_temp hL hk) (fun r _ => hL.var i hi r) hI.bp ?_]
    · exact h2
    · intro _ hq
      obtain ⟨o, e⟩ := (hL.tmp k hk).resolve_left (fun ⟨r, e, _⟩ => hq r e)
      have := hL.both i hi k hk o e
      have := size_le h1
      rw [e]
      simp only [Apart, home] at *
      omega
  · intro r hr _
    exact h.reg r hr (by simpa using hL.var i hi r)
  · intro a ha _
    have := ha i hi
    refine h.mem a ?_
    simp only [Src.object]
    rw [home_address hI.bp]
    omega

/-- A temporary is assigned. -/
theorem setTmp_inv {M k : Nat} {s t : CM} {σ : Env} {b : Basic} {x : Int} (hL : L.Good Γ N M bp) (hI : Inv L Γ N M bp s σ) (hk : k < M) (hf : fits b x)
    (h : Assigned s t ⟨size b, b.isSigned, none, .place (L.tmp k)⟩ x) :
    Inv L Γ N M bp t (σ.setTmp k b x) ∧ Untouched L Γ N M bp s t := by
  have hp : ∀ q, L.tmp k = .temp q → isTempInt q := fun q => tmp_temp hL hk
  have hib := Fold.fits_isInt hf
  have hsz := size_le hib
  have hT : Target s.m ⟨size b, b.isSigned, none, .place (L.tmp k)⟩ := by
    refine ⟨⟨isSize_size hib, ?_, ?_, ?_, ?_, ?_⟩, ?_, ?_, ?_⟩ <;> simp
    exact hp
  have fr : (∀ r, L.tmp k ≠ .temp r) → ∃ o, L.tmp k = .frame o := fun hq => (hL.tmp k hk).resolve_left (fun ⟨r, e, _⟩ => hq r e)
  refine ⟨⟨(bp_kept h rfl hp).trans hI.bp, (skip_kept h).trans hI.skip, ?_, ?_⟩, h.same, ?_, ?_⟩
  · intro j hj
    obtain ⟨h1, h2⟩ := hI.vars j hj
    refine ⟨?_, h2⟩
    unfold Stores
    rw [value_kept h rfl hp (q := L.var j) rfl rfl (fun r e => (hL.var j hj r e).elim) (fun r e => (hL.var j hj r e).elim) hI.bp ?_]
    · exact h1
    · intro hq _
      obtain ⟨o, e⟩ := fr hq
      have := hL.both j hj k hk o e
      rw [e]
      simp only [Apart, home] at *
      omega
  · intro k' hk' b' y hy
    simp only [Env.setTmp] at hy
    by_cases e : k' = k
    · subst e
      rw [if_pos rfl] at hy
      simp only [Option.some.injEq, Prod.mk.injEq] at hy
      obtain ⟨rfl, rfl⟩ := hy
      exact ⟨hib, Arith.Assigned.value hT (by simp) h (Arith.has_room rfl (has_fits hf))⟩
    · rw [if_neg e] at hy
      obtain ⟨h1, h2⟩ := hI.tmps k' hk' b' y hy
      refine ⟨h1, ?_⟩
      rw [value_kept h rfl hp (q := L.tmp k') rfl rfl (fun r => tmp_temp hL hk') (fun r e1 e2 => e (hL.regs k' hk' k hk r e1 e2)) hI.bp ?_]
      · exact h2
      · intro hq hq'
        obtain ⟨o, e1⟩ := fr hq
        obtain ⟨o', e2⟩ := (hL.tmp k' hk').resolve_left (fun ⟨r, e, _⟩ => hq' r e)
        have := hL.tmps k' hk' k hk o' o e e2 e1
        have := size_le h1
        rw [e1, e2]
        simp only [Apart, home] at *
        omega
  · intro r hr hr'
    exact h.reg r hr (by simpa using hr' k hk)
  · intro a _ ha
    by_cases hq : ∃ r, L.tmp k = .temp r
    · obtain ⟨r, e⟩ := hq
      rw [(h.temp r (by rw [e])).2]
    · obtain ⟨o, e⟩ := fr (fun r e => hq ⟨r, e⟩)
      have := ha k hk o e
      refine h.mem a ?_
      simp only [Src.object]
      rw [home_address hI.bp, e]
      simp only [home]
      omega

theorem Untouched.trans {M : Nat} {s t u : CM} (h : Untouched L Γ N M bp s t) (g : Untouched L Γ N M bp t u) : Untouched L Γ N M bp s u where
  same := by rw [g.same, h.same]
  reg r h1 h2 := (g.reg r h1 h2).trans (h.reg r h1 h2)
  mem x h1 h2 := (g.mem x h1 h2).trans (h.mem x h1 h2)

theorem Untouched.refl {M : Nat} (s : CM) : Untouched L Γ N M bp s s := ⟨rfl, fun _ _ _ => rfl, fun _ _ _ => rfl⟩

theorem AHolds.fits {n : Nat} {σ : Env} {e : IExp} {b : Basic} {x : Int} (h : AHolds Γ N n σ e b x) : fits b x := by
  rcases h with h | ⟨hb, op, o, l, r, rfl, ho, h⟩
  · exact h.fits
  · subst hb
    generalize he : IExp.bin op intTy l r = e at h
    generalize hb : Basic.int = b at h
    cases h with
    | @arith op' o' _ _ _ _ _ _ _ ho' =>
      simp only [IExp.bin.injEq] at he
      rw [← he.1] at ho'
      cases op <;> first | (cases ho; done) | (cases ho'; done)
    | same => cases he
    | conv => cases he
    | not => cases he
    | rel ho' ha hl hr =>
      simp only [IExp.bin.injEq] at he
      obtain ⟨rfl, _, rfl, rfl⟩ := he
      split_ifs <;> exact ⟨_, _, rfl, by decide⟩

/-- The code runs to the end, with the numbers that the statements give. -/
theorem does_ok {M : Nat} (enc) (hL : L.Good Γ N M bp) {st : List Stmt} {σ σ' : Env} (h : Does Γ N M σ st σ') :
    ∀ {s : CM} (f : Option Flags), Inv L Γ N M bp s σ → ∃ c, code L st = some c ∧ ∃ t g, run enc (s, f) c = some (t, g) ∧
      Inv L Γ N M bp t σ' ∧ Untouched L Γ N M bp s t := by
  induction h with
  | nil => intro s f hI; exact ⟨[], rfl, s, f, rfl, hI, Untouched.refl s⟩
  | @var σ σ' i e x r hi h _ ih =>
    intro s f hI
    have hib := Fold.fits_isInt h.fits
    obtain ⟨c1, g1, t1, f1, e1, a1⟩ := stmt_ok (tv := .obj i (tyOf (Γ i) {})) (p := L.var i) enc f hL hI (Nat.le_refl _) h
      (by rw [← size_tyOf hib, ← Fold.isSigned_tyOf hib {}]; rfl) (fun q e => (hL.var i hi q e).elim) (fun _ _ _ _ _ _ _ q e => (hL.var i hi q e).elim)
    obtain ⟨I1, u1⟩ := setVar_inv hL hI hi h.fits a1
    obtain ⟨c2, g2, t2, f2, e2, I2, u2⟩ := ih f1 I1
    exact ⟨c1 ++ c2, by simp only [code, g1, g2]; rfl, t2, f2, run_two e1 e2, I2, u1.trans u2⟩
  | @tmp σ σ' k b e x r hk h _ ih =>
    intro s f hI
    have hib := Fold.fits_isInt h.fits
    obtain ⟨c1, g1, t1, f1, e1, a1⟩ := stmt_ok (tv := .tmp k (tyOf b {})) (p := L.tmp k) enc f hL hI (Nat.le_of_lt hk) h
      (by rw [← size_tyOf hib, ← Fold.isSigned_tyOf hib {}]; rfl)
      (fun q e => tmp_temp hL hk e) (fun _ _ _ _ _ _ _ q e k' hk' e' => by have := hL.regs k hk k' (by omega) q e e'; omega)
    obtain ⟨I1, u1⟩ := setTmp_inv hL hI hk h.fits a1
    obtain ⟨c2, g2, t2, f2, e2, I2, u2⟩ := ih f1 I1
    exact ⟨c1 ++ c2, by simp only [code, g1, g2]; rfl, t2, f2, run_two e1 e2, I2, u1.trans u2⟩

end Verif.Expr
