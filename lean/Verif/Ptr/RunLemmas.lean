import Verif.Ptr.CodeSpec
import Verif.Ptr.Lemmas
import Verif.Expr.RunLemmas

/-!
# The code of statements with pointers does what they say
-/

namespace Verif.Ptr

open Verif.Abi (M Place Src AX BP isTempInt val sval rd wr le)
open Verif.Conv (CM Val IsSize)
open Verif.Arith (Operand Target Assigned)
open Verif.Types.Spec (Basic)
open Verif.Expr (Layout home Apart XIns home_address)
open Verif.Compare (Flags)
open Verif.Fold (tyOf isInt isOpTy)
open Verif.Fold.Spec (conv fits)

variable {W : World} {L : Layout} {bp : Int} {n : Nat}

set_option linter.unusedSectionVars false

/-- The machine has the bytes and the numbers. -/
structure Inv (L : Layout) (W : World) (n : Nat) (bp : Int) (s : CM) (σ : Env) : Prop where
  bp : s.m.reg BP = bp
  skip : s.skip = none
  mem : Holds W s.m σ.mem
  tmps : ∀ k < n, ∀ t x, σ.tmps k = some (t, x) → IsSize (t.size W.toDecls) ∧
    val (Conv.bytes s.m (.place (L.tmp k)) (t.size W.toDecls)) = x % 256 ^ t.size W.toDecls ∧
    (t.size W.toDecls = 8 → ∀ r, L.tmp k = .temp r → 0 ≤ s.m.reg r ∧ s.m.reg r < 256 ^ 8) ∧ (t = .int .bool → x = 0 ∨ x = 1)

/-! ### Types and numbers -/

theorem Scalar.size {t : CTy} (h : t.Scalar) : IsSize (t.size W.toDecls) := by
  rcases h with ⟨h, ⟨b, rfl⟩ | ⟨u, rfl⟩⟩
  · rw [size_int h]; exact Expr.isSize_size h
  · exact .inr (.inr (.inr rfl))

theorem pow64 : (2 : Int) ^ 64 = 256 ^ 8 := by norm_num

theorem fit_has {t : CTy} {x : Int} (h : Fit t x) : Arith.Has (t.size W.toDecls) t.isSigned x := by
  cases t with
  | int b =>
    have hi := Fold.fits_isInt h
    rw [size_int hi]
    simp only [CTy.isSigned, Fold.isSigned_tyOf hi]
    exact Expr.has_fits h
  | ptr u => exact h
  | _ => exact h.elim

theorem view_low {t : CTy} {x y : Int} (ht : t.Ok) (hb : t ≠ .int .bool) (h : view t x = some y) :
    y % 256 ^ t.size W.toDecls = x % 256 ^ t.size W.toDecls := by
  cases t with
  | int b =>
    simp only [view, Option.some.injEq] at h
    subst h
    rw [size_int ht]
    exact Expr.conv_low ht (fun e => hb (by rw [e])) x
  | ptr u =>
    simp only [view, Option.some.injEq] at h
    subst h
    show x % 2 ^ 64 % 256 ^ 8 = x % 256 ^ 8
    rw [pow64, Int.emod_emod_of_dvd _ (dvd_refl _)]
  | _ => cases h

theorem sval_low (bs : List UInt8) : sval bs % 256 ^ bs.length = val bs := by
  have h1 := Abi.val_lt bs
  have h2 := Abi.val_nonneg bs
  have e : val bs % 256 ^ bs.length = val bs := Int.emod_eq_of_lt h2 h1
  unfold sval
  split_ifs
  · exact e
  · rw [Int.sub_emod_right]; exact e

theorem number_low {mem : Mem} {t : CTy} {a x : Int} (ht : t.Ok) (h : number mem t a = some x) :
    val (rd mem a (t.size W.toDecls)) = x % 256 ^ t.size W.toDecls := by
  cases t with
  | int b =>
    rw [size_int ht]
    by_cases hb : b = .bool
    · subst hb
      simp only [number] at h
      split_ifs at h with h1
      cases h
      exact (Abi.val_rd_emod mem a 1).symm
    · have e : x = if b.isSigned then sval (rd mem a (Expr.size b)) else val (rd mem a (Expr.size b)) := by
        cases b <;> first | exact (hb rfl).elim | (simp only [number, Option.some.injEq] at h; exact h.symm)
      subst e
      split_ifs
      · have := sval_low (rd mem a (Expr.size b))
        rw [Abi.rd_length] at this
        exact this.symm
      · exact (Abi.val_rd_emod _ _ _).symm
  | ptr u =>
    simp only [number, Option.some.injEq] at h
    subst h
    exact (Abi.val_rd_emod mem a 8).symm
  | _ => cases h

theorem rd_holds {s : M} {mem : Mem} {a : Int} {k : Nat} (h : Holds W s mem) (hv : W.Valid a k) : rd s.mem a k = rd mem a k := by
  unfold rd
  apply List.map_congr_left
  intro j hj
  exact h _ (hv j (List.mem_range.mp hj))

/-! ### Operands -/

theorem not_temp {p : Place} (h : ∀ r, p ≠ .temp r) : ∃ a, p.ea = some a := by
  cases p with
  | temp r => exact (h r rfl).elim
  | _ => exact ⟨_, rfl⟩

theorem tmp_temp {k r : Nat} (hL : Fits L W n bp) (hk : k < n) (h : L.tmp k = .temp r) : isTempInt r := by
  rcases hL.tmp k hk with ⟨q, e, hq⟩ | ⟨o, e⟩
  · rw [h] at e; cases e; exact hq
  · rw [h] at e; cases e

theorem shift_temp {p : Place} {d : Nat} (h : ∀ r, p ≠ .temp r) : ∀ r, p.shift d ≠ .temp r := by
  cases p with
  | temp r => exact (h r rfl).elim
  | _ => intro r e; cases e

theorem shift_zero (p : Place) : p.shift 0 = p := by cases p <;> simp [Place.shift]

theorem home_shift {p : Place} {d : Nat} (h : ∀ r, p ≠ .temp r) : home bp (p.shift d) = home bp p + d := by
  cases p with
  | temp r => exact (h r rfl).elim
  | frame o => simp only [home, Place.shift]; omega
  | global a => rfl

theorem disp_some {o : BitVec 64} (h : o.toNat < 2 ^ 31) : disp o = some o.toNat := by rw [disp, if_pos h]

theorem bytes_mem {s : M} {p : Place} {k : Nat} (h : ∀ r, p ≠ .temp r) (hb : s.reg BP = bp) :
    Conv.bytes s (.place p) k = rd s.mem (home bp p) k := by
  obtain ⟨a, ha⟩ := not_temp h
  rw [Conv.bytes_place ha, Abi.ea_place ha, home_address hb]

theorem word_bytes (s : M) (p : Place) : p.word s = val (Conv.bytes s (.place p) 8) := rfl

theorem tmpValue_inv {σ : Env} {k : Nat} {t : CTy} {x : Int} (h : tmpValue W σ k t = some x) :
    ∃ u y, σ.tmps k = some (u, y) ∧ (u.size W.toDecls = t.size W.toDecls ∧ (t = .int .bool → u = t)) ∧ view t y = some x := by
  unfold tmpValue at h
  split at h
  · rename_i u y e
    split_ifs at h with he
    exact ⟨u, y, e, he, h⟩
  · cases h

/-- The pointer in a symbol. -/
theorem pointer_word {s : CM} {σ : Env} {q : Sym} {u : CTy} {p : Int} (hW : W.Good) (hL : Fits L W n bp) (hI : Inv L W n bp s σ)
    (hq : ∀ k t, q = .tmp k t → k < n) (ht : q.ty W.toDecls = .ptr u) (h : pointer W σ q = some p) :
    (q.place L).word s.m = p ∧ ∀ r, q.place L = .temp r → isTempInt r ∧ 0 ≤ s.m.reg r ∧ s.m.reg r < 256 ^ 8 := by
  cases q with
  | var i =>
    have hv : ∀ r, L.var i ≠ .temp r := (hL.var i).1
    refine ⟨?_, fun r e => (hv r e).elim⟩
    have e : val (rd σ.mem (W.addr i) 8) = p := Option.some.inj h
    show (L.var i).word s.m = p
    rw [word_bytes, bytes_mem hv hI.bp, (hL.var i).2, ← e]
    have ht' : W.var i = .ptr u := ht
    have hs : (W.var i).size W.toDecls = 8 := by rw [ht']; rfl
    have := hW.valid i
    rw [hs] at this
    rw [rd_holds hI.mem this]
  | tmp k t =>
    obtain ⟨w, y, e1, ⟨e2, -⟩, e3⟩ := tmpValue_inv h
    have e2' : w.size W.toDecls = 8 := e2
    obtain ⟨-, h2, h3, -⟩ := hI.tmps k (hq k t rfl) w y e1
    rw [e2'] at h2
    refine ⟨?_, fun r e => ⟨tmp_temp hL (hq k t rfl) e, h3 e2' r e⟩⟩
    show (L.tmp k).word s.m = p
    rw [word_bytes, h2, ← pow64]
    exact Option.some.inj e3

/-- Objects. -/
theorem object {s : CM} {σ : Env} {v : PVar} {a : Int} (hW : W.Good) (hL : Fits L W n bp) (hI : Inv L W n bp s σ) (hp : v.Plain W.toDecls)
    (hb : v.Before n) (h : v.place W σ = some a) :
    ∃ src, v.val W.toDecls L = some ⟨v.ty.size W.toDecls, v.ty.isSigned, none, src⟩ ∧
      Target s.m ⟨v.ty.size W.toDecls, v.ty.isSigned, none, src⟩ ∧ src.object s.m = a ∧ (∀ r, src ≠ .place (.temp r)) ∧
      ∀ k, Conv.bytes s.m src k = rd s.m.mem a k := by
  cases v with
  | imm t x => cases h
  | adr q o t => cases q <;> cases h
  | derImm x o t => exact hp.elim
  | dir q o t =>
    cases q with
    | tmp k u => cases h
    | var i =>
      obtain ⟨h1, h2, -⟩ := hp
      have hv := (hL.var i).1
      have hv' := shift_temp (d := o.toNat) hv
      have ha : a = home bp ((L.var i).shift o.toNat) := by
        rw [home_shift hv, (hL.var i).2]
        have e : wrap (W.addr i + o.toNat) = a := Option.some.inj h
        rw [← e]
        unfold wrap
        have := hW.addr i
        unfold top at this
        exact Int.emod_eq_of_lt (by omega) (by omega)
      refine ⟨.place ((L.var i).shift o.toNat), by simp only [PVar.val, disp_some h2]; rfl, ?_, ?_, ?_, ?_⟩
      · refine ⟨⟨Scalar.size h1, ?_, ?_, ?_, ?_, ?_⟩, ?_, ?_, ?_⟩ <;> simp
        exact fun r e => (hv' r e).elim
      · rw [ha]; exact home_address hI.bp
      · intro r e; exact hv' r (Src.place.inj e)
      · intro k; rw [ha]; exact bytes_mem hv' hI.bp
  | der q o t =>
    obtain ⟨h1, h2, u, h3⟩ := hp
    simp only [PVar.place, Option.bind_eq_some_iff] at h
    obtain ⟨p, e, h⟩ := h
    split_ifs at h with hlt
    obtain ⟨w1, w2⟩ := pointer_word hW hL hI (by rintro k w rfl; exact hb) h3 e
    have e' : (q.place L).word s.m + o.toNat = a := by rw [w1]; exact Option.some.inj h
    refine ⟨.deref (q.place L) o.toNat, by simp only [PVar.val, disp_some h2]; rfl, ?_, e', by simp, ?_⟩
    · refine ⟨⟨Scalar.size h1, ?_, ?_, ?_, ?_, ?_⟩, ?_, ?_, ?_⟩ <;> simp
      exact w2
    · intro k; rw [Conv.bytes_deref, e']

/-- What is so for operands. -/
structure Ready (L : Layout) (s : M) (v : PVar) (D : Decls) (x : Int) (V : Val) : Prop where
  operand : Operand s V
  value : V.value s = x
  sz : V.sz = v.ty.size D
  signed : V.signed = v.ty.isSigned
  field : V.field = none
  addr : ∀ p, V.src = .addr p → ∃ q o t, v = .adr q o t
  imm : ∀ m, V.src = .imm m → isImm v = true
  temp : ∀ q, V.src = .place (.temp q) → ∃ k u o t, v = .dir (.tmp k u) o t ∧ L.tmp k = .temp q

theorem operand {s : CM} {σ : Env} {v : PVar} {x : Int} (hW : W.Good) (hL : Fits L W n bp) (hI : Inv L W n bp s σ) (hp : v.Plain W.toDecls)
    (hb : v.Before n) (h : v.read W σ = some x) : ∃ V, v.val W.toDecls L = some V ∧ Ready L s.m v W.toDecls x V := by
  have mem : ∀ a, v.place W σ = some a → v.ty.Ok → scalar W σ.mem v.ty a = some x →
      (∀ q o t, v ≠ .adr q o t) → ∃ V, v.val W.toDecls L = some V ∧ Ready L s.m v W.toDecls x V := by
    intro a ha ht hx hadr
    obtain ⟨src, e, hT, ho, hq, hbytes⟩ := object hW hL hI hp hb ha
    obtain ⟨hv, hn⟩ := scalar_inv hx
    refine ⟨_, e, ⟨hT.toOperand, ?_, rfl, rfl, rfl, ?_, ?_, ?_⟩⟩
    · refine Arith.value_of_emod rfl hT.size (fit_has (scalar_fit ht hx)) ?_
      show val (Conv.bytes s.m src _) = _
      rw [hbytes, rd_holds hI.mem hv]
      exact number_low ht hn
    · intro p hs; exact (hT.noAddr p hs).elim
    · intro m hs; exact (hT.noImm m hs).elim
    · intro r hs; exact (hq r hs).elim
  cases v with
  | imm t y =>
    obtain ⟨h1, h2⟩ := hp
    have hx : view t y.toInt = some x := h
    refine ⟨_, rfl, ⟨?_, ?_, rfl, rfl, rfl, by simp, fun _ _ => rfl, by simp⟩⟩
    · refine ⟨Scalar.size h1, ?_, ?_, ?_, ?_, ?_⟩ <;> simp
    · refine Arith.value_of_emod rfl (Scalar.size h1) (fit_has (view_fit h1.1 hx)) ?_
      show val (Conv.bytes s.m (.imm y.toInt) _) = x % 256 ^ t.size W.toDecls
      rw [Arith.val_bytes_imm]
      by_cases hb : t = .int .bool
      · subst hb
        have hx' : conv .bool y.toInt = x := Option.some.inj hx
        rcases h2 rfl with rfl | rfl <;> rw [← hx'] <;> (show _ % 256 ^ 1 = _ % 256 ^ 1; decide)
      · exact (view_low h1.1 hb hx).symm
  | derImm y o t => exact hp.elim
  | der q o t =>
    simp only [PVar.read, Option.bind_eq_some_iff] at h
    obtain ⟨a, ha, hx⟩ := h
    exact mem a ha hp.1.1 hx (by simp)
  | dir q o t =>
    cases q with
    | var i =>
      simp only [PVar.read, Option.bind_eq_some_iff] at h
      obtain ⟨a, ha, hx⟩ := h
      exact mem a ha hp.1.1 hx (by simp)
    | tmp k u =>
      obtain ⟨h1, h2, h3⟩ := hp
      obtain rfl := h3 k u rfl
      have hk : k < n := hb
      have h : tmpValue W σ k t = some x := by simpa [PVar.read] using h
      obtain ⟨w, y, e1, ⟨e2, e2'⟩, e3⟩ := tmpValue_inv h
      obtain ⟨i1, i2, -, i4⟩ := hI.tmps k hk w y e1
      refine ⟨⟨t.size W.toDecls, t.isSigned, none, .place (L.tmp k)⟩, ?_, ⟨?_, ?_, rfl, rfl, rfl, by simp, by simp, ?_⟩⟩
      · simp only [PVar.val, disp_some h2, Option.map_some]
        show some (Val.mk _ _ _ (.place ((L.tmp k).shift 0))) = _
        rw [shift_zero]
      · refine ⟨Scalar.size h1, ?_, ?_, ?_, ?_, ?_⟩ <;> simp
        exact fun r e => tmp_temp hL hk e
      · refine Arith.value_of_emod rfl (Scalar.size h1) (fit_has (view_fit h1.1 e3)) ?_
        show val (Conv.bytes s.m (.place (L.tmp k)) (t.size W.toDecls)) = x % 256 ^ t.size W.toDecls
        rw [← e2, i2, e2]
        by_cases hb : t = .int .bool
        · subst hb
          have e3' : conv .bool y = x := Option.some.inj e3
          rcases i4 (e2' rfl) with rfl | rfl <;> rw [← e3'] <;> rfl
        · exact (view_low h1.1 hb e3).symm
      · intro q e
        exact ⟨k, u, 0, t, rfl, Src.place.inj e⟩
  | adr q o t =>
    obtain ⟨h1, h2, ⟨i, rfl⟩, h4⟩ := hp
    have hv := (hL.var i).1
    have hv' := shift_temp (d := o.toNat) hv
    have hx : view t (wrap (W.addr i + o.toNat)) = some x := h
    refine ⟨⟨t.size W.toDecls, t.isSigned, none, .addr ((L.var i).shift o.toNat)⟩, by simp only [PVar.val, disp_some h2]; rfl,
      ⟨?_, ?_, rfl, rfl, rfl, fun _ _ => ⟨_, _, _, rfl⟩, by simp, by simp⟩⟩
    · refine ⟨Scalar.size h1, ?_, ?_, ?_, ?_, ?_⟩ <;> simp
      exact ⟨h4, hv'⟩
    · refine Arith.value_of_emod rfl (Scalar.size h1) (fit_has (view_fit h1.1 hx)) ?_
      show val (le (t.size W.toDecls) (((L.var i).shift o.toNat).address s.m)) = x % 256 ^ t.size W.toDecls
      rw [Abi.val_le_emod, home_address hI.bp, home_shift hv, (hL.var i).2, view_low h1.1 (by rintro rfl; cases h4) hx, h4, wrap, pow64,
        Int.emod_emod_of_dvd _ (dvd_refl _)]

/-! ### Operators -/

theorem plus_outcome {s : CM} {x l r : Val} (enc) (hk : s.skip = none) (hl : Operand s.m l) (hr : Operand s.m r) (wl : l.sz = 8) (wr : r.sz = 8)
    (hx : Target s.m x) (wx : x.sz = 8) (sg : Bool)
    (hadd : ∀ q, x.src = .place (.temp q) → l.src ≠ .place (.temp q) ∧ r.src ≠ .place (.temp q)) :
    ∃ code, Arith.binary .add (some x) 8 sg l r = some code ∧ ∃ u, Arith.run enc s code = some u ∧ Assigned s u x (l.value s.m + r.value s.m) := by
  obtain ⟨body, g, v, e, h⟩ := Arith.sum_result enc hl hr (.inr rfl) wl wr hk
  unfold Arith.binary Arith.add
  simp only
  split_ifs with c1 c2
  · obtain ⟨d, hs⟩ := c1
    obtain ⟨code, g, u, e, h⟩ := Arith.addTo_assigned enc hx hr hl (.inr rfl) wx wr wl hk d hs fun q hq n =>
      ((hadd q hq).2 (by rw [← (Arith.same_src hs).1, hq])).elim
    exact ⟨code, g, u, e, Int.add_comm (r.value s.m) (l.value s.m) ▸ h⟩
  · obtain ⟨d, hs⟩ := c2
    obtain ⟨code, g, u, e, h⟩ := Arith.addTo_assigned enc hx hl hr (.inr rfl) wx wl wr hk d hs fun q hq n =>
      ((hadd q hq).1 (by rw [← (Arith.same_src hs).1, hq])).elim
    exact ⟨code, g, u, e, h⟩
  · obtain ⟨st, g2, u, e2, h2⟩ := Arith.store_assigned enc hx (le_of_eq wx) hk h (.inl rfl)
    exact ⟨_, by simp only [g, g2]; rfl, u, Arith.run_two e e2, h2⟩

theorem minus_outcome {s : CM} {x l r : Val} (enc) (hk : s.skip = none) (hl : Operand s.m l) (hr : Operand s.m r) (wl : l.sz = 8) (wr : r.sz = 8)
    (hx : Target s.m x) (wx : x.sz = 8) (sg : Bool) :
    ∃ code, Arith.binary .sub (some x) 8 sg l r = some code ∧ ∃ u, Arith.run enc s code = some u ∧ Assigned s u x (l.value s.m - r.value s.m) := by
  obtain ⟨c1, c2, g1, g2, v, e, hs, hq, ha, hb⟩ := Arith.load_two enc hl hr hk
  have kt : v.skip = none := by rw [hs]; exact hk
  obtain ⟨v', e2, s2⟩ := Arith.run_set (enc := enc) (i := .alu .sub 8 AX Abi.CX) kt (by simp) rfl
  rw [wl] at ha
  rw [wr] at hb
  obtain ⟨st, g3, u, e3, h3⟩ := Arith.finish (v := some x) (Arith.run_two e e2) (Arith.alu_result hs hq s2 ha hb) (.inl rfl)
    (by intro y hy; simp only [Option.mem_some_iff] at hy; subst hy; exact ⟨hx, le_of_eq wx⟩) hk
  exact ⟨_, by simp only [Arith.binary, Arith.sub, Arith.loadInt_load wl (.inr rfl), Arith.loadInt_load wr (.inr rfl), g1, g2, g3]; rfl, u, e3, h3⟩

/-- Between different types. -/
theorem convert_outcome {s : CM} {w : Nat} {sg : Bool} {x l : Val} (enc) (hk : s.skip = none) (hl : Operand s.m l)
    (hi : ∀ m, l.src ≠ .imm m) (ha : ∀ p, l.src = .addr p → w = 8) (hw : IsSize w) (hx : Target s.m x) (h1 : x.sz = w) (h2 : x.signed = sg) :
    ∃ code, (do some ((← Arith.loadInt l AX (if w < 4 then 4 else w)) ++ (← Arith.store AX { x with sz := w, signed := sg }))) = some code ∧
      ∃ u, Arith.run enc s code = some u ∧ Assigned s u x (l.value s.m) := by
  have hw' : (if w < 4 then 4 else w) = 4 ∨ (if w < 4 then 4 else w) = 8 := by
    unfold IsSize at hw; split_ifs <;> omega
  have hle : w ≤ (if w < 4 then 4 else w) := by split_ifs <;> omega
  obtain ⟨c1, g1, t1, e1, s1⟩ := Arith.loadInt_sets enc hl hk hw' (fun n hn => (hi n hn).elim) (fun p hp => by rw [ha p hp]; rfl)
  have r1 : Arith.Result s t1 AX w (l.value s.m) := ⟨s1.same, Conv.emod_pow_le hle s1.low, (s1.calm (by decide)).reg, s1.mem⟩
  have htv : ({ x with sz := w, signed := sg } : Val) = x := by rw [← h1, ← h2]
  rw [htv]
  obtain ⟨st, g2, u, e2, h⟩ := Arith.store_assigned enc hx (le_of_eq h1) hk r1 (.inl rfl)
  exact ⟨_, by simp only [g1, g2]; rfl, u, Arith.run_two e1 e2, h⟩

/-! ### Statements -/

theorem opTy_ok {b : Basic} (h : isOpTy b) : (CTy.int b).Ok ∧ b ≠ .bool := h.isInt

/-- One statement: the target is given the value. -/
theorem stmt_ok {k : Nat} {s : CM} {σ : Env} {tv : PVar} {e : PExp} {X : Val} {y : Int} (enc) (f : Option Flags) (hW : W.Good) (hL : Fits L W n bp)
    (hI : Inv L W n bp s σ) (hkn : k ≤ n) (hp : e.Plain W.toDecls) (hb : e.Before k) (hX : tv.val W.toDecls L = some X) (hT : Target s.m X)
    (hf : X.field = none) (h1 : X.sz = tv.ty.size W.toDecls) (h2 : X.signed = tv.ty.isSigned)
    (hty : tv.ty = e.ty ∨ tv.ty = .int .bool ∧ ∃ op t l r, e = .bin op t l r ∧ (Expr.compareOp op).isSome)
    (hcmp : ∀ op t l r, e = .bin op t l r → (Expr.compareOp op).isSome → t = .int .int ∨ t = .int .bool)
    (hreg : ∀ q, X.src = .place (.temp q) → ∀ j < k, L.tmp j ≠ .temp q) (h : e.value W σ = some y) :
    ∃ c, stmtCode W.toDecls L ⟨tv, e⟩ = some c ∧ ∃ t g, Expr.run enc (s, f) c = some (t, g) ∧ Assigned s t X y := by
  have up : ∀ {v : PVar}, v.Before k → v.Before n := by
    intro v hv
    cases v with
    | dir q o t => cases q with
      | var i => trivial
      | tmp j u => exact Nat.lt_of_lt_of_le hv hkn
    | der q o t => cases q with
      | var i => trivial
      | tmp j u => exact Nat.lt_of_lt_of_le hv hkn
    | _ => trivial
  have apart : ∀ {v : PVar} {x : Int} {V : Val}, v.Before k → Ready L s.m v W.toDecls x V → ∀ q, X.src = .place (.temp q) → V.src ≠ .place (.temp q) := by
    intro v x V hv hr q hq he
    obtain ⟨j, u, o, t, rfl, e⟩ := hr.temp q he
    exact hreg q hq j hv e
  cases e with
  | cast t v =>
    obtain ⟨hv, ht, hc⟩ := hp
    have hty : tv.ty = t := hty.resolve_right (by rintro ⟨-, _, _, _, _, e, -⟩; cases e)
    simp only [PExp.value, Option.bind_eq_bind, Option.bind_eq_some_iff] at h
    obtain ⟨x, hx, h⟩ := h
    obtain ⟨V, eV, r⟩ := operand hW hL hI hv (up hb) hx
    have nr : t.isRecord = false := by rcases ht.2 with ⟨b, e⟩ | ⟨u, e⟩ <;> rw [e] <;> rfl
    by_cases he : v.ty = t
    · rw [if_neg (by simp [he])] at h
      have hxy : x = y := by
        have := read_fit (he ▸ ht.1) hx
        rw [he] at this
        rw [view_self this] at h
        exact Option.some.inj h
      obtain ⟨c, g, u, e, h⟩ := Expr.copy_outcome enc hI.skip r.operand r.field hf hT (by rw [h1, hty, r.sz, he]) (by rw [h2, hty, r.signed, he])
      obtain ⟨u, g', e', rfl⟩ := Expr.run_map (f := f) e
      rw [r.value, hxy] at h
      refine ⟨_, ?_, u, g', e', h⟩
      rw [r.sz, r.signed, he] at g
      simp only [stmtCode, hX, eV, castCode, nr, Bool.false_eq_true, if_false, if_pos he, g, Option.bind_eq_bind, Option.bind_some]
    · obtain ⟨hi, ha⟩ := hc.resolve_left he
      have hb : t ≠ .int .bool := by
        rintro rfl
        rw [if_pos ⟨rfl, he⟩] at h
        cases h
      rw [if_neg (fun e => hb e.1)] at h
      obtain ⟨c, g, u, e, h'⟩ := convert_outcome enc hI.skip r.operand (x := X) (w := t.size W.toDecls) (sg := t.isSigned)
        (fun m hm => by have := r.imm m hm; rw [hi] at this; cases this)
        (fun p hp => by obtain ⟨q, o, u, e⟩ := r.addr p hp; exact ha q o u e) (Scalar.size ht) hT (by rw [h1, hty]) (by rw [h2, hty])
      obtain ⟨u, g', e', rfl⟩ := Expr.run_map (f := f) e
      rw [r.value] at h'
      refine ⟨_, ?_, u, g', e', Expr.Assigned.congr h' hf ?_⟩
      · simp only [stmtCode, hX, eV, castCode, nr, Bool.false_eq_true, if_false, if_neg he, Option.bind_eq_bind, Option.bind_some] at g ⊢
        rw [g]; rfl
      · rw [h1, hty]; exact (view_low ht.1 hb h).symm
  | not t v =>
    obtain ⟨hv, he, b, rfl, ho⟩ := hp
    have hty : tv.ty = .int b := hty.resolve_right (by rintro ⟨-, _, _, _, _, e, -⟩; cases e)
    simp only [PExp.value, Option.bind_eq_bind, Option.bind_eq_some_iff] at h
    obtain ⟨x, hx, h⟩ := h
    obtain ⟨V, eV, r⟩ := operand hW hL hI hv (up hb) hx
    obtain ⟨c, g, u, e, h'⟩ := Arith.not_outcome (t := some X) enc hI.skip r.operand (by
      intro Y hY
      simp only [Option.mem_some_iff] at hY
      subst hY
      exact ⟨hT, by rw [h1, hty, r.sz, he]⟩)
    obtain ⟨u, g', e', rfl⟩ := Expr.run_map (f := f) e
    rw [r.value] at h'
    refine ⟨_, ?_, u, g', e', Expr.Assigned.congr h' hf ?_⟩
    · simp only [stmtCode, hX, eV, Option.bind_eq_bind, Option.bind_some, g]
    · rw [h1, hty]
      exact (view_low (opTy_ok ho).1 (fun e => (opTy_ok ho).2 (by cases e; rfl)) h).symm
  | bin op t l r =>
    obtain ⟨pl, pr, ha, hc⟩ := hp
    obtain ⟨bl, br⟩ := hb
    simp only [PExp.value, Option.bind_eq_bind, Option.bind_eq_some_iff] at h
    obtain ⟨x, hx, z, hz, h⟩ := h
    obtain ⟨V, eV, rl⟩ := operand hW hL hI pl (up bl) hx
    obtain ⟨V', eV', rr⟩ := operand hW hL hI pr (up br) hz
    have hal : ∀ q, X.src = .place (.temp q) → V.src ≠ .place (.temp q) ∧ V'.src ≠ .place (.temp q) :=
      fun q hq => ⟨apart bl rl q hq, apart br rr q hq⟩
    cases hao : Expr.arithOp op with
    | some o =>
      have hco : Expr.compareOp op = none := by cases op <;> first | rfl | cases hao
      have hty : tv.ty = t := hty.resolve_right (by rintro ⟨-, _, _, _, _, e, h⟩; cases e; rw [hco] at h; cases h)
      rcases ha o hao with ⟨b, rfl, ho, tl, tr⟩ | ⟨u, rfl, sl, sr⟩
      · have hi : isInt b := (opTy_ok ho).1
        simp only [hao, hco] at h
        obtain ⟨c, g, u, e, h'⟩ := Arith.binary_outcome (t := some X) (op := o) (c := y) (w := Expr.size b) (sg := b.isSigned) enc hI.skip rl.operand rr.operand
          (Expr.opTy_size ho) (by rw [rl.sz, tl, size_int hi]) (by rw [rl.signed, tl]; exact Fold.isSigned_tyOf hi {}) (by
            rcases tr with tr | tr | tr
            · exact .inl tr
            · exact .inr (.inl tr)
            · exact .inr (.inr ⟨by rw [rr.sz, tr, size_int hi], by rw [rr.signed, tr]; exact Fold.isSigned_tyOf hi {}⟩)) (by
          intro Y hY
          simp only [Option.mem_some_iff] at hY
          subst hY
          exact ⟨hT, by rw [h1, hty, size_int hi]⟩) (fun _ hf => (hf rl.field).elim) (by
          intro _ Y hY q hq
          simp only [Option.mem_some_iff] at hY
          subst hY
          exact ⟨fun e => ((hal q hq).1 e).elim, fun e => ((hal q hq).2 e).elim⟩) (by rw [rl.value, rr.value]; exact h)
        obtain ⟨u, g', e', rfl⟩ := Expr.run_map (f := f) e
        refine ⟨_, ?_, u, g', e', h'⟩
        simp only [stmtCode, hX, hao, hco, eV, eV', Option.bind_eq_bind, Option.bind_some, size_int hi, CTy.isSigned, Fold.isSigned_tyOf hi, g]
      · have w : ∀ a, Assigned s a X (V.value s.m + V'.value s.m) → wrap (x + z) = y → Assigned s a X y := by
          rintro a h' rfl
          refine Expr.Assigned.congr h' hf ?_
          rw [rl.value, rr.value, h1, hty]
          show _ % 256 ^ 8 = wrap _ % 256 ^ 8
          rw [wrap, pow64, Int.emod_emod_of_dvd _ (dvd_refl _)]
        have w' : ∀ a, Assigned s a X (V.value s.m - V'.value s.m) → wrap (x - z) = y → Assigned s a X y := by
          rintro a h' rfl
          refine Expr.Assigned.congr h' hf ?_
          rw [rl.value, rr.value, h1, hty]
          show _ % 256 ^ 8 = wrap _ % 256 ^ 8
          rw [wrap, pow64, Int.emod_emod_of_dvd _ (dvd_refl _)]
        have hx8 : X.sz = 8 := by rw [h1, hty]; rfl
        simp only [hao, hco] at h
        cases o with
        | add =>
          obtain ⟨c, g, u, e, h'⟩ := plus_outcome enc hI.skip rl.operand rr.operand (by rw [rl.sz, sl]) (by rw [rr.sz, sr]) hT hx8 false hal
          obtain ⟨u, g', e', rfl⟩ := Expr.run_map (f := f) e
          refine ⟨_, ?_, u, g', e', w _ h' (Option.some.inj h)⟩
          simp only [stmtCode, hX, hao, hco, eV, eV', Option.bind_eq_bind, Option.bind_some, CTy.size, CTy.isSigned, g]
        | sub =>
          obtain ⟨c, g, u, e, h'⟩ := minus_outcome enc hI.skip rl.operand rr.operand (by rw [rl.sz, sl]) (by rw [rr.sz, sr]) hT hx8 false
          obtain ⟨u, g', e', rfl⟩ := Expr.run_map (f := f) e
          refine ⟨_, ?_, u, g', e', w' _ h' (Option.some.inj h)⟩
          simp only [stmtCode, hX, hao, hco, eV, eV', Option.bind_eq_bind, Option.bind_some, CTy.size, CTy.isSigned, g]
        | _ => cases h
    | none =>
      cases hco : Expr.compareOp op with
      | none => simp only [hao, hco] at h; cases h
      | some o =>
        obtain ⟨b, ho, tl, tr⟩ := hc o hco
        have hi : isInt b := (opTy_ok ho).1
        have h4 : X.sz ≤ 4 := by
          have ht := hcmp _ _ _ _ rfl (by rw [hco]; rfl)
          rcases hty with hty | ⟨hty, -⟩
          · rw [h1, hty]; show t.size _ ≤ 4; rcases ht with rfl | rfl; exacts [Nat.le_refl 4, show (1 : Nat) ≤ 4 by omega]
          · rw [h1, hty]; show (1 : Nat) ≤ 4; omega
        obtain ⟨c, cc, st, g1, g2, u, g, e, h'⟩ := Expr.compare_outcome (op := o) enc f rl.operand rr.operand rl.field rr.field
          (by rw [rl.sz, rr.sz, tl, tr]) (by rw [rl.signed, rr.signed, tl, tr]) (by rw [rl.sz, tl, size_int hi]; exact Expr.opTy_size ho) hI.skip hT h4
        have hy : (if o.holds (some (Ord.compare x z)) then 1 else 0) = y := by
          simp only [hao, hco] at h; exact Option.some.inj h
        rw [rl.value, rr.value, hy] at h'
        refine ⟨_, ?_, u, g, e, h'⟩
        simp only [stmtCode, hX, hao, hco, eV, eV', Option.bind_eq_bind, Option.bind_some, g1, g2]

/-! ### What is left alone -/

theorem Untouched.refl (s : CM) : Untouched L W n bp s s := ⟨rfl, fun _ _ _ => rfl, fun _ _ _ => rfl⟩

theorem Untouched.trans {s t u : CM} (h : Untouched L W n bp s t) (g : Untouched L W n bp t u) : Untouched L W n bp s u where
  same := by rw [g.same, h.same]
  reg r h1 h2 := (g.reg r h1 h2).trans (h.reg r h1 h2)
  mem x h1 h2 := (g.mem x h1 h2).trans (h.mem x h1 h2)

theorem write_inv {mem mem' : Mem} {t : CTy} {a y : Int} (h : write W mem t a y = some mem') :
    W.Valid a (t.size W.toDecls) ∧ mem' = wr mem a (le (t.size W.toDecls) y) := by
  unfold write at h
  split_ifs at h with hv
  exact ⟨hv, (Option.some.inj h).symm⟩

/-- Bytes of a temporary, which are not written. -/
theorem tmp_bytes {s t : CM} {j w : Nat} (hL : Fits L W n bp) (hj : j < n) (hw : w ≤ 8) (h1 : s.m.reg BP = bp) (h2 : t.m.reg BP = bp)
    (hr : ∀ r, L.tmp j = .temp r → t.m.reg r = s.m.reg r)
    (hm : ∀ o, L.tmp j = .frame o → ∀ i : Nat, i < 8 → t.m.mem (bp + o + i) = s.m.mem (bp + o + i)) :
    Conv.bytes t.m (.place (L.tmp j)) w = Conv.bytes s.m (.place (L.tmp j)) w := by
  rcases hL.tmp j hj with ⟨r, e, -⟩ | ⟨o, e⟩
  · rw [e, Conv.bytes_temp, Conv.bytes_temp, hr r e]
  · rw [e, bytes_mem (by simp) h1, bytes_mem (by simp) h2]
    unfold rd
    apply List.map_congr_left
    intro i hi
    exact hm o e i (by have := List.mem_range.mp hi; omega)

theorem isSize_le {w : Nat} (h : IsSize w) : w ≤ 8 := by unfold IsSize at h; omega

/-- An object is assigned. -/
theorem setMem_inv {s t : CM} {σ : Env} {X : Val} {ty : CTy} {a y : Int} {mem : Mem} (hL : Fits L W n bp) (hI : Inv L W n bp s σ)
    (h : Assigned s t X y) (hf : X.field = none) (hX : ∀ r, X.src ≠ .place (.temp r)) (ha : X.src.object s.m = a) (hz : X.sz = ty.size W.toDecls)
    (hw : write W σ.mem ty a y = some mem) : Inv L W n bp t { σ with mem := mem } ∧ Untouched L W n bp s t := by
  obtain ⟨hv, rfl⟩ := write_inv hw
  have hbp : t.m.reg BP = bp := (h.reg BP Arith.bp_scratch (hX BP)).trans hI.bp
  have hp := h.plain hX hf
  have hm := h.mem
  rw [ha, hz] at hp hm
  have out : ∀ x, W.valid x = false → t.m.mem x = s.m.mem x := by
    intro x hx
    refine hm x ?_
    by_contra hc
    have : W.valid x = true := by
      have := hv (x - a).toNat (by omega)
      rwa [show a + ((x - a).toNat : Int) = x by omega] at this
    rw [hx] at this
    cases this
  refine ⟨⟨hbp, by rw [h.same]; exact hI.skip, ?_, ?_⟩, h.same, fun r hr _ => h.reg r hr (hX r), fun x hx _ => out x hx⟩
  · intro x hx
    by_cases hc : a ≤ x ∧ x < a + ty.size W.toDecls
    · obtain ⟨j, rfl⟩ : ∃ j : Nat, x = a + j := ⟨(x - a).toNat, by omega⟩
      have hj : j < ty.size W.toDecls := by omega
      show _ = wr _ _ _ _
      rw [Abi.wr_le hj]
      have h1 := Abi.rd_get (m := t.m.mem) (a := a) hj
      rw [hp, Abi.le_get hj] at h1
      exact (Option.some.inj h1).symm
    · show _ = wr _ _ _ _
      rw [hm x (by omega), Abi.wr_out (by rw [Abi.le_length]; omega)]
      exact hI.mem x hx
  · intro j hj u x hx
    obtain ⟨i1, i2, i3, i4⟩ := hI.tmps j hj u x hx
    have hr : ∀ r, L.tmp j = .temp r → t.m.reg r = s.m.reg r := fun r e => h.reg r (Arith.temp_scratch (tmp_temp hL hj e)) (hX r)
    refine ⟨i1, ?_, ?_, i4⟩
    · rw [tmp_bytes hL hj (isSize_le i1) hI.bp hbp hr (fun o e i hi => out _ (hL.both j hj o e i hi))]
      exact i2
    · intro h8 r e
      rw [hr r e]
      exact i3 h8 r e

/-- A temporary is assigned. -/
theorem setTmp_inv {k : Nat} {s t : CM} {σ : Env} {ty : CTy} {y : Int} (hL : Fits L W n bp) (hI : Inv L W n bp s σ) (hk : k < n)
    (hs : IsSize (ty.size W.toDecls)) (h : Assigned s t ⟨ty.size W.toDecls, ty.isSigned, none, .place (L.tmp k)⟩ y)
    (hb : ty = .int .bool → y = 0 ∨ y = 1) : Inv L W n bp t (σ.setTmp k ty y) ∧ Untouched L W n bp s t := by
  have hbp : t.m.reg BP = bp := by
    refine (h.reg BP Arith.bp_scratch ?_).trans hI.bp
    intro e
    exact absurd (tmp_temp hL hk (Src.place.inj e)) (by decide)
  have out : ∀ x, (∀ o, L.tmp k = .frame o → x < bp + o ∨ bp + o + 8 ≤ x) → t.m.mem x = s.m.mem x := by
    intro x hx
    rcases hL.tmp k hk with ⟨r, e, -⟩ | ⟨o, e⟩
    · rw [(h.temp r (by rw [e])).2]
    · have := hx o e
      refine h.mem x ?_
      simp only [Src.object, e, Place.address, hI.bp]
      have := isSize_le hs
      omega
  have hm : ∀ x, W.valid x = true → t.m.mem x = s.m.mem x := by
    intro x hx
    refine out x fun o e => ?_
    by_contra hc
    have := hL.both k hk o e (x - (bp + o)).toNat (by omega)
    rw [show bp + o + ((x - (bp + o)).toNat : Int) = x by omega, hx] at this
    cases this
  refine ⟨⟨hbp, by rw [h.same]; exact hI.skip, fun x hx => (hm x hx).trans (hI.mem x hx), ?_⟩, h.same, ?_, ?_⟩
  · intro j hj u x hx
    simp only [Env.setTmp] at hx
    by_cases e : j = k
    · subst e
      rw [if_pos rfl] at hx
      simp only [Option.some.injEq, Prod.mk.injEq] at hx
      obtain ⟨rfl, rfl⟩ := hx
      refine ⟨hs, ?_, ?_, hb⟩
      · rcases hL.tmp j hj with ⟨r, e, -⟩ | ⟨o, e⟩
        · rw [e, Conv.bytes_temp, Abi.val_le_emod]
          exact (h.temp r (by rw [e])).1
        · have := h.plain (by rw [e]; simp) rfl
          simp only [Src.object, e, Place.address, hI.bp] at this
          rw [e, bytes_mem (by simp) hbp]
          simp only [home]
          rw [this, Abi.val_le_emod]
      · intro h8 r e
        exact h.full r (by rw [e]) h8
    · rw [if_neg e] at hx
      obtain ⟨i1, i2, i3, i4⟩ := hI.tmps j hj u x hx
      have hr : ∀ r, L.tmp j = .temp r → t.m.reg r = s.m.reg r := by
        intro r e1
        refine h.reg r (Arith.temp_scratch (tmp_temp hL hj e1)) ?_
        intro e2
        exact e (hL.regs j hj k hk r e1 (Src.place.inj e2))
      refine ⟨i1, ?_, ?_, i4⟩
      · rw [tmp_bytes hL hj (isSize_le i1) hI.bp hbp hr ?_]
        · exact i2
        · intro o e1 i hi
          refine out _ fun o' e2 => ?_
          have := hL.tmps j hj k hk o o' e e1 e2
          unfold Apart at this
          omega
      · intro h8 r e
        rw [hr r e]
        exact i3 h8 r e
  · intro r hr hr'
    exact h.reg r hr (fun e => hr' k hk (Src.place.inj e))
  · intro x _ hx
    exact out x (hx k hk)

/-! ### Programs -/

theorem bool_value {s : PStmt} {σ : Env} {y : Int} (hp : s.Plain W.toDecls n) (h : s.e.value W σ = some y) (ht : s.t.ty = .int .bool) : y = 0 ∨ y = 1 := by
  obtain ⟨t, e⟩ := s
  obtain ⟨-, -, -, hp, hty, -⟩ := hp
  dsimp only at *
  have vw : ∀ x, view (.int .bool) x = some y → y = 0 ∨ y = 1 := by
    intro x hx
    have : conv .bool x = y := Option.some.inj hx
    rw [← this]
    unfold conv
    simp only [if_true]
    split_ifs
    · exact .inl rfl
    · exact .inr rfl
  have cm : ∀ {op u l r}, e = .bin op u l r → (Expr.compareOp op).isSome → y = 0 ∨ y = 1 := by
    rintro op u l r rfl hc
    obtain ⟨o, hco⟩ := Option.isSome_iff_exists.mp hc
    have hao : Expr.arithOp op = none := by cases op <;> first | rfl | cases hco
    simp only [PExp.value, hao, hco, Option.bind_eq_bind, Option.bind_eq_some_iff] at h
    obtain ⟨x, -, z, -, h⟩ := h
    have := Option.some.inj h
    rw [← this]
    split_ifs
    · exact .inr rfl
    · exact .inl rfl
  rcases hty with hty | ⟨-, op, u, l, r, he, hc⟩
  · rw [ht] at hty
    cases e with
    | cast u v =>
      simp only [PExp.ty] at hty
      subst hty
      simp only [PExp.value, Option.bind_eq_bind, Option.bind_eq_some_iff] at h
      obtain ⟨x, -, h⟩ := h
      split_ifs at h
      exact vw x h
    | not u v =>
      simp only [PExp.ty] at hty
      subst hty
      simp only [PExp.value, Option.bind_eq_bind, Option.bind_eq_some_iff] at h
      obtain ⟨x, -, h⟩ := h
      exact vw _ h
    | bin op u l r =>
      simp only [PExp.ty] at hty
      subst hty
      cases hco : Expr.compareOp op with
      | some o => exact cm rfl (by rw [hco]; rfl)
      | none =>
        cases hao : Expr.arithOp op with
        | none =>
          simp only [PExp.value, hao, hco, Option.bind_eq_bind, Option.bind_eq_some_iff] at h
          obtain ⟨x, -, z, -, h⟩ := h
          cases h
        | some o =>
          rcases hp.2.2.1 o hao with ⟨b, e, ho, -⟩ | ⟨u, e, -⟩
          · cases e; exact ((opTy_ok ho).2 rfl).elim
          · cases e
  · exact cm he hc

theorem exec_ok {s : PStmt} {m : CM} {σ σ' : Env} (enc) (f : Option Flags) (hW : W.Good) (hL : Fits L W n bp) (hp : s.Plain W.toDecls n)
    (h : s.exec W σ = some σ') (hI : Inv L W n bp m σ) :
    ∃ c, stmtCode W.toDecls L s = some c ∧ ∃ t g, Expr.run enc (m, f) c = some (t, g) ∧ Inv L W n bp t σ' ∧ Untouched L W n bp m t := by
  have hbool := fun y => bool_value (y := y) (σ := σ) hp
  obtain ⟨tv, e⟩ := s
  obtain ⟨p1, p2, p3, p4, p5, p6, p7, p8, p9⟩ := hp
  dsimp only at *
  have inMem : (∀ k u o t, tv ≠ .dir (.tmp k u) o t) → (do
      let a ← tv.place W σ
      let y ← e.value W σ
      (write W σ.mem tv.ty a y).map fun m => ({ σ with mem := m } : Env)) = some σ' →
      ∃ c, stmtCode W.toDecls L ⟨tv, e⟩ = some c ∧ ∃ t g, Expr.run enc (m, f) c = some (t, g) ∧ Inv L W n bp t σ' ∧ Untouched L W n bp m t := by
    intro hnt h
    simp only [Option.bind_eq_bind, Option.bind_eq_some_iff, Option.map_eq_some_iff] at h
    obtain ⟨a, ha, y, hy, mem, hw, rfl⟩ := h
    obtain ⟨src, eX, hT, ho, hq, -⟩ := object hW hL hI p1 p7 ha
    obtain ⟨c, g, t, f', e', h'⟩ := stmt_ok enc f hW hL hI (Nat.le_refl n) p4 p8 eX hT rfl rfl rfl p5 p6 (fun q e => (hq q e).elim) hy
    exact ⟨c, g, t, f', e', setMem_inv hL hI h' rfl hq ho rfl hw⟩
  have other : (∀ k u o t, tv ≠ .dir (.tmp k u) o t) → (∀ k v, e ≠ .cast (.record k) v) →
      PStmt.exec W σ ⟨tv, e⟩ = (do
      let a ← tv.place W σ
      let y ← e.value W σ
      (write W σ.mem tv.ty a y).map fun m => ({ σ with mem := m } : Env)) := by
    intro h1 h2
    unfold PStmt.exec
    split
    · rename_i e; exact (h1 _ _ _ _ e).elim
    · exact (h2 _ _ (by assumption)).elim
    · rfl
  have norec : ∀ k v, e ≠ .cast (.record k) v := by
    rintro k v rfl
    rcases p4.2.1.2 with ⟨b, e⟩ | ⟨u, e⟩ <;> cases e
  by_cases ht : ∃ k u o t, tv = .dir (.tmp k u) o t
  · obtain ⟨k, u, o, t, rfl⟩ := ht
    obtain ⟨rfl, hbk⟩ := p9 k u o t rfl
    have hk : k < n := p7
    obtain ⟨q1, q2, q3⟩ := p1
    obtain rfl := q3 k u rfl
    simp only [PStmt.exec, and_self, if_true, Option.map_eq_some_iff] at h
    obtain ⟨y, hy, rfl⟩ := h
    have eX : (PVar.dir (.tmp k u) 0 u).val W.toDecls L = some ⟨u.size W.toDecls, u.isSigned, none, .place (L.tmp k)⟩ := by
      simp only [PVar.val, disp_some q2, Option.map_some]
      show some (Val.mk _ _ _ (.place ((L.tmp k).shift 0))) = _
      rw [shift_zero]
    have hT : Target m.m ⟨u.size W.toDecls, u.isSigned, none, .place (L.tmp k)⟩ := by
      refine ⟨⟨Scalar.size q1, ?_, ?_, ?_, ?_, ?_⟩, ?_, ?_, ?_⟩ <;> simp
      exact fun r e => tmp_temp hL hk e
    obtain ⟨c, g, t, f', e', h'⟩ := stmt_ok enc f hW hL hI (Nat.le_of_lt hk) p4 hbk eX hT rfl rfl rfl p5 p6 (by
      intro q e j hj e'
      have := hL.regs k hk j (by omega) q (Src.place.inj e) e'
      omega) hy
    exact ⟨c, g, t, f', e', setTmp_inv hL hI hk (Scalar.size q1) h' (fun e => hbool y hy e)⟩
  · have ht' : ∀ k u o t, tv ≠ .dir (.tmp k u) o t := fun k u o t e => ht ⟨k, u, o, t, e⟩
    exact inMem ht' ((other ht' norec).symm.trans h)

theorem execs_ok (enc) (hW : W.Good) (hL : Fits L W n bp) : ∀ {st : List PStmt} {m : CM} {σ σ' : Env} (f : Option Flags),
    (∀ s ∈ st, s.Plain W.toDecls n) → execs W σ st = some σ' → Inv L W n bp m σ →
    ∃ c, code W.toDecls L st = some c ∧ ∃ t g, Expr.run enc (m, f) c = some (t, g) ∧ Inv L W n bp t σ' ∧ Untouched L W n bp m t
  | [], m, σ, σ', f, _, h, hI => by
    cases h
    exact ⟨[], rfl, m, f, rfl, hI, Untouched.refl m⟩
  | s :: r, m, σ, σ', f, hp, h, hI => by
    simp only [execs, Option.bind_eq_some_iff] at h
    obtain ⟨σ1, h1, h2⟩ := h
    obtain ⟨c1, g1, t1, f1, e1, I1, u1⟩ := exec_ok enc f hW hL (hp s (List.mem_cons_self ..)) h1 hI
    obtain ⟨c2, g2, t2, f2, e2, I2, u2⟩ := execs_ok enc hW hL f1 (fun s hs => hp s (List.mem_cons_of_mem _ hs)) h2 I1
    exact ⟨c1 ++ c2, by simp only [code, g1, g2]; rfl, t2, f2, Expr.run_two e1 e2, I2, u1.trans u2⟩

end Verif.Ptr
