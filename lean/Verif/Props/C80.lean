import Verif.Abi.ResultLemmas
import Verif.Props.C38

/-!
# C80: results of functions

The code of a `return` (`returnCode`, `returnMemory`), the epilogue, what follows a call, and
the code which stores the result (`resultStore`) are run on the machine of C38.  Where the ABI
wants a result is `SysV.resultRegs`.
-/

namespace Verif.Abi

open SysV (resultRegs)

/-- The slices are in the registers of the ABI. -/
theorem sliced_regs {t : Ty} {pc : PC} {sl : List Slice} (h : Sliced t pc sl) (ho : Ordinary t) :
    ∃ rs, resultRegs t = some rs ∧ rs.length = eightbytes t ∧
      ∀ (e r : Nat), rs[e]? = some r → ∃ x ∈ sl, x.1 = e ∧ x.2.2.2 = r := by
  have ha := ho.agrees pc h.cls
  cases hp : SysV.passing t with
  | memory =>
    rw [hp] at ha
    simp only [SysV.Agrees] at ha
    rcases h.head with hh | hh <;> rw [ha] at hh <;> simp at hh
  | eightbytes cs =>
    rw [hp] at ha
    simp only [SysV.Agrees] at ha
    have hlen := passing_length hp
    obtain ⟨h1, h2⟩ := slices_assign _ _ _ _ _ h.code cs (by rw [ha, List.drop_zero, ← hlen, List.take_left]) hlen
    have hr : resultRegs t = some (sl.map (·.2.2.2)) := by
      simp only [resultRegs, hp]
      rw [show SysV.resultGeneral = retInt from rfl, show SysV.resultVector = retSse from rfl, h1]
      rfl
    have hl : sl.length = eightbytes t := by
      have : ∀ (n i : Nat) (ir sr : List Nat) (sl : List Slice), slices t pc n i ir sr = some sl → sl.length = n := by
        intro n
        induction n with
        | zero => intro i ir sr sl h; simp only [slices, Option.some.injEq] at h; subst h; rfl
        | succ n ih =>
          intro i ir sr sl h
          simp only [slices] at h
          obtain ⟨⟨w, k⟩, _, h⟩ := Option.bind_eq_some_iff.mp h
          simp only at h
          split_ifs at h
          all_goals
            obtain ⟨r, _, h⟩ := Option.bind_eq_some_iff.mp h
            obtain ⟨l, hl, h⟩ := Option.bind_eq_some_iff.mp h
            simp only [Option.some.injEq] at h
            subst h
            simp [ih _ _ _ _ hl]
      exact this _ _ _ _ _ h.code
    refine ⟨_, hr, by simpa using hl, fun e r he => ?_⟩
    rw [List.getElem?_map, Option.map_eq_some_iff] at he
    obtain ⟨x, hx, rfl⟩ := he
    obtain ⟨hlt, hx⟩ := List.getElem?_eq_some_iff.mp hx
    exact ⟨x, hx ▸ List.getElem_mem hlt, by rw [← hx, h2 e hlt]; omega, rfl⟩

/-- A result which is not in memory is where the ABI wants it, each of its bytes: in `%rax`,
`%rdx`, `%xmm0` and `%xmm1`, in the order of its eightbytes.  Nothing in memory and no other
register, but for `%r11`, is changed.

Missing from the full property: types whose class is not that of the ABI (see C37), `long
double`. -/
theorem C80_registers_partial {s : M} {lo hi : Int} {a : Arg} {code : List Ins} (h : returnCode a = some code)
    (hg : a.Good s lo hi) (ho : Ordinary a.ty) :
    ∃ rs, resultRegs a.ty = some rs ∧ rs.length = (a.ty.size + 7) / 8 ∧
      (∀ (e r : Nat), rs[e]? = some r → ∀ j : Nat, j < 8 → 8 * e + j < a.ty.size →
        byteAt ((run s code).reg r) j = a.src.byte s (8 * e + j)) ∧
      (run s code).mem = s.mem ∧
      ∀ r, r ≠ AX → r ≠ DX → r ≠ XMM 0 → r ≠ XMM 1 → r ≠ R11 → (run s code).reg r = s.reg r := by
  obtain ⟨pc, sl, hs, h1, h2, h3⟩ := returnCode_spec hg h
  obtain ⟨rs, r1, r2, r3⟩ := sliced_regs hs ho
  refine ⟨rs, r1, r2, fun e r he j hj hlt => ?_, h1, fun r a1 a2 a3 a4 a5 => h2 r ?_ ?_ a5⟩
  · obtain ⟨x, hx, rfl, rfl⟩ := r3 e r he
    exact h3 x hx j (by unfold need; omega)
  · simp [retInt, a1, a2]
  · simp [retSse, a3, a4]

/-- What the caller does with the registers: the object the result is assigned to gets all
bytes, nothing else in memory is written if the last eightbyte is of a size there is an
instruction for, and no register but `%r11` is changed.  The object may be a variable, or
behind a pointer which is not itself in the object.

Missing from the full property: objects of other sizes (`C80_width_violated`). -/
theorem C80_stored_partial {t : Ty} {target : Src} {code : List Ins} {s : M} {O : Int} (h : resultStore t target = some code)
    (hl : SysV.laidOut t = true) (ho : Ordinary t)
    (ht : target.Fixed (fun x => O ≤ x ∧ x < O + 8 * eightbytes t) (fun _ => False) s O) :
    ∃ rs, resultRegs t = some rs ∧
      (∀ (e r : Nat), rs[e]? = some r → ∀ j : Nat, j < 8 → 8 * e + j < t.size →
        (run s code).mem (O + (8 * e + j : Nat)) = byteAt (s.reg r) j) ∧
      (∀ x, x < O ∨ O + 8 * ((t.size + 7) / 8 : Nat) ≤ x → (run s code).mem x = s.mem x) ∧
      (t.size % 8 = 0 ∨ t.size % 8 = 1 ∨ t.size % 8 = 2 ∨ t.size % 8 = 4 →
        ∀ x, x < O ∨ O + t.size ≤ x → (run s code).mem x = s.mem x) ∧
      ∀ r, r ≠ R11 → (run s code).reg r = s.reg r := by
  unfold resultStore at h
  obtain ⟨sl, hsl, h⟩ := Option.bind_eq_some_iff.mp h
  obtain ⟨pc, hs⟩ := resultSlices_spec hsl
  obtain ⟨rs, r1, r2, r3⟩ := sliced_regs hs ho
  have hw : ∀ e ∈ sl, e.2.1 ≤ 8 ∧ need t.size e.1 ≤ e.2.1 := fun e he =>
    let ⟨a, b, _⟩ := sliceType_spec (hs.each e he).2 hl (hs.each e he).1
    ⟨a, b⟩
  obtain ⟨p1, p2, p3⟩ := putSlices_spec (O := O) (n := eightbytes t) (fun x h1 h2 => ⟨h1, h2⟩) (fun h => h) sl s code h ht
    (fun e he => ⟨(hs.each e he).1, (hw e he).1, (ret_not_kept (hs.regs e he)).2.1⟩) hs.apart
  refine ⟨rs, r1, fun e r he j hj hlt => ?_, fun x hx => p2 x fun e he => ?_, fun hx x hx' => p2 x fun e he => ?_, p1⟩
  · obtain ⟨x, hx, rfl, rfl⟩ := r3 e r he
    have := p3 x hx j (by have := (hw x hx).2; unfold need at this; omega)
    rw [← this]
    congr 1
    push_cast; omega
  · have h1 := (hs.each e he).1
    have h2 := (hw e he).1
    simp only [eightbytes] at h1
    omega
  · have := slice_exact (hs.each e he).2 (hs.each e he).1 hl hx
    omega

/-- The slices of a result of scalar type. -/
theorem scalar_slices {t : Ty} {w : Nat} {k : Kind} (hk : t.scalar = some (w, k)) (hl : SysV.laidOut t = true) :
    ∃ r, resultRegs t = some [r] ∧ resultSlices t = some [(0, w, k, r)] ∧ ((k == .real) = false → r < 17) := by
  cases t with
  | bool =>
    simp only [Ty.scalar, Option.some.injEq, Prod.mk.injEq] at hk
    obtain ⟨rfl, rfl⟩ := hk
    exact ⟨AX, by decide, by decide, by decide⟩
  | ptr =>
    simp only [Ty.scalar, Option.some.injEq, Prod.mk.injEq] at hk
    obtain ⟨rfl, rfl⟩ := hk
    exact ⟨AX, by decide, by decide, by decide⟩
  | float =>
    simp only [Ty.scalar, Option.some.injEq, Prod.mk.injEq] at hk
    obtain ⟨rfl, rfl⟩ := hk
    exact ⟨XMM 0, by decide, by decide, by decide⟩
  | double =>
    simp only [Ty.scalar, Option.some.injEq, Prod.mk.injEq] at hk
    obtain ⟨rfl, rfl⟩ := hk
    exact ⟨XMM 0, by decide, by decide, by decide⟩
  | int n sg =>
    simp only [Ty.scalar, Option.some.injEq, Prod.mk.injEq] at hk
    obtain ⟨rfl, rfl⟩ := hk
    simp only [SysV.laidOut, Bool.or_eq_true, beq_iff_eq] at hl
    refine ⟨AX, ?_, ?_, fun _ => by decide⟩
    all_goals rcases hl with ((rfl | rfl) | rfl) | rfl <;> cases sg <;> decide
  | ldouble => simp [Ty.scalar] at hk
  | array _ _ => simp [Ty.scalar] at hk
  | agg _ _ _ _ => simp [Ty.scalar] at hk

/-- A result of scalar type which is assigned to a temporary in a register. -/
theorem C80_temporary {t : Ty} {x : Nat} {code : List Ins} {s : M} (h : resultStore t (.place (.temp x)) = some code)
    (hl : SysV.laidOut t = true) (hk : t.scalar.isSome) :
    ∃ r, resultRegs t = some [r] ∧ (∀ j, j < t.size → byteAt ((run s code).reg x) j = byteAt (s.reg r) j) ∧
      (run s code).mem = s.mem ∧ ∀ y, y ≠ x → (run s code).reg y = s.reg y := by
  obtain ⟨⟨w, k⟩, hk⟩ := Option.isSome_iff_exists.mp hk
  obtain ⟨r, r1, r2, r3⟩ := scalar_slices hk hl
  unfold resultStore at h
  rw [r2] at h
  simp only [putSlices, Src.shift, Place.shift, store, Option.bind_eq_bind, Option.bind_some,
    Option.some.injEq, List.append_nil] at h
  subst h
  rw [run_cons, run_nil]
  refine ⟨r, r1, fun j hj => ?_, (fromReg_other _ _ _ _).1, (fromReg_other _ _ _ _).2⟩
  refine fromReg_byte (sz := w) ?_ s x r ?_ (by rw [← scalar_size hk]; exact hj)
  · cases k <;> exact Nat.le_refl w
  · cases k with
    | real => intro h; cases h
    | _ => intro _; exact r3 (by decide)

/-- A result in registers is there when the function has returned and the caller has
removed the arguments and restored its registers. -/
theorem returned_regs {u : M} {k m used : Nat} (hk : k ≤ 5) (hm : m ≤ 8) :
    let v := run (run u (epilogue k)) (afterCall m used)
    v.mem = u.mem ∧ ∀ r, r ∈ retInt ∨ r ∈ retSse → v.reg r = u.reg r := by
  have hL := epilogue_spec u k hk
  generalize run u (epilogue k) = w at *
  obtain ⟨x, hx, x1, x2⟩ : ∃ x, x = run w (if used = 0 then [] else [Ins.addi SP used]) ∧
      (∀ r, r ≠ SP → x.reg r = w.reg r) ∧ x.mem = w.mem := by
    refine ⟨_, rfl, ?_⟩
    by_cases hz : used = 0
    · rw [if_pos hz]
      exact ⟨fun _ _ => rfl, rfl⟩
    · rw [if_neg hz]
      refine ⟨fun r hr => ?_, rfl⟩
      simp only [run_cons, run_nil, step_addi]
      rw [set_reg, if_neg hr]
  have hrun : run w (afterCall m used) = run x (loadTemps m) := by
    unfold afterCall
    rw [run_append, ← hx]
  obtain ⟨y1, y2, y3, y4⟩ := loadTemps_spec m x
  simp only
  rw [hrun]
  refine ⟨by rw [y2, x2, hL.mem], fun r hr => ?_⟩
  obtain ⟨n1, n2, n3, n4⟩ := ret_not_kept hr
  rw [y3 r n3 ?_, x1 r n3, hL.other r n3 (fun h => n1 (.inl h)) n4 ?_]
  · intro hmem
    refine n1 (.inr (.inl ?_))
    have := List.mem_of_mem_take hmem
    simpa [tempInt, isTempInt] using this
  · intro i hi e
    refine n1 (.inr (.inr ?_))
    subst e
    unfold isTempSse XMM
    omega

/-- A function returns the value of an object, of any class but MEMORY and X87: the object the
caller assigns the result to has the bytes of the returned object.  `u` is the state of the
function before `return`; `v` that of the caller after the call.

Missing from the full property: objects of 3, 5, 6 or 7 bytes, or with so many in the last
eightbyte, overwrite what follows (`C80_width_violated`). -/
theorem C80_result_partial {u : M} {lo hi O : Int} {k m used : Nat} {a : Arg} {target : Src} {ret st : List Ins}
    (hret : returnCode a = some ret) (hst : resultStore a.ty target = some st) (hg : a.Good u lo hi) (ho : Ordinary a.ty)
    (hk : k ≤ 5) (hm : m ≤ 8) :
    let v := run (run (run u ret) (epilogue k)) (afterCall m used)
    target.Fixed (fun x => O ≤ x ∧ x < O + 8 * eightbytes a.ty) (fun _ => False) v O →
      rd (run v st).mem O a.ty.size = a.bytes u ∧
      (∀ x, x < O ∨ O + 8 * ((a.ty.size + 7) / 8 : Nat) ≤ x → (run v st).mem x = u.mem x) ∧
      (a.ty.size % 8 = 0 ∨ a.ty.size % 8 = 1 ∨ a.ty.size % 8 = 2 ∨ a.ty.size % 8 = 4 →
        ∀ x, x < O ∨ O + a.ty.size ≤ x → (run v st).mem x = u.mem x) ∧
      ∀ r, r ≠ R11 → (run v st).reg r = v.reg r := by
  intro v ht
  obtain ⟨rs, a1, a2, a3, a4, a5⟩ := C80_registers_partial hret hg ho
  obtain ⟨b1, b2⟩ := returned_regs (u := run u ret) (used := used) hk hm
  obtain ⟨rs', c1, c2, c3, c4, c5⟩ := C80_stored_partial hst hg.laid ho ht
  rw [a1, Option.some.injEq] at c1
  subst c1
  have hin : ∀ (e r : Nat), rs[e]? = some r → r ∈ retInt ∨ r ∈ retSse := by
    intro e r he
    obtain ⟨sl, hsl, _⟩ := Option.bind_eq_some_iff.mp hret
    obtain ⟨pc, hs⟩ := resultSlices_spec hsl
    obtain ⟨rs'', r1, _, r3⟩ := sliced_regs hs ho
    rw [a1, Option.some.injEq] at r1
    subst r1
    obtain ⟨x, hx, _, rfl⟩ := r3 e r he
    exact hs.regs x hx
  refine ⟨?_, fun x hx => by rw [c3 x hx, b1, a4], fun h x hx => by rw [c4 h x hx, b1, a4], c5⟩
  unfold rd Arg.bytes
  apply List.map_congr_left
  intro j hj
  have hj := List.mem_range.mp hj
  have hlt : j / 8 < rs.length := by rw [a2]; omega
  have he : rs[j / 8]? = some rs[j / 8] := List.getElem?_eq_getElem hlt
  have h1 := c2 (j / 8) _ he (j % 8) (by omega) (by omega)
  have h2 := a3 (j / 8) _ he (j % 8) (by omega) (by omega)
  rw [b2 _ (hin _ _ he), h2] at h1
  rw [show 8 * (j / 8) + j % 8 = j by omega] at h1
  exact h1

/-- A call with all its parts: the function is entered, its body runs up to a `return`, the
result is put in registers, the function is left, and the caller stores the result.  The
target has the bytes of the returned object, the stack pointer, the frame pointer and the
registers of temporaries are as before, and control is behind the call.

Missing from the full property: as for `C80_result_partial` and `C38_return_partial`. -/
theorem C80_call_partial {s s' u : M} {lo lo' hi' ra O : Int} {m used k : Nat} {c : Call} {code ret st : List Ins}
    {named extra : List Arg} {locals : List Nat} {f : Frame} {a : Arg} {target : Src}
    (hc : callCode m c ra = some (code, used)) (hg : c.Good s lo) (h0 : 0 ≤ lo) (h64 : s.reg SP < 256 ^ 8)
    (hlo : lo ≤ s.reg SP - 16 * m - used - 16) (hk : k ≤ 5) (hargs : c.args = named ++ extra)
    (hf : frame (named.map (·.ty)) locals k c.result.isSome c.vararg = some f)
    (he : enter (named.map (·.ty)) locals k c.result.isSome c.vararg (run s code) = some s') (hm : m ≤ 8)
    (hv : c.vararg = true → (run s code).reg AX % 256 = 0)
    -- the body
    (hbp : u.reg BP = s'.reg BP) (htemps : ∀ r, isTempInt r → r ∉ tempInt.take k → u.reg r = s'.reg r)
    (hframe : ∀ x, s'.reg BP - 8 * k ≤ x → x < s'.reg BP + 16 → u.mem x = s'.mem x)
    (hsaved : ∀ x, s.reg SP - 16 * m ≤ x → x < s.reg SP → u.mem x = s'.mem x)
    -- the result
    (hret : returnCode a = some ret) (hst : resultStore a.ty target = some st) (ha : a.Good u lo' hi') (ho : Ordinary a.ty)
    (ht : target.Fixed (fun x => O ≤ x ∧ x < O + 8 * eightbytes a.ty) (fun _ => False)
      (run (run (run u ret) (epilogue k)) (afterCall m used)) O) :
    let z := run (run (run (run u ret) (epilogue k)) (afterCall m used)) st
    rd z.mem O a.ty.size = a.bytes u ∧
    z.reg SP = s.reg SP ∧ z.reg BP = s.reg BP % 256 ^ 8 ∧ z.reg IP = ra % 256 ^ 8 ∧
    (∀ r, isTempInt r → z.reg r % 256 ^ 8 = s.reg r % 256 ^ 8) ∧
    (∀ i, i < m → z.reg (XMM (8 + i)) = s.reg (XMM (8 + i)) % 256 ^ 8) := by
  obtain ⟨rs, a1, a2, a3, a4, a5⟩ := C80_registers_partial hret ha ho
  have hkept : ∀ r, Kept r → (run u ret).reg r = u.reg r := by
    intro r hr
    refine a5 r ?_ ?_ ?_ ?_ ?_ <;> (rintro rfl; revert hr; unfold Kept; decide)
  obtain ⟨d1, d2, d3, d4, d5⟩ := C38_return_partial (u := run u ret) hc hg h0 h64 hlo hk hargs hf he hm hv
    (by rw [hkept BP kept_bp, hbp]) (fun r h1 h2 => by rw [hkept r (.inr (.inl h1)), htemps r h1 h2])
    (fun x h1 h2 => by rw [a4, hframe x h1 h2]) (fun x h1 h2 => by rw [a4, hsaved x h1 h2])
  obtain ⟨e1, _, _, e2⟩ := C80_result_partial hret hst ha ho hk hm ht
  refine ⟨e1, by rw [e2 SP (by decide), d1], by rw [e2 BP (by decide), d2], by rw [e2 IP (by decide), d3], fun r hr => ?_,
    fun i hi => ?_⟩
  · rw [e2 r (by rintro rfl; revert hr; decide), d4 r hr]
  · rw [e2 _ (by unfold XMM R11; omega), d5 i hi]

/-- A result in memory, of at most 64 bytes: the object whose address the caller has passed
has the bytes of the returned object, nothing else is written, and `%rax` is the address if
it is not that of the returned object itself.

Missing from the full property: `%rax` in that case (`C80_address_violated`), objects which
overlap (`C80_overlap_violated`), copies by the library function. -/
theorem C80_memory_partial {n : Nat} {src : Src} {ro S D : Int} {s t : M} (h : returnMemory n src ro s = some t)
    (hs : src.At s S) (hd : val (rd s.mem (s.reg BP + ro) 8) = D)
    (hov : S = D ∨ S + n ≤ D ∨ D + n ≤ S) (hslot : D + n ≤ s.reg BP + ro ∨ s.reg BP + ro + 8 ≤ D) :
    rd t.mem D n = rd s.mem S n ∧ (∀ x, x < D ∨ D + n ≤ x → t.mem x = s.mem x) ∧ (S ≠ D → t.reg AX = D) ∧
      ∀ r, r ≠ AX → r ≠ SI → r ≠ DI → r ≠ R11 → t.reg r = s.reg r := by
  unfold returnMemory at h
  obtain ⟨l, hl, h⟩ := Option.bind_eq_some_iff.mp h
  obtain ⟨l1, l2, l3⟩ := loadAddress_spec (s := s) hl (by decide) (At.pointer hs)
  rw [At.object hs] at l3
  obtain ⟨w, hw⟩ : ∃ w, w = run s (l ++ [.ld 8 DI (.base BP ro)]) := ⟨_, rfl⟩
  have w0 : w = (run s l).set DI D := by
    rw [hw, run_append, run_cons, run_nil, ld_full (by omega)]
    congr 1
    rw [l1]
    show val (rd s.mem ((run s l).reg BP + ro) 8) = D
    rw [l2 BP (by decide) (by decide), hd]
  have wm : w.mem = s.mem := by rw [w0, set_mem, l1]
  have wd : w.reg DI = D := by rw [w0, set_reg, if_pos rfl]
  have ws : w.reg SI = S := by rw [w0, set_reg, if_neg (by decide), l3]
  have wr' : ∀ r, r ≠ SI → r ≠ DI → r ≠ R11 → w.reg r = s.reg r := by
    intro r h1 h2 h3
    rw [w0, set_reg, if_neg h2, l2 r h1 h3]
  simp only at h
  rw [← hw, wd, ws] at h
  by_cases he : D = S
  · rw [if_pos he, Option.some.injEq] at h
    subst h
    subst he
    exact ⟨by rw [wm], fun x _ => by rw [wm], fun h => absurd rfl h, fun r _ h2 h3 h4 => wr' r h2 h3 h4⟩
  · rw [if_neg he] at h
    by_cases hn : n ≤ 64
    · rw [if_pos hn, Option.some.injEq] at h
      obtain ⟨f1, f2, f3⟩ := copyCode_spec n w (by rw [wd, ws]; exact hov)
      rw [wd] at f2 f3
      rw [ws] at f3
      rw [run_append] at h
      generalize run w (copyCode n) = y at *
      rw [run_cons, run_nil, ld_full (by omega)] at h
      have hbp : y.reg BP = s.reg BP := by rw [f1 BP (by decide), wr' BP (by decide) (by decide) (by decide)]
      have hax : val (rd y.mem (y.ea (.base BP ro)) 8) = D := by
        rw [← hd]
        congr 1
        unfold rd
        apply List.map_congr_left
        intro j hj
        have hj := List.mem_range.mp hj
        show y.mem (y.reg BP + ro + j) = _
        rw [hbp, f2 _ (by omega), wm]
      rw [hax] at h
      subst h
      refine ⟨?_, fun x hx => by rw [set_mem, f2 x hx, wm], fun _ => by rw [set_reg, if_pos rfl],
        fun r h1 h2 h3 h4 => by rw [set_reg, if_neg h1, f1 r h1, wr' r h2 h3 h4]⟩
      unfold rd
      apply List.map_congr_left
      intro j hj
      rw [set_mem, f3 j (List.mem_range.mp hj), wm]
    · rw [if_neg hn] at h
      cases h

/-! ## Examples -/

/-- `struct { double d; int i; float f; }`. -/
def mixture : Ty := .agg 16 8 false (.cons 0 .double (.cons 8 (.int 4 true) (.cons 12 .float .nil)))

theorem mixture_ordinary : Ordinary mixture := isOrdinary_iff (by decide)

/-- A local of this type in `exState`. -/
theorem mixture_good : Arg.Good exState 0 0 ⟨mixture, .place (.frame (-32))⟩ :=
  ⟨by decide, by show Clear _ _ _ _; unfold Clear; decide, by decide⟩

example : ∃ code, returnCode ⟨mixture, .place (.frame (-32))⟩ = some code ∧ resultRegs mixture = some [XMM 0, AX] ∧
    byteAt ((run exState code).reg (XMM 0)) 3 = exState.mem (4320 + 3) ∧
    byteAt ((run exState code).reg AX) 5 = exState.mem (4320 + 13) := by
  obtain ⟨code, h⟩ : ∃ code, returnCode ⟨mixture, .place (.frame (-32))⟩ = some code :=
    Option.isSome_iff_exists.mp (by decide)
  obtain ⟨rs, h1, h2, h3, _⟩ := C80_registers_partial h mixture_good mixture_ordinary
  have e : resultRegs mixture = some [XMM 0, AX] := by decide
  rw [e, Option.some.injEq] at h1
  subst h1
  exact ⟨code, h, e, h3 0 _ rfl 3 (by decide) (by decide), h3 1 _ rfl 5 (by decide) (by decide)⟩

example : ∃ code, resultStore mixture (.deref (.temp BX) 8) = some code ∧
    (run exState code).mem 20 = byteAt (exState.reg (XMM 0)) 5 := by
  obtain ⟨code, h⟩ : ∃ code, resultStore mixture (.deref (.temp BX) 8) = some code :=
    Option.isSome_iff_exists.mp (by decide)
  obtain ⟨rs, h1, h2, _⟩ := C80_stored_partial (O := 15) (s := exState) h (by decide) mixture_ordinary
    ⟨⟨by decide, fun h => h, by decide, by decide⟩, by decide⟩
  have e : resultRegs mixture = some [XMM 0, AX] := by decide
  rw [e, Option.some.injEq] at h1
  subst h1
  exact ⟨code, h, h2 0 _ rfl 5 (by decide) (by decide)⟩

example : ∃ code, resultStore (.int 2 true) (.place (.temp R12)) = some code ∧
    byteAt ((run exState code).reg R12) 1 = byteAt (exState.reg AX) 1 := by
  obtain ⟨code, h⟩ : ∃ code, resultStore (.int 2 true) (.place (.temp R12)) = some code :=
    Option.isSome_iff_exists.mp (by decide)
  obtain ⟨r, h1, h2, _⟩ := C80_temporary (s := exState) h (by decide) (by decide)
  have e : resultRegs (.int 2 true) = some [AX] := by decide
  rw [e, Option.some.injEq, List.cons.injEq] at h1
  obtain ⟨rfl, _⟩ := h1
  exact ⟨code, h, h2 1 (by decide)⟩

/-- `f(5)` where `f` returns such a structure. -/
def mixedCall : Call where
  args := [⟨.int 4 true, .imm 5⟩]
  vararg := false
  result := none
  fn := none

theorem mixedCall_good : mixedCall.Good exState 2048 where
  args := by
    intro a ha
    simp only [mixedCall, List.mem_cons, List.not_mem_nil, or_false] at ha
    subst ha
    exact ⟨by decide, ⟨4, .signed, rfl, by decide⟩, by decide⟩
  stack := by
    intro l hl
    have : classifyAll (mixedCall.args.map (·.ty)) 0 0 = some [([.integer, .no, .no, .no], true)] := by decide
    have e : (if mixedCall.result.isSome then 1 else 0) = 0 := rfl
    rw [e, this, Option.some.injEq] at hl
    subst hl
    simp [StackOk, mixedCall]
  result := by intro a ha; simp [mixedCall] at ha
  fn := by intro f hf; simp [mixedCall] at hf

/-- The function returns a local at once, and the result is assigned to a global. -/
example : ∃ code s' ret st, callCode 1 mixedCall 77 = some (code, 0) ∧
    enter (mixedCall.args.map (·.ty)) [16] 2 false false (run exState code) = some s' ∧
    returnCode ⟨mixture, .place (.frame (-40))⟩ = some ret ∧ resultStore mixture (.place (.global 8192)) = some st ∧
    rd (run (run (run (run s' ret) (epilogue 2)) (afterCall 1 0)) st).mem 8192 16 =
      Arg.bytes s' ⟨mixture, .place (.frame (-40))⟩ ∧
    (run (run (run (run s' ret) (epilogue 2)) (afterCall 1 0)) st).reg SP = 4096 := by
  obtain ⟨code, hc⟩ : ∃ code, callCode 1 mixedCall 77 = some (code, 0) := by
    have : (callCode 1 mixedCall 77).map (·.2) = some 0 := by decide +kernel
    cases h : callCode 1 mixedCall 77 with
    | none => rw [h] at this; simp at this
    | some x => exact ⟨x.1, by rw [h] at this; simp at this; rw [← this]⟩
  obtain ⟨ret, hret⟩ : ∃ code, returnCode ⟨mixture, .place (.frame (-40))⟩ = some code :=
    Option.isSome_iff_exists.mp (by decide)
  obtain ⟨st, hst⟩ : ∃ code, resultStore mixture (.place (.global 8192)) = some code :=
    Option.isSome_iff_exists.mp (by decide)
  obtain ⟨f, hf⟩ : ∃ f, frame (mixedCall.args.map (·.ty)) [16] 2 false false = some f :=
    Option.isSome_iff_exists.mp (by decide +kernel)
  have key : (callCode 1 mixedCall 77).bind (fun x =>
      (enter (mixedCall.args.map (·.ty)) [16] 2 false false (run exState x.1)).map fun s => s.reg BP) = some 4064 := by
    decide +kernel
  rw [hc, Option.bind_some] at key
  obtain ⟨s', he, hb⟩ := Option.map_eq_some_iff.mp key
  have := C80_call_partial (extra := []) (u := s') (O := 8192) (lo' := 0) (hi' := 0) hc mixedCall_good (by decide) (by decide)
    (by decide) (by decide) (by simp) hf he (by decide) (fun h => by simp [mixedCall] at h) rfl (fun _ _ _ => rfl)
    (fun _ _ _ => rfl) (fun _ _ _ => rfl) hret hst
    ⟨by decide, by show Clear _ _ _ _; unfold Clear Place.address; rw [hb]; decide, by decide⟩ mixture_ordinary
    ⟨fun r h => by simp at h, rfl⟩
  exact ⟨code, s', ret, st, hc, he, hret, hst, this.1, this.2.1⟩

/-- A frame at 4096 with the address 8192 for the result at `-8(%rbp)`, and a pointer `p` at
`-16(%rbp)`. -/
def retState (p : Int) : M where
  reg r := if r = BP then 4096 else if r = AX then 1 else 0
  mem x := if x = 4089 then 32 else if 4080 ≤ x ∧ x < 4088 then byteAt p (x - 4080).toNat else UInt8.ofNat (x.toNat % 251)

/-- `return *p` for a pointer to a structure of 24 bytes. -/
example : ∃ t, returnMemory 24 (.deref (.frame (-16)) 0) (-8) (retState 12288) = some t := by
  exact Option.isSome_iff_exists.mp (by decide +kernel)

example {t : M} (h : returnMemory 24 (.deref (.frame (-16)) 0) (-8)
      ⟨(retState 0).reg, fun x => if x = 4089 then 32 else if x = 4081 then 48 else if 4080 ≤ x ∧ x < 4096 then 0 else 7⟩ =
    some t) : rd t.mem 8192 24 = List.replicate 24 7 ∧ t.reg AX = 8192 := by
  obtain ⟨h1, _, h2, _⟩ := C80_memory_partial (S := 12288) (D := 8192) h
    ⟨by
      show ∀ j : Nat, j < 8 → ¬ False
      exact fun _ _ h => h, by decide +kernel⟩ (by decide +kernel) (by decide) (by decide)
  refine ⟨?_, h2 (by decide)⟩
  rw [h1]
  decide +kernel

/-! ## Disagreements -/

/-- The function returns the object the result is assigned to, as in
`struct S f(struct S *p) { return *p; }` and `x = f(&x)`: the ABI wants the address of the
result in `%rax`; the code jumps over the instruction which puts it there. -/
theorem C80_address_violated :
    (returnMemory 24 (.deref (.frame (-16)) 0) (-8)
      ⟨(retState 0).reg, fun x => if x = 4089 ∨ x = 4081 then 32 else if 4080 ≤ x ∧ x < 4096 then 0 else 7⟩).map
      (fun t => (t.reg DI, t.reg AX)) = some (8192, 1) := by decide +kernel

/-- The returned object is eight bytes before the result, for instance because both are
members of a union: bytes 8 to 15 of the result are not those of the returned object. -/
theorem C80_overlap_violated :
    let s : M := ⟨(retState 0).reg, fun x => if x = 4089 then 32 else if x = 4081 then 31 else if x = 4080 then 248
        else if 4080 ≤ x ∧ x < 4096 then 0 else UInt8.ofNat (x.toNat % 251)⟩
    (returnMemory 24 (.deref (.frame (-16)) 0) (-8) s).map (fun t => decide (rd t.mem 8192 24 = rd s.mem 8184 24)) =
      some false := by decide +kernel

/-- `struct { char c[3]; }`. -/
def three : Ty := .agg 3 1 false (.cons 0 (.array 3 (.int 1 true)) .nil)

/-- `a[0] = f()` for an array of such structures: the code stores four bytes, the last of
which is in `a[1]`. -/
theorem C80_width_violated : three.size = 3 ∧
    (resultStore three (.place (.global 8192))).map (fun code =>
      (code, (run { reg := fun _ => 0, mem := fun _ => 7 } code).mem 8195)) =
      some ([.st 4 AX (.abs 8192)], 0) := by decide +kernel

end Verif.Abi
