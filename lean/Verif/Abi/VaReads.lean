import Verif.Abi.VaStart

namespace Verif.Abi

/-- A function which reads arguments with `va_arg`, from a `va_list` at `L`, between other
things it does.  `R` is the address of the save area, the arguments on the stack are from `A`
to `Z`, and what else the function does leaves these and the `va_list` alone.  `flags` tells
which of the arguments are in registers; an argument on the stack must not be read to a
vector register.  The list has the type and the value of each read. -/
inductive Walk (L R A Z : Int) : List Bool → M → List (Ty × List UInt8) → M → Prop
  | done {flags t} : Walk L R A Z flags t [] t
  | other {flags t u out v} (hL : ∀ x, L ≤ x → x < L + 24 → u.mem x = t.mem x)
      (hR : ∀ x, R ≤ x → x < R + 176 → u.mem x = t.mem x) (hA : ∀ x, A ≤ x → x < Z → u.mem x = t.mem x)
      (h : Walk L R A Z flags u out v) : Walk L R A Z flags t out v
  | read {flags t ty res ap t' out v} (hu : Usable t L R A Z ty res ap)
      (hreal : ∀ r, res = .place (.temp r) → 17 ≤ r → flags.head? = some true) (hv : vaArg ty res ap t = some t')
      (h : Walk L R A Z flags.tail t' out v) : Walk L R A Z flags t ((ty, (⟨ty, res⟩ : Arg).bytes t') :: out) v

theorem walk_spec {s0 : M} {reg : Nat → Int} {L R A0 Z : Int} {flags : List Bool} {t : M} {out : List (Ty × List UInt8)} {v : M}
    (hw : Walk L R A0 Z flags t out v) : ∀ {A : Int} {rest : List Arg} {l : List (PC × Bool)} {i s : Nat},
    Pending s0 t reg L R A rest l i s → A0 ≤ A → A + memUsed (rest.map (·.ty)) l ≤ Z → flags = l.map (·.2) →
    out.map (·.1) <+: rest.map (·.ty) → out.map (·.2) <+: rest.map (fun a => a.bytes s0) := by
  induction hw with
  | done => intros; exact List.nil_prefix
  | other hL hR hA _ ih =>
    intro A rest l i s hp h0 hZ hfl ho
    exact ih (hp.congr hL hR fun x h1 h2 => hA x (by omega) (by omega)) h0 hZ hfl ho
  | @read flags t ty res ap t' out v hu hreal hv _ ih =>
    intro A rest l i s hp h0 hZ hfl ho
    cases rest with
    | nil => simp at ho
    | cons a rest =>
      simp only [List.map_cons, List.cons_prefix_cons] at ho
      obtain ⟨rfl, ho⟩ := ho
      have hu := hu.mono h0 hZ
      obtain ⟨h1, _, A', l', i', s', hp', hA', hZ', hl'⟩ := va_step hp hu hv (by
        intro r h1 h2
        have := hreal r h1 h2
        rw [hfl] at this
        cases l with
        | nil => simp at this
        | cons x l => simpa using this)
      have hl : l'.map (·.2) = flags.tail := by
        rw [hl', hfl, List.map_tail]
      simp only [List.map_cons, List.cons_prefix_cons]
      refine ⟨?_, ih hp' (by omega) (by omega) hl.symm ho⟩
      unfold Arg.bytes
      apply List.map_congr_left
      intro j hj
      exact h1 j (List.mem_range.mp hj)

/-- After `va_start`, all arguments for which there is no parameter are to be read. -/
theorem start_pending {s s' u : M} {lo ra : Int} {m used k : Nat} {c : Call} {code : List Ins}
    {named extra : List Arg} {locals : List Nat} {f : Frame} {ap : Ap} {L : Int} {start : List Ins}
    (hc : callCode m c ra = some (code, used)) (hg : c.Good s lo) (h0 : 0 ≤ lo) (h64 : s.reg SP < 256 ^ 8)
    (hlo : lo ≤ s.reg SP - 16 * m - used - 192) (hk : k ≤ 5) (hargs : c.args = named ++ extra) (hva : c.vararg = true)
    (hf : frame (named.map (·.ty)) locals k c.result.isSome true = some f)
    (he : enter (named.map (·.ty)) locals k c.result.isSome true (run s code) = some s')
    (hbp : u.reg BP = s'.reg BP)
    (hsave : ∀ x, s'.reg BP - 176 ≤ x → x < s'.reg BP → u.mem x = s'.mem x)
    (hover : ∀ x, s'.reg BP + f.overflow ≤ x → x < s'.reg BP + 16 + used → u.mem x = s'.mem x)
    (hs : vaStart f c.result.isSome ap = some start)
    (hL : ap.start.Fixed (fun x => L ≤ x ∧ x < L + 24) (fun _ => False) u L)
    (hL1 : Away (s'.reg BP - 176) 176 L 24)
    (hL2 : Away (s'.reg BP + f.overflow) (16 + used - f.overflow) L 24) :
    ∃ l1 l2, classifyAll (c.args.map (·.ty)) (if c.result.isSome then 1 else 0) 0 = some (l1 ++ l2) ∧
      l1.length = named.length ∧
      (run u start).reg BP = s'.reg BP ∧
      s'.reg BP + f.overflow + memUsed (extra.map (·.ty)) l2 ≤ s'.reg BP + 16 + used ∧
      ∃ i n, Pending s (run u start) (run s code).reg L (s'.reg BP - 176) (s'.reg BP + f.overflow) extra l2 i n := by
  obtain ⟨l, h⟩ := call_spec hc hg h0 h64 (by omega)
  obtain ⟨loads, hld⟩ : ∃ loads, loadAll c.args l (if c.result.isSome then 1 else 0) 0 = some loads := by
    unfold callCode at hc
    obtain ⟨⟨args, used'⟩, ha, hc⟩ := Option.bind_eq_some_iff.mp hc
    unfold pushFunctionArguments at ha
    obtain ⟨l', hl, ha⟩ := Option.bind_eq_some_iff.mp ha
    obtain ⟨_, _, ha⟩ := Option.bind_eq_some_iff.mp ha
    obtain ⟨loads, hld, ha⟩ := Option.bind_eq_some_iff.mp ha
    rw [h.classes, Option.some.injEq] at hl
    subst hl
    exact ⟨loads, hld⟩
  have hcl := h.classes
  have hst := h.stack
  have hrg := h.regs
  have hmu := h.mem
  have hAX := h.al hva
  have hsp := h.sp
  have hs8 := sseUsed_le _ _ _ _ hcl (by omega)
  rw [hargs] at hcl hst hrg hmu hld
  rw [List.map_append] at hcl hmu
  obtain ⟨l1, l2, rfl, hl1, hlen⟩ := classifyAll_append _ _ _ _ _ hcl
  rw [List.length_map] at hlen
  obtain ⟨hfc, hfo⟩ := frame_overflow hf
  have hfl : f.classes = l1 := by
    rw [hl1, Option.some.injEq] at hfc
    exact hfc.symm
  have hlaid : ∀ a ∈ c.args, SysV.laidOut a.ty = true := fun a ha => (hg.args a ha).laid
  have hent := enter_spec (s0 := s) hf he hk (fun a ha => hlaid a (by rw [hargs]; exact List.mem_append_left _ ha))
    (by omega) (by omega) (by rw [hfl]; exact hrg.left hlen)
  have hSP0 : (run s code).reg SP = s'.reg BP + 8 := by rw [hent.bp]; omega
  rw [memUsed_append _ _ _ _ (by simpa using hlen)] at hmu
  rw [hfl] at hfo
  have hi6 := intsUsed_le _ _ _ _ hl1 (by split_ifs <;> omega)
  have hn8 := sseUsed_le _ _ _ _ hl1 (by omega)
  obtain ⟨k1, k2, k3, k4, k5⟩ := vaStart_spec hs hL (by rw [hfl]; exact hi6) (by rw [hfl]; omega) (by omega) (by omega)
    (by rw [hbp]; omega)
  rw [hfl] at k2 k3
  generalize run u start = v at *
  have kmem : ∀ x, x < L ∨ L + 24 ≤ x → v.mem x = u.mem x := fun x hx => k1.mem x (by omega)
  refine ⟨l1, l2, by rw [hargs, List.map_append]; exact hcl, hlen, by rw [k1.reg BP (by decide) (fun h => h), hbp], by omega,
    (if c.result.isSome then 1 else 0) + intsUsed l1, sseUsed l1, ?_⟩
  have over : ∀ x, s'.reg BP + f.overflow ≤ x → x < s'.reg BP + 16 + used → v.mem x = (run s code).mem x := by
    intro x h1 h2
    rw [kmem x (by unfold Away at hL2; omega), hover x h1 h2, hent.mem x (.inr (by omega))]
  have save : ∀ x, s'.reg BP - 176 ≤ x → x < s'.reg BP → v.mem x = s'.mem x := by
    intro x h1 h2
    rw [kmem x (by unfold Away at hL1; omega), hsave x h1 h2]
  refine ⟨k2, k3, by rw [k4, hbp], by rw [k5, hbp], hi6, by omega, ?_, ?_, ?_, ⟨?_, ?_⟩, ?_, ?_, by omega⟩
  · simpa using classifyAll_right _ _ _ _ l1 l2 (by simpa using hlen) hcl
  · simpa using loadAll_right named extra l1 l2 _ _ hlen ⟨loads, hld⟩
  · have := hst.right hlen
    have e : (run s code).reg SP + 8 + memUsed (named.map (·.ty)) l1 = s'.reg BP + f.overflow := by omega
    rw [e] at this
    exact this.congr fun x h1 h2 => over x h1 (by omega)
  · intro i r _ hr j hj
    have hi := paramInt_lt hr
    rw [save _ (by omega) (by omega), ← hent.gp rfl i r hr j hj]
    congr 1
    omega
  · intro i h1 h2 j hj
    have hpos : (run s code).reg AX % 256 ≠ 0 := by
      rw [hAX, sseUsed_append] at *
      omega
    have : i < 8 := by rw [sseUsed_append] at hs8; omega
    rw [save _ (by omega) (by omega), ← hent.fp rfl hpos i this j (by omega)]
    congr 1
    omega
  · simpa using hrg.right hlen
  · exact fun a ha => hlaid a (by rw [hargs]; exact List.mem_append_right _ ha)

end Verif.Abi
