import Verif.Abi.VaReads

/-!
# C55: `va_arg` returns the arguments one after the other

A call (C38) of a function with variable arguments, the code which enters the function, the
code of `va_start`, and then any sequence of reads with `va_arg`, between which the function
may do anything that leaves the `va_list`, the saved registers and the arguments on the stack
alone.  The values read are the values of the arguments for which there is no parameter, in
order, whether they were passed in registers or on the stack.

Missing in `C55_reads_partial`: an argument on the stack which is read to a vector register
(`C55_vector_violated`), objects of more than 64 bytes (copied by the library function), a
`va_list` which is a member of a structure or is passed on by a pointer while the result is an
object behind a pointer (`C55_offset_violated`, `C55_pointer_violated`), and types that are
read as another compatible type.
-/

namespace Verif.Abi

/-- What is read is a prefix of the list of values given in the call.  `u` is the state in
which `va_start` is executed. -/
theorem C55_reads_partial {s s' u v : M} {lo ra : Int} {m used k : Nat} {c : Call} {code : List Ins}
    {named extra : List Arg} {locals : List Nat} {f : Frame} {ap : Ap} {L : Int} {start : List Ins} {flags : List Bool}
    {out : List (Ty × List UInt8)}
    (hc : callCode m c ra = some (code, used)) (hg : c.Good s lo) (h0 : 0 ≤ lo) (h64 : s.reg SP < 256 ^ 8)
    (hlo : lo ≤ s.reg SP - 16 * m - used - 192) (hk : k ≤ 5) (hargs : c.args = named ++ extra) (hva : c.vararg = true)
    (hf : frame (named.map (·.ty)) locals k c.result.isSome true = some f)
    (he : enter (named.map (·.ty)) locals k c.result.isSome true (run s code) = some s')
    -- up to `va_start`
    (hbp : u.reg BP = s'.reg BP) (hsave : ∀ x, s'.reg BP - 176 ≤ x → x < s'.reg BP → u.mem x = s'.mem x)
    (hover : ∀ x, s'.reg BP + f.overflow ≤ x → x < s'.reg BP + 16 + used → u.mem x = s'.mem x)
    (hs : vaStart f c.result.isSome ap = some start)
    (hL : ap.start.Fixed (fun x => L ≤ x ∧ x < L + 24) (fun _ => False) u L)
    (hL1 : Away (s'.reg BP - 176) 176 L 24) (hL2 : Away (s'.reg BP + f.overflow) (16 + used - f.overflow) L 24)
    -- the reads
    (hflags : (classifyAll (c.args.map (·.ty)) (if c.result.isSome then 1 else 0) 0).map
      (fun l => (l.drop named.length).map (·.2)) = some flags)
    (hw : Walk L (s'.reg BP - 176) (s'.reg BP + f.overflow) (s'.reg BP + 16 + used) flags (run u start) out v)
    (hty : out.map (·.1) <+: extra.map (·.ty)) :
    out.map (·.2) <+: extra.map (fun a => a.bytes s) := by
  obtain ⟨l1, l2, h1, h2, _, h3, i, n, hp⟩ := start_pending hc hg h0 h64 hlo hk hargs hva hf he hbp hsave hover hs hL hL1 hL2
  refine walk_spec hw hp (Int.le_refl _) h3 ?_ hty
  rw [h1, Option.map_some, Option.some.injEq] at hflags
  rw [← hflags, ← h2, List.drop_left]

/-- What a read changes: the object that receives the value, in whole eightbytes, the
`va_list`, and registers for scratch. -/
theorem C55_effect_partial {s0 t t' : M} {reg : Nat → Int} {L R A : Int} {a : Arg} {rest : List Arg} {l : List (PC × Bool)}
    {i s : Nat} {res : Src} {ap : Ap} (hp : Pending s0 t reg L R A (a :: rest) l i s)
    (hu : Usable t L R A (A + memUsed ((a :: rest).map (·.ty)) l) a.ty res ap) (hv : vaArg a.ty res ap t = some t')
    (hreal : ∀ r, res = .place (.temp r) → 17 ≤ r → l.head?.map (·.2) = some true) :
    (∀ x, ((∃ r, res = .place (.temp r)) ∨ x < res.object t ∨ res.object t + 8 * eightbytes a.ty ≤ x) →
      (x < L ∨ L + 24 ≤ x) → t'.mem x = t.mem x) ∧
    (∀ r, r = SP ∨ r = BP ∨ isTempInt r ∨ isTempSse r → res ≠ .place (.temp r) → t'.reg r = t.reg r) := by
  obtain ⟨_, hn, _⟩ := va_step hp hu hv hreal
  refine ⟨fun x h1 h2 => hn.mem x ?_, fun r hr hne => hn.reg r ?_ hne⟩
  · rintro (⟨h3, h4, h5⟩ | h3)
    · rcases h1 with ⟨r, rfl⟩ | h1
      · exact h3 r rfl
      · omega
    · omega
  · rcases hr with rfl | hr
    · decide
    · exact not_vaReg hr

/-! ## An example -/

/-- `f(2, 7, d, b)` for `int f(int n, ...)`, where `d` is a `double` and `b` a structure of 24
bytes. -/
def vaCall : Call where
  args := [⟨.int 4 true, .imm 2⟩, ⟨.int 4 true, .imm 7⟩, ⟨.double, .place (.global 8192)⟩, ⟨big, .place (.global 16384)⟩]
  vararg := true
  result := none
  fn := none

def vaCaller : M where
  reg r := if r = SP then 4096 else if r = BP then 4352 else 0
  mem x := UInt8.ofNat (x.toNat * 3)

/-- The function has an object of type `va_list` and one of each of the three types. -/
def vaTypes : List Ty := [.int 4 true]
def vaLocals : List Nat := [24, 4, 8, 24]

theorem vaGood : vaCall.Good vaCaller 2048 where
  args := by
    intro a ha
    simp only [vaCall, List.mem_cons, List.not_mem_nil, or_false] at ha
    rcases ha with rfl | rfl | rfl | rfl
    · exact ⟨by decide, ⟨4, .signed, rfl, by decide⟩, by decide⟩
    · exact ⟨by decide, ⟨4, .signed, rfl, by decide⟩, by decide⟩
    · exact ⟨by decide, by show Clear _ _ _ _; unfold Clear; decide, by decide⟩
    · exact ⟨by decide, by show Clear _ _ _ _; unfold Clear; decide, by decide⟩
  stack := by
    intro l hl
    have : classifyAll (vaCall.args.map (·.ty)) 0 0 = some [([.integer, .no, .no, .no], true),
      ([.integer, .no, .no, .no], true), ([.sse, .no, .no, .no], true), ([.memory, .integer, .integer, .no], false)] := by decide
    have e : (if vaCall.result.isSome then 1 else 0) = 0 := rfl
    rw [e, this, Option.some.injEq] at hl
    subst hl
    simp [StackOk, vaCall]
  result := by intro a ha; simp [vaCall] at ha
  fn := by intro f hf; simp [vaCall] at hf

def vaEx : List Ins × Nat := (callCode 0 vaCall 77).getD ([], 0)
def vaFrame : Frame := (frame vaTypes vaLocals 0 false true).getD ⟨[], [], [], 0, 0, 0⟩
def vaEntered : M := (enter vaTypes vaLocals 0 false true (run vaCaller vaEx.1)).getD vaCaller
def vaStarted : List Ins := (vaStart vaFrame false (.object (.frame (-208)) 0)).getD []
def va0 : M := run vaEntered vaStarted
def va1 : M := (vaArg (.int 4 true) (.place (.frame (-216))) (.object (.frame (-208)) 0) va0).getD va0
def va2 : M := (vaArg .double (.place (.frame (-224))) (.object (.frame (-208)) 0) va1).getD va0
def va3 : M := (vaArg big (.place (.frame (-248))) (.object (.frame (-208)) 0) va2).getD va0

theorem getD_eq {α} {x : Option α} {d : α} (h : x.isSome = true) : x = some (x.getD d) := by
  cases x with
  | none => simp at h
  | some _ => rfl

theorem vaUsable {t : M} (hbp : t.reg BP = 4048) {ty : Ty} {o : Int} (h1 : o + 8 * eightbytes ty ≤ -208) (h2 : -400 ≤ o) :
    Usable t (4048 - 208) (4048 - 176) (4048 + 16) (4048 + 16 + 32) ty (.place (.frame o)) (.object (.frame (-208)) 0) where
  list := ⟨_, rfl, by simp, by simp [Place.address, hbp]⟩
  dst := .inr ⟨by simp, rfl⟩
  list_res := by intro _; simp only [Src.object, Place.address, hbp, Away]; omega
  area_res := by intro _; simp only [Src.object, Place.address, hbp, Away]; omega
  over_res := by intro _; simp only [Src.object, Place.address, hbp, Away]; omega
  area_list := by unfold Away; omega
  over_list := by unfold Away; omega

/-- The `int` 7 from a general purpose register, the `double` from a vector register, the
structure from the stack. -/
example : callCode 0 vaCall 77 = some (vaEx.1, 32) ∧
    (⟨.int 4 true, .place (.frame (-216))⟩ : Arg).bytes va1 = le 4 7 ∧
    (⟨.double, .place (.frame (-224))⟩ : Arg).bytes va2 = rd vaCaller.mem 8192 8 ∧
    (⟨big, .place (.frame (-248))⟩ : Arg).bytes va3 = rd vaCaller.mem 16384 24 := by
  have e1 : callCode 0 vaCall 77 = some (vaEx.1, 32) := by
    have h : callCode 0 vaCall 77 = some vaEx := getD_eq (by decide +kernel)
    have h2 : vaEx.2 = 32 := by decide +kernel
    rw [h, ← h2]
  have hf : frame vaTypes vaLocals 0 false true = some vaFrame := getD_eq (by decide +kernel)
  have he : enter vaTypes vaLocals 0 false true (run vaCaller vaEx.1) = some vaEntered := getD_eq (by decide +kernel)
  have hs : vaStart vaFrame false (.object (.frame (-208)) 0) = some vaStarted := getD_eq (by decide +kernel)
  have hbp : vaEntered.reg BP = 4048 := by decide +kernel
  have hov : vaFrame.overflow = 16 := by decide +kernel
  have hw : Walk (4048 - 208) (4048 - 176) (4048 + 16) (4048 + 16 + 32) [true, true, false] va0
      [(.int 4 true, _), (.double, _), (big, _)] va3 :=
    .read (vaUsable (by decide +kernel) (by decide) (by decide)) (by simp) (getD_eq (d := va0) (by decide +kernel)) <|
    .read (vaUsable (by decide +kernel) (by decide) (by decide)) (by simp) (getD_eq (d := va0) (by decide +kernel)) <|
    .read (vaUsable (by decide +kernel) (by decide) (by decide)) (by simp) (getD_eq (d := va0) (by decide +kernel)) .done
  have h := C55_reads_partial (named := [⟨.int 4 true, .imm 2⟩]) (extra := vaCall.args.tail) (flags := [true, true, false])
    (locals := vaLocals) (k := 0) (u := vaEntered) (L := 4048 - 208)
    e1 vaGood (by decide) (by decide) (by decide) (by decide) rfl rfl hf he rfl (fun _ _ _ => rfl) (fun _ _ _ => rfl) hs
    ⟨by simp [Place.shift], by simp [Place.shift, Place.address, hbp]⟩ (by rw [hbp]; unfold Away; decide)
    (by rw [hbp, hov]; unfold Away; decide) (by decide) (by rw [hbp, hov]; exact hw) (List.prefix_refl _)
  have h := h.eq_of_length rfl
  simp only [vaCall, List.tail_cons, List.map_cons, List.map_nil, List.cons.injEq, and_true] at h
  exact ⟨e1, h.1, h.2.1, h.2.2⟩

/-! ## Disagreements -/

/-- A `va_list` at 1000 with the save area at 2000 and the next argument on the stack at
3000; the registers given are used. -/
def vaMem (gp fp : Int) : M where
  reg r := if r = BP then 5000 else r
  mem := wr (wr (wr (wr (fun x => UInt8.ofNat (x.toNat * 3)) 1000 (le 4 gp)) 1004 (le 4 fp)) 1008 (le 8 3000)) 1016 (le 8 2000)

/-- `x = va_arg(ap, double)`, where `x` is in a vector register and the argument is on the
stack: the vector register keeps its value, and the general purpose register with the same
number is loaded. -/
theorem C55_vector_violated :
    (vaArg .double (.place (.temp (XMM 8))) (.object (.global 1000) 0) (vaMem 48 176)).map
      (fun t => (t.reg (XMM 8) == (vaMem 48 176).reg (XMM 8), le 8 (t.reg R8) == rd (vaMem 48 176).mem 3000 8)) =
      some (true, true) ∧
    le 8 ((vaMem 48 176).reg (XMM 8)) ≠ rd (vaMem 48 176).mem 3000 8 := by decide +kernel

/-- `s.a = va_arg(ap, struct F)` for `struct { struct F { float f; } a; float b; } s` at 4000:
the value in a vector register is stored as eight bytes, and overwrites `s.b`. -/
theorem C55_neighbour_violated :
    (vaArg (.agg 4 4 false (.cons 0 .float .nil)) (.place (.global 4000)) (.object (.global 1000) 0) (vaMem 0 48)).map
      (fun t => (rd t.mem 4000 4 == rd (vaMem 0 48).mem 2048 4, rd t.mem 4004 4)) =
      some (true, rd (vaMem 0 48).mem 2052 4) ∧
    rd (vaMem 0 48).mem 2052 4 ≠ rd (vaMem 0 48).mem 4004 4 := by decide +kernel

/-- `*p = va_arg(ap, T)`, where the `va_list` is a parameter, hence a pointer: the compiler
fails for every type. -/
theorem C55_pointer_violated (ty : Ty) (p q : Place) (o : Nat) (s : M) : vaArg ty (.deref p o) (.pointer q) s = none := by
  unfold vaArg
  cases classify ty <;> rfl

/-- `va_arg(s.ap, T)`, where the `va_list` is a member that is not the first: the compiler
fails for every type. -/
theorem C55_offset_violated (ty : Ty) (res : Src) (p : Place) (o : Nat) (s : M) : vaArg ty res (.object p (o + 1)) s = none := by
  simp [vaArg, Ap.list]

/-- A `long double` on the stack after an odd number of eightbytes.  The ABI has it at the
next multiple of 16, which is 3008; the code reads it from 3000. -/
theorem C55_alignment_violated :
    SysV.roundUp 3000 16 = 3008 ∧
    (vaArg .ldouble (.place (.global 4000)) (.object (.global 1000) 0) (vaMem 0 48)).map (fun t => rd t.mem 4000 16) =
      some (rd (vaMem 0 48).mem 3000 16) ∧
    rd (vaMem 0 48).mem 3000 16 ≠ rd (vaMem 0 48).mem 3008 16 := by decide +kernel

end Verif.Abi
