import Verif.Abi.Arrive
import Verif.Encode.Model

/-!
# C38: caller and callee agree

Code for calls (`callCode`, `afterCall`) and for entering and leaving functions (`enter`,
`epilogue`) is run on a machine of bytes and registers.  What an argument is
(`Arg.bytes`) and where the ABI wants it (`SysV.locations`) is stated separately.
-/

namespace Verif.Abi

open SysV (Loc locations)

/-- Every argument is where the ABI wants it when the function is entered: in the registers
of its eightbytes, or on the stack at its offset from `8(%rsp)`.

Missing from the full property: arguments of more alignment than 8 on the stack
(`C38_alignment_violated`), floating point temporaries on the stack
(`C38_vector_violated`), types whose class is not that of the ABI (see C37). -/
theorem C38_locations_partial {s : M} {lo ra : Int} {m used : Nat} {c : Call} {code : List Ins}
    (hc : callCode m c ra = some (code, used)) (hg : c.Good s lo) (h0 : 0 ≤ lo) (h64 : s.reg SP < 256 ^ 8)
    (hlo : lo ≤ s.reg SP - 16 * m - used - 8) (ho : ∀ a ∈ c.args, Ordinary a.ty) :
    Located s (run s code) ((run s code).reg SP + 8) c.args (locations (c.args.map (·.ty)) c.result.isSome) := by
  obtain ⟨l, h⟩ := call_spec hc hg h0 h64 hlo
  obtain ⟨loads, hld⟩ : ∃ loads, loadAll c.args l (if c.result.isSome then 1 else 0) 0 = some loads := by
    unfold callCode at hc
    obtain ⟨⟨args, used'⟩, ha, hc⟩ := Option.bind_eq_some_iff.mp hc
    unfold pushFunctionArguments at ha
    obtain ⟨l', hl, ha⟩ := Option.bind_eq_some_iff.mp ha
    obtain ⟨_, _, ha⟩ := Option.bind_eq_some_iff.mp ha
    obtain ⟨loads, hld, ha⟩ := Option.bind_eq_some_iff.mp ha
    rw [h.classes, Option.some.injEq] at hl
    subst hl
    exact ⟨loads, hld⟩
  have := located (t := run s code) (base := (run s code).reg SP + 8) c.args _ 0 0 l loads ho h.classes hld
    (by split_ifs <;> omega) (by omega) rfl (by simpa using h.stack) h.regs
  have e : locations (c.args.map (·.ty)) c.result.isSome =
      SysV.locate (c.args.map (·.ty)) (paramInt.drop (if c.result.isSome then 1 else 0)) (paramSse.drop 0) 0 := by
    unfold locations
    cases c.result.isSome <;> rfl
  rw [e]
  exact this

/-- The registers which arguments are put in are all different, and none is used for two
eightbytes. -/
theorem C38_distinct (ts : List Ty) (r : Bool) :
    ((locations ts r).flatMap fun | .regs rs => rs | .stack _ => []).Nodup := by
  have key : ∀ (ts : List Ty) (g v : List Nat) (off : Nat), (g ++ v).Nodup →
      ((SysV.locate ts g v off).flatMap fun | .regs rs => rs | .stack _ => []).Nodup ∧
      ∀ x ∈ ((SysV.locate ts g v off).flatMap fun | .regs rs => rs | .stack _ => []), x ∈ g ++ v := by
    intro ts
    induction ts with
    | nil => intro g v off _; simp [SysV.locate]
    | cons t ts ih =>
      intro g v off hn
      have stack : ∀ o o', ((Loc.stack o :: SysV.locate ts g v o').flatMap fun | .regs rs => rs | .stack _ => []).Nodup ∧
          ∀ x ∈ ((Loc.stack o :: SysV.locate ts g v o').flatMap fun | .regs rs => rs | .stack _ => []), x ∈ g ++ v := by
        intro o o'
        simp only [List.flatMap_cons, List.nil_append]
        exact ih g v o' hn
      simp only [SysV.locate]
      split
      · exact stack _ _
      · split
        · rename_i rs g' v' he
          obtain ⟨a1, a2, a3, a4, a5⟩ := assigned he hn
          simp only [List.flatMap_cons]
          obtain ⟨i1, i2⟩ := ih g' v' off a2
          refine ⟨List.nodup_append.mpr ⟨a1, i1, fun x hx y hy e => a3 x hx (e ▸ i2 y hy)⟩, ?_⟩
          intro x hx
          rcases List.mem_append.mp hx with hx | hx
          · exact a4 x hx
          · exact a5 x (i2 x hx)
        · exact stack _ _
  unfold locations
  refine (key ts _ _ 0 ?_).1
  cases r <;> decide

/-- The stack pointer is a multiple of 16 at every call, if it is one before the statement;
`%al` has the number of vector registers for a function with a variable number of
arguments; the address of the result is in `%rdi`; nothing but the unused stack is
written; the registers of temporaries keep their values. -/
theorem C38_call {s : M} {lo ra : Int} {m used : Nat} {c : Call} {code : List Ins}
    (hc : callCode m c ra = some (code, used)) (hg : c.Good s lo) (h0 : 0 ≤ lo) (h64 : s.reg SP < 256 ^ 8)
    (hlo : lo ≤ s.reg SP - 16 * m - used - 8) :
    let t := run s code
    (s.reg SP % 16 = 0 → (t.reg SP + 8) % 16 = 0) ∧
    (c.vararg = true → ∃ l, classifyAll (c.args.map (·.ty)) (if c.result.isSome then 1 else 0) 0 = some l ∧
      t.reg AX = sseUsed l ∧ t.reg AX ≤ 8) ∧
    (∀ a, c.result = some a → t.reg DI = a.src.object s) ∧
    (∀ f, c.fn = some f → ∀ j, j < 8 → byteAt (t.reg R11) j = f.byte s j) ∧
    (∀ x, x < t.reg SP ∨ s.reg SP ≤ x → t.mem x = s.mem x) ∧
    (∀ r, r = BP ∨ isTempInt r ∨ isTempSse r → t.reg r = s.reg r) := by
  obtain ⟨l, h⟩ := call_spec hc hg h0 h64 hlo
  refine ⟨fun ha => ?_, fun hv => ⟨l, h.classes, h.al hv, ?_⟩, h.result, h.fn, h.outside, h.kept⟩
  · have := h.aligned
    rw [h.sp]; omega
  · rw [h.al hv]
    have := sseUsed_le _ _ _ _ h.classes (by omega)
    omega

/-- A call of a function: the parameters of the callee have the values of the arguments in
the caller, for any kinds of arguments, number of arguments, locals and saved registers.
`c.args` may go on after the parameters if the function takes a variable number.

Missing from the full property: a floating point temporary on the stack
(`C38_vector_violated`). -/
theorem C38_parameters_partial {s s' : M} {lo ra : Int} {m used k : Nat} {c : Call} {code : List Ins}
    {named extra : List Arg} {locals : List Nat} {f : Frame}
    (hc : callCode m c ra = some (code, used)) (hg : c.Good s lo) (h0 : 0 ≤ lo) (h64 : s.reg SP < 256 ^ 8)
    (hlo : lo ≤ s.reg SP - 16 * m - used - 16) (hk : k ≤ 5) (hargs : c.args = named ++ extra)
    (hf : frame (named.map (·.ty)) locals k c.result.isSome c.vararg = some f)
    (he : enter (named.map (·.ty)) locals k c.result.isSome c.vararg (run s code) = some s') :
    ∀ (n : Nat) (a : Arg) (o : Int), named[n]? = some a → f.params[n]? = some o →
      rd s'.mem (s'.reg BP + o) a.ty.size = a.bytes s := by
  obtain ⟨l, h⟩ := call_spec hc hg h0 h64 (by omega)
  have hcl := h.classes
  have hst := h.stack
  have hrg := h.regs
  rw [hargs] at hcl hst hrg
  rw [List.map_append] at hcl
  obtain ⟨l1, l2, rfl, hl1, hlen⟩ := classifyAll_append _ _ _ _ _ hcl
  rw [List.length_map] at hlen
  have hst := StackHolds.left hlen hst
  have hrg := RegsHold.left hlen hrg
  obtain ⟨g1, g2, _⟩ := frame_spec hf
  rw [hl1, Option.some.injEq] at g1
  subst g1
  have hE := enter_spec hf he hk
    (fun a ha => (hg.args a (by rw [hargs]; exact List.mem_append_left _ ha)).laid)
    (by rw [h.sp]; omega) (by rw [h.sp]; omega) hrg
  intro n a o ha ho
  have hp := hE.params
  rw [g2] at hp ho
  have := params_hold named f.classes _ 16 hp
    (by
      rw [show (run s code).reg SP - 8 + 16 = (run s code).reg SP + 8 by omega]
      exact hst.congr fun x hx _ => hE.mem x (by right; omega)) n a o ha ho
  unfold rd Arg.bytes
  apply List.map_congr_left
  intro j hj
  rw [hE.bp]
  exact this j (List.mem_range.mp hj)

/-- The address for a result in memory is in the slot for it, and the stack pointer is a
multiple of 16 in the body of the function; what the caller has on the stack is not
written. -/
theorem C38_entered {s s' : M} {lo ra : Int} {m used k : Nat} {c : Call} {code : List Ins}
    {named extra : List Arg} {locals : List Nat} {f : Frame}
    (hc : callCode m c ra = some (code, used)) (hg : c.Good s lo) (h0 : 0 ≤ lo) (h64 : s.reg SP < 256 ^ 8)
    (hlo : lo ≤ s.reg SP - 16 * m - used - 16) (hk : k ≤ 5) (hargs : c.args = named ++ extra)
    (hf : frame (named.map (·.ty)) locals k c.result.isSome c.vararg = some f)
    (he : enter (named.map (·.ty)) locals k c.result.isSome c.vararg (run s code) = some s') :
    (s.reg SP % 16 = 0 → s'.reg SP % 16 = 0) ∧
    (∀ a, c.result = some a → val (rd s'.mem (s'.reg BP + f.retOffset) 8) = a.src.object s % 256 ^ 8) ∧
    (∀ x, x < s'.reg SP ∨ s.reg SP ≤ x → s'.mem x = s.mem x) := by
  obtain ⟨l, h⟩ := call_spec hc hg h0 h64 (by omega)
  have hcl := h.classes
  have hrg := h.regs
  rw [hargs] at hcl hrg
  rw [List.map_append] at hcl
  obtain ⟨l1, l2, rfl, hl1, hlen⟩ := classifyAll_append _ _ _ _ _ hcl
  rw [List.length_map] at hlen
  have hrg := RegsHold.left hlen hrg
  obtain ⟨g1, g2, _, _, g3, g4, _⟩ := frame_spec hf
  rw [hl1, Option.some.injEq] at g1
  subst g1
  have hE := enter_spec hf he hk
    (fun a ha => (hg.args a (by rw [hargs]; exact List.mem_append_left _ ha)).laid)
    (by rw [h.sp]; omega) (by rw [h.sp]; omega) hrg
  have hal := h.aligned
  refine ⟨fun ha => by rw [hE.sp, h.sp]; omega, ?_, ?_⟩
  · intro a ha
    have := val_rd_byteAt (hE.ret (by rw [ha]; rfl))
    rw [hE.bp, this, h.result a ha]
  · intro x hx
    have h1 := paramOffsets_le (8 * k) (named.map (·.ty)) f.classes (start c.result.isSome c.vararg) 16
    have h2 := localOffsets_le (8 * k) locals (paramOffsets (8 * k) (named.map (·.ty)) f.classes (start c.result.isSome c.vararg) 16).2.1
    have h3 : start c.result.isSome c.vararg ≤ 0 := by unfold start; split_ifs <;> omega
    rw [hE.sp] at hx
    have hsp := h.sp
    rw [hE.mem x (by omega), h.outside x (by omega)]

/-- A call returns to its caller with the stack pointer, the frame pointer and all registers
of temporaries as before.  The body of the function is any code which keeps `%rbp`, does
not write what is saved, and uses only those registers of temporaries which were saved.

Missing from the full property: functions with a variable number of arguments which are
called with vector registers, see `C39_saved_violated`. -/
theorem C38_return_partial {s s' u : M} {lo ra : Int} {m used k : Nat} {c : Call} {code : List Ins}
    {named extra : List Arg} {locals : List Nat} {f : Frame}
    (hc : callCode m c ra = some (code, used)) (hg : c.Good s lo) (h0 : 0 ≤ lo) (h64 : s.reg SP < 256 ^ 8)
    (hlo : lo ≤ s.reg SP - 16 * m - used - 16) (hk : k ≤ 5) (hargs : c.args = named ++ extra)
    (hf : frame (named.map (·.ty)) locals k c.result.isSome c.vararg = some f)
    (he : enter (named.map (·.ty)) locals k c.result.isSome c.vararg (run s code) = some s') (hm : m ≤ 8)
    (hv : c.vararg = true → (run s code).reg AX % 256 = 0)
    -- the body
    (hbp : u.reg BP = s'.reg BP) (htemps : ∀ r, isTempInt r → r ∉ tempInt.take k → u.reg r = s'.reg r)
    (hframe : ∀ x, s'.reg BP - 8 * k ≤ x → x < s'.reg BP + 16 → u.mem x = s'.mem x)
    (hsaved : ∀ x, s.reg SP - 16 * m ≤ x → x < s.reg SP → u.mem x = s'.mem x) :
    let v := run (run u (epilogue k)) (afterCall m used)
    v.reg SP = s.reg SP ∧ v.reg BP = s.reg BP % 256 ^ 8 ∧ v.reg IP = ra % 256 ^ 8 ∧
    (∀ r, isTempInt r → v.reg r % 256 ^ 8 = s.reg r % 256 ^ 8) ∧
    (∀ i, i < m → v.reg (XMM (8 + i)) = s.reg (XMM (8 + i)) % 256 ^ 8) := by
  obtain ⟨l, h⟩ := call_spec hc hg h0 h64 (by omega)
  have hcl := h.classes
  have hrg := h.regs
  rw [hargs] at hcl hrg
  rw [List.map_append] at hcl
  obtain ⟨l1, l2, rfl, hl1, hlen⟩ := classifyAll_append _ _ _ _ _ hcl
  rw [List.length_map] at hlen
  have hrg := RegsHold.left hlen hrg
  obtain ⟨g1, g2, _, _, g3, g4, _⟩ := frame_spec hf
  rw [hl1, Option.some.injEq] at g1
  subst g1
  have hE := enter_spec hf he hk
    (fun a ha => (hg.args a (by rw [hargs]; exact List.mem_append_left _ ha)).laid)
    (by rw [h.sp]; omega) (by rw [h.sp]; omega) hrg
  have hL := epilogue_spec u k hk
  generalize run u (epilogue k) = w at *
  have hsp := h.sp
  have hub : u.reg BP = (run s code).reg SP - 8 := by rw [hbp, hE.bp]
  rw [hE.bp] at hframe
  have wsp : w.reg SP = s.reg SP - 16 * m - used := by rw [hL.sp, hub, hsp]; omega
  have wbp : w.reg BP = s.reg BP % 256 ^ 8 := by
    rw [hL.bp, hub, val_rd_byteAt (v := (run s code).reg BP), h.kept BP kept_bp]
    intro j hj
    rw [hframe _ (by omega) (by omega), hE.saved j hj]
  have wip : w.reg IP = ra % 256 ^ 8 := by
    rw [hL.ip, hub]
    apply val_rd_byteAt
    intro j hj
    rw [hframe _ (by omega) (by omega), hE.mem _ (by omega)]
    have := h.ra j hj
    rw [show (run s code).reg SP - 8 + 8 + (j : Int) = (run s code).reg SP + j by omega]
    exact this
  have wt : ∀ r, isTempInt r → w.reg r % 256 ^ 8 = s.reg r % 256 ^ 8 := by
    intro r hr
    have hne : r ≠ SP ∧ r ≠ BP ∧ r ≠ IP := by
      refine ⟨?_, ?_, ?_⟩ <;> rintro rfl <;> revert hr <;> decide
    by_cases hm : r ∈ tempInt.take k
    · obtain ⟨i, hi⟩ := List.getElem?_of_mem hm
      have hik : i < k := by
        have := (List.getElem?_eq_some_iff.mp hi).1
        rw [List.length_take] at this
        omega
      rw [List.getElem?_take, if_pos hik] at hi
      rw [hL.temps i r hik hi, hub, val_rd_byteAt (v := (run s code).reg r), h.kept r (.inr (.inl hr)), Int.emod_emod]
      intro j hj
      rw [hframe _ (by omega) (by omega), hE.temps hv i r hik hi j hj]
    · rw [hL.other r hne.1 hne.2.1 hne.2.2 hm, htemps r hr hm, hE.reg r hne.1 hne.2.1, h.kept r (.inr (.inl hr))]
  have wmem : ∀ i, i < m → ∀ j : Nat, j < 8 → w.mem (s.reg SP - 16 * ((i : Nat) + 1) + j) = byteAt (s.reg (XMM (8 + i))) j := by
    intro i hi j hj
    rw [hL.mem, hsaved _ (by omega) (by omega), hE.mem _ (by omega), h.temps i hi j hj]
  obtain ⟨x, hx, x1, x2, x3⟩ : ∃ x, x = run w (if used = 0 then [] else [Ins.addi SP used]) ∧
      x.reg SP = s.reg SP - 16 * m ∧ (∀ r, r ≠ SP → x.reg r = w.reg r) ∧ x.mem = w.mem := by
    refine ⟨_, rfl, ?_⟩
    by_cases hz : used = 0
    · rw [if_pos hz]
      refine ⟨by rw [run_nil, wsp, hz]; omega, fun _ _ => rfl, rfl⟩
    · rw [if_neg hz]
      refine ⟨?_, fun r hr => ?_, rfl⟩
      · simp only [run_cons, run_nil, step_addi]
        rw [set_reg, if_pos rfl, wsp]; omega
      · simp only [run_cons, run_nil, step_addi]
        rw [set_reg, if_neg hr]
  have hrun : run w (afterCall m used) = run x (loadTemps m) := by
    unfold afterCall
    rw [run_append, ← hx]
  obtain ⟨y1, y2, y3, y4⟩ := loadTemps_spec m x
  simp only
  rw [hrun]
  have hx8 : ∀ r, r < 25 ∨ r = IP → ∀ i, i < m → r ≠ XMM (8 + i) := by
    intro r hr i hi
    simp only [XMM]
    rcases hr with hr | rfl
    · omega
    · simp only [IP]; omega
  refine ⟨by rw [y1, x1]; omega, ?_, ?_, ?_, ?_⟩
  · rw [y3 BP (by decide) (hx8 BP (by decide)), x2 BP (by decide), wbp]
  · rw [y3 IP (by decide) (hx8 IP (by decide)), x2 IP (by decide), wip]
  · intro r hr
    have hr' : r < 25 ∧ r ≠ SP := by
      simp only [isTempInt, BX, R12, R13, R14, R15, SP] at hr ⊢
      omega
    rw [y3 r hr'.2 (hx8 r (.inl hr'.1)), x2 r hr'.2, wt r hr]
  · intro i hi
    rw [y4 i hi]
    apply val_rd_byteAt
    intro j hj
    rw [x3, x1, ← wmem i hi j hj]
    congr 1
    omega

/-! ## Examples -/

/-- A machine with `%rsp` 4096, `%rbp` 4352, the first temporary 7 and some bytes in
memory. -/
def exState : M where
  reg r := if r = SP then 4096 else if r = BP then 4352 else if r = BX then 7 else if r = XMM 8 then 2 ^ 60 + 5 else 0
  mem x := UInt8.ofNat (x.toNat * 3)

/-- `f(5, s, t, b)`, where `s` is a local `struct { double d; int i; float f; }`, `t` an
`int` in a register and `b` a global structure of 24 bytes; the result is a structure of 24
bytes in a global. -/
def exCall : Call where
  args := [⟨.int 4 true, .imm 5⟩, ⟨.agg 16 8 false (.cons 0 .double (.cons 8 (.int 4 true) (.cons 12 .float .nil))),
    .place (.frame (-32))⟩, ⟨.int 4 true, .place (.temp BX)⟩, ⟨big, .place (.global 8192)⟩]
  vararg := false
  result := some ⟨big, .place (.global 16384)⟩
  fn := none

theorem exGood : exCall.Good exState 2048 where
  args := by
    intro a ha
    simp only [exCall, List.mem_cons, List.not_mem_nil, or_false] at ha
    rcases ha with rfl | rfl | rfl | rfl
    · exact ⟨by decide, ⟨4, .signed, rfl, by decide⟩, by decide⟩
    · exact ⟨by decide, by show Clear _ _ _ _; unfold Clear; decide, by decide⟩
    · exact ⟨by decide, ⟨4, .signed, rfl, by decide⟩, by decide⟩
    · exact ⟨by decide, by show Clear _ _ _ _; unfold Clear; decide, by decide⟩
  stack := by
    intro l hl
    have : classifyAll (exCall.args.map (·.ty)) 1 0 = some [([.integer, .no, .no, .no], true),
      ([.sse, .integer, .no, .no], true), ([.integer, .no, .no, .no], true), ([.memory, .integer, .integer, .no], false)] := by decide
    have e : (if exCall.result.isSome then 1 else 0) = 1 := rfl
    rw [e, this, Option.some.injEq] at hl
    subst hl
    simp [StackOk, exCall]
  result := by
    intro a ha
    simp only [exCall, Option.some.injEq] at ha
    subst ha
    exact ⟨by show Clear _ _ _ _; unfold Clear; decide, rfl⟩
  fn := by intro f hf; simp [exCall] at hf

/-- The call can be compiled, with 32 bytes for arguments on the stack. -/
theorem exCode : ∃ code, callCode 2 exCall 77 = some (code, 32) := by
  have : (callCode 2 exCall 77).map (·.2) = some 32 := by decide +kernel
  cases h : callCode 2 exCall 77 with
  | none => rw [h] at this; simp at this
  | some x => exact ⟨x.1, by rw [h] at this; simp at this; rw [← this]⟩

example : ∃ code, callCode 2 exCall 77 = some (code, 32) ∧
    Located exState (run exState code) ((run exState code).reg SP + 8) exCall.args
      [.regs [SI], .regs [XMM 0, DX], .regs [CX], .stack 0] := by
  obtain ⟨code, h⟩ := exCode
  refine ⟨code, h, ?_⟩
  have := C38_locations_partial h exGood (by decide) (by decide) (by decide) (by
    intro a ha
    simp only [exCall, List.mem_cons, List.not_mem_nil, or_false] at ha
    rcases ha with rfl | rfl | rfl | rfl <;> exact isOrdinary_iff (by decide))
  exact this

/-- A function with these parameters, three locals and two saved registers. -/
example : ∃ code s' f, callCode 2 exCall 77 = some (code, 32) ∧
    enter (exCall.args.map (·.ty)) [4, 16, 1] 2 true false (run exState code) = some s' ∧
    frame (exCall.args.map (·.ty)) [4, 16, 1] 2 true false = some f ∧ f.params = [-32, -48, -56, 16] ∧
    ∀ (n : Nat) (a : Arg) (o : Int), exCall.args[n]? = some a → f.params[n]? = some o →
      rd s'.mem (s'.reg BP + o) a.ty.size = a.bytes exState := by
  obtain ⟨code, h⟩ := exCode
  have hf : (frame (exCall.args.map (·.ty)) [4, 16, 1] 2 true false).map (·.params) = some [-32, -48, -56, 16] := by
    decide +kernel
  cases hfr : frame (exCall.args.map (·.ty)) [4, 16, 1] 2 true false with
  | none => rw [hfr] at hf; simp at hf
  | some f =>
    rw [hfr] at hf
    simp only [Option.map_some, Option.some.injEq] at hf
    cases he : enter (exCall.args.map (·.ty)) [4, 16, 1] 2 true false (run exState code) with
    | none =>
      have : (storeAll (exCall.args.map (·.ty)) f.classes f.params 1 0).isSome = true := by
        have : (frame (exCall.args.map (·.ty)) [4, 16, 1] 2 true false).map
          (fun f => (storeAll (exCall.args.map (·.ty)) f.classes f.params 1 0).isSome) = some true := by decide +kernel
        rw [hfr] at this
        simpa using this
      obtain ⟨st, hst⟩ := Option.isSome_iff_exists.mp this
      simp [enter, hfr, hst] at he
    | some s' =>
      exact ⟨code, s', f, h, he, rfl, hf,
        C38_parameters_partial (extra := []) h exGood (by decide) (by decide) (by decide) (by decide) (by simp) hfr he⟩

example : ∃ code, callCode 2 exCall 77 = some (code, 32) ∧ ((run exState code).reg SP + 8) % 16 = 0 ∧
    (run exState code).reg DI = 16384 := by
  obtain ⟨code, h⟩ := exCode
  obtain ⟨h1, _, h2, _⟩ := C38_call h exGood (by decide) (by decide) (by decide)
  exact ⟨code, h, h1 (by decide), h2 _ rfl⟩

/-! ## Disagreements -/

/-- Six `int`s, a `long` and a `long double`, in globals. -/
def ldCall : Call where
  args := (List.replicate 6 ⟨.int 4 true, .imm 1⟩) ++ [⟨.int 8 true, .imm 2⟩, ⟨.ldouble, .place (.global 8192)⟩]
  vararg := false
  result := none
  fn := none

/-- A `long double` after an odd number of eightbytes on the stack: the ABI has it at
`16(%rsp)`, counted from where the arguments begin; the code puts it at `8(%rsp)`. -/
theorem C38_alignment_violated :
    (locations (ldCall.args.map (·.ty)) false)[7]? = some (.stack 16) ∧
    (callCode 0 ldCall 77).map (fun x =>
      (rd (run exState x.1).mem ((run exState x.1).reg SP + 8 + 16) 10 == rd exState.mem 8192 10,
       rd (run exState x.1).mem ((run exState x.1).reg SP + 8 + 8) 10 == rd exState.mem 8192 10)) =
      some (false, true) := by decide +kernel

/-- Nine `double`s, the last of them a temporary in `%xmm8`. -/
def sseCall : Call where
  args := (List.replicate 8 ⟨.double, .place (.global 8192)⟩) ++ [⟨.double, .place (.temp (XMM 8))⟩]
  vararg := false
  result := none
  fn := none

/-- A floating point temporary which is passed on the stack: the code pushes the general
purpose register `%r8` instead of `%xmm8`. -/
theorem C38_vector_violated :
    (locations (sseCall.args.map (·.ty)) false)[8]? = some (.stack 0) ∧
    (callCode 0 sseCall 77).map (fun x => rd (run exState x.1).mem ((run exState x.1).reg SP + 8) 8) =
      some (le 8 (exState.reg R8)) ∧
    le 8 (exState.reg R8) ≠ le 8 (exState.reg (XMM 8)) := by decide +kernel

/-- Why: the encoder has no vector registers in `mov`, and encodes each of them as the
general purpose register with the same number, from and to registers and from memory. -/
theorem C38_encoding_violated :
    (∀ n ∈ List.range 16, ∀ d ∈ List.range 16, ∀ w ∈ [4, 8],
      Encode.encode ⟨Encode.oMOV, 0, 0, .regReg w (XMM n) w (1 + d)⟩ =
        Encode.encode ⟨Encode.oMOV, 0, 0, .regReg w (1 + n) w (1 + d)⟩ ∧
      Encode.encode ⟨Encode.oMOV, 0, 0, .regReg w (1 + d) w (XMM n)⟩ =
        Encode.encode ⟨Encode.oMOV, 0, 0, .regReg w (1 + d) w (1 + n)⟩) ∧
    (Encode.encode ⟨Encode.oMOV, 0, 0, .regReg 8 (XMM 8) 8 AX⟩).map (·.val) = some [0x4c, 0x89, 0xc0] := by
  decide +kernel

end Verif.Abi
