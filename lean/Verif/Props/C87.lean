import Verif.Arith.ValueLemmas

/-!
# C87: integer operators and assignments at run time

The code for `x = a op b`, for the operators `+ - * / % & | ^ << >>`, for `x = ~a` and for
`x = a`, gives `x` the value C prescribes (C99 6.5.3.3, 6.5.5-6.5.7, 6.5.10-6.5.12, 6.5.16) whenever it
does, and changes nothing else: no other byte of memory, no other bit of the storage unit if
`x` is a bit-field, no register but `%rax`, `%rcx`, `%rdx` and `%r11`, not the stack pointer.
A division does not trap if its result is defined.

Partial: operands are integers that have been converted to the common type, as the parser
does.  Left out: floating operands; position independent code; objects at a constant address;
a product whose left operand is a bit-field of a variable, for which the code is wrong
(`C87_product_violated`); and two cases that the code has wrong, but which the parser does not
make: a sum of a register variable and a constant that is assigned to the same register
(`C87_sum_violated`), and a register assigned to a bit-field.
-/

namespace Verif.Arith

open Verif.Abi (M Src Place AX CX DX BX SP R11 le wr isTempInt val rd)
open Verif.Conv (CM Val IsSize bytes)

/-- Two operands of a common type, for shifts only the left one.  If C defines the result `c`, then
there is code, it runs without a trap, and the target is assigned `c`; without a target it
is in the register that is used next. -/
theorem C87_binary_partial {s : CM} {op : Op} {t : Option Val} {w : Nat} {sg : Bool} {l r : Val} {c : Int} (enc)
    (hk : s.skip = none) (hl : Operand s.m l) (hr : Operand s.m r) (hw : w = 4 ∨ w = 8) (wl : l.sz = w) (sl : l.signed = sg)
    (hrs : op = .shl ∨ op = .shr ∨ (r.sz = w ∧ r.signed = sg)) (ht : ∀ x ∈ t, Target s.m x ∧ x.sz = w)
    (hmul : op = .mul → l.field ≠ none → ∀ p, l.src ≠ .place p)
    (hadd : op = .add → ∀ x ∈ t, ∀ q, x.src = .place (.temp q) →
      (l.src = .place (.temp q) → ∀ n, r.src ≠ .imm n) ∧ (r.src = .place (.temp q) → ∀ n, l.src ≠ .imm n))
    (hm : meaning w sg (l.value s.m) (r.value s.m) op = some c) :
    ∃ code, binary op t w sg l r = some code ∧ ∃ u, run enc s code = some u ∧ Outcome s u t op.result w c :=
  binary_outcome enc hk hl hr hw wl sl hrs ht hmul hadd hm

/-- Afterwards a variable of the common type has that value. -/
theorem C87_variable_partial {s : CM} {op : Op} {w : Nat} {sg : Bool} {x l r : Val} {c : Int} (enc)
    (hk : s.skip = none) (hl : Operand s.m l) (hr : Operand s.m r) (hw : w = 4 ∨ w = 8) (wl : l.sz = w) (sl : l.signed = sg)
    (hrs : op = .shl ∨ op = .shr ∨ (r.sz = w ∧ r.signed = sg)) (ht : Target s.m x) (hx : x.sz = w ∧ x.signed = sg ∧ x.field = none)
    (hv : ∀ p o, x.src ≠ .deref p o)
    (hmul : op = .mul → l.field ≠ none → ∀ p, l.src ≠ .place p)
    (hadd : op = .add → ∀ q, x.src = .place (.temp q) →
      (l.src = .place (.temp q) → ∀ n, r.src ≠ .imm n) ∧ (r.src = .place (.temp q) → ∀ n, l.src ≠ .imm n))
    (hm : meaning w sg (l.value s.m) (r.value s.m) op = some c) :
    ∃ code, binary op (some x) w sg l r = some code ∧ ∃ u, run enc s code = some u ∧ x.value u.m = c := by
  obtain ⟨code, h1, u, h2, h3⟩ := binary_outcome (t := some x) enc hk hl hr hw wl sl hrs
    (fun y hy => by simp only [Option.mem_some_iff] at hy; subst hy; exact ⟨ht, hx.1⟩) hmul
    (fun ha y hy => by simp only [Option.mem_some_iff] at hy; subst hy; exact hadd ha) hm
  refine ⟨code, h1, u, h2, Assigned.value ht hv h3 (has_room hx.2.2 ?_)⟩
  rw [hx.1, hx.2.1]
  refine meaning_has (by omega) (by rw [← wl, ← sl]; exact value_has hl) ?_ hm
  rcases hrs with h | h | ⟨h, h'⟩
  · exact .inl h
  · exact .inr (.inl h)
  · exact .inr (.inr (by rw [← h, ← h']; exact value_has hr))

/-- An assignment to a variable or a bit-field of one that has room for the number: that is then its
value. -/
theorem C87_read_back {s t : CM} {v : Val} {c : Int} (hv : Target s.m v) (hd : ∀ p o, v.src ≠ .deref p o) (h : Assigned s t v c)
    (hc : Room v c) : v.value t.m = c :=
  Assigned.value hv hd h hc

/-- `~a` is `-1 - a`; for an unsigned type modulo `2 ^ n`, `Assigned` and `Result` say no more. -/
theorem C87_complement_partial {s : CM} {t : Option Val} {l : Val} (enc) (hk : s.skip = none) (hl : Operand s.m l)
    (ht : ∀ x ∈ t, Target s.m x ∧ x.sz = l.sz) :
    ∃ code, not t l = some code ∧ ∃ u, run enc s code = some u ∧ Outcome s u t AX l.sz (-1 - l.value s.m) :=
  not_outcome enc hk hl ht

/-- `x = a` between integer types of any size, where `a` may be a constant of its type: the low
bytes of the value. -/
theorem C87_assign_partial {s : CM} {t : Option Val} {w : Nat} {sg : Bool} {l : Val} (enc) (hk : s.skip = none) (hl : Operand s.m l)
    (hi : ∀ n, l.src = .imm n → n = l.value s.m) (ha : ∀ p, l.src = .addr p → w = 8) (hw : IsSize w)
    (ht : ∀ x ∈ t, Target s.m x ∧ x.sz = w ∧ x.signed = sg)
    (hfr : ∀ x ∈ t, x.field ≠ none → ∀ q, l.src ≠ .place (.temp q)) :
    ∃ code, cast t w sg l = some code ∧ ∃ u, run enc s code = some u ∧ Outcome s u t AX w (l.value s.m) :=
  cast_outcome enc hk hl hi ha hw ht hfr

/-! ### Instances -/

/-- A machine with some bytes at address 4096, whose address is in `%rbx` too. -/
def sample (bs : List UInt8) : CM where
  m := { reg := fun r => if r = SP then 2 ^ 20 else if r = BX then 4096 else 0, mem := wr (fun _ => 0) 4096 bs }
  xmm := fun _ => none
  st := []
  cw := 0x37f
  sf := false
  cf := false
  skip := none

theorem sample_operand {sz : Nat} {sg : Bool} (bs a) (h : IsSize sz) : Target (sample bs).m ⟨sz, sg, none, .place (.global a)⟩ where
  size := h
  imm := by simp
  addr := by simp
  temp := by simp
  pointer := by simp
  field := by simp
  noImm := by simp
  noAddr := by simp
  inside := by simp

theorem sample_constant {sz : Nat} {sg : Bool} (bs n) (h : IsSize sz) : Operand (sample bs).m ⟨sz, sg, none, .imm n⟩ where
  size := h
  imm := by simp
  addr := by simp
  temp := by simp
  pointer := by simp
  field := by simp

theorem sample_field {sz off width : Nat} {sg : Bool} (bs o) (h : IsSize sz) (h1 : 0 < width) (h2 : width < 64) (h3 : off + width ≤ 8 * sz) :
    Target (sample bs).m ⟨sz, sg, some (off, width), .deref (.temp BX) o⟩ where
  size := h
  imm := by simp
  addr := by simp
  temp := by simp
  pointer r q e := by
    simp only [Src.deref.injEq, Place.temp.injEq] at e
    obtain ⟨rfl, _⟩ := e
    exact ⟨.inl rfl, (by decide : (0 : Int) ≤ 4096 ∧ (4096 : Int) < 256 ^ 8)⟩
  field a b e := by
    simp only [Option.some.injEq, Prod.mk.injEq] at e
    obtain ⟨rfl, rfl⟩ := e
    simp only
    unfold IsSize at h
    split_ifs <;> omega
  noImm := by simp
  noAddr := by simp
  inside a b e := by
    simp only [Option.some.injEq, Prod.mk.injEq] at e
    obtain ⟨rfl, rfl⟩ := e
    exact h3

theorem size4 : IsSize 4 := by unfold IsSize; decide
theorem size8 : IsSize 8 := by unfold IsSize; decide

/-- `x = -7 / 2` of variables: -3, by division to memory. -/
example (enc) : ∃ code, binary .div (some ⟨4, true, none, .place (.global 5000)⟩) 4 true
      ⟨4, true, none, .place (.global 4096)⟩ ⟨4, true, none, .place (.global 4100)⟩ = some code ∧
    ∃ u, run enc (sample [0xf9, 0xff, 0xff, 0xff, 2, 0, 0, 0]) code = some u ∧
      (⟨4, true, none, .place (.global 5000)⟩ : Val).value u.m = -3 :=
  C87_variable_partial enc rfl (sample_operand _ _ size4).toOperand (sample_operand _ _ size4).toOperand (.inl rfl) rfl rfl
    (.inr (.inr ⟨rfl, rfl⟩)) (sample_operand _ _ size4) ⟨rfl, rfl, rfl⟩ (by simp) (by simp) (by simp) (by decide +kernel)

/-- An unsigned sum that wraps, in place: `x = x + 2` where `x` is `2 ^ 64 - 1`. -/
example (enc) : ∃ code, binary .add (some ⟨8, false, none, .place (.global 4096)⟩) 8 false
      ⟨8, false, none, .place (.global 4096)⟩ ⟨8, false, none, .imm 2⟩ = some code ∧
    ∃ u, run enc (sample [255, 255, 255, 255, 255, 255, 255, 255]) code = some u ∧
      (⟨8, false, none, .place (.global 4096)⟩ : Val).value u.m = 1 :=
  C87_variable_partial enc rfl (sample_operand _ _ size8).toOperand (sample_constant _ _ size8) (.inr rfl) rfl rfl
    (.inr (.inr ⟨rfl, rfl⟩)) (sample_operand _ _ size8) ⟨rfl, rfl, rfl⟩ (by simp) (by simp) (by simp) (by decide +kernel)

/-- `p->f = a ^ b` where `f` is 5 bits wide. -/
example (enc) : ∃ code, binary .xor (some ⟨4, true, some (3, 5), .deref (.temp BX) 0⟩) 4 true
      ⟨4, true, none, .place (.global 4100)⟩ ⟨4, true, none, .imm 6⟩ = some code ∧
    ∃ u, run enc (sample [255, 0, 0, 0, 3, 0, 0, 0]) code = some u ∧
      Outcome (sample [255, 0, 0, 0, 3, 0, 0, 0]) u (some ⟨4, true, some (3, 5), .deref (.temp BX) 0⟩) AX 4 5 :=
  C87_binary_partial enc rfl (sample_operand _ _ size4).toOperand (sample_constant _ _ size4) (.inl rfl) rfl rfl
    (.inr (.inr ⟨rfl, rfl⟩))
    (fun x hx => by
      simp only [Option.mem_some_iff] at hx
      subst hx
      exact ⟨sample_field _ _ size4 (by decide) (by decide) (by decide), rfl⟩)
    (by simp) (by simp) (by decide +kernel)

/-- What C says, and what it leaves open. -/
example : meaning 4 true (-7) 2 .div = some (-3) ∧ meaning 4 true (-7) 2 .mod = some (-1) ∧ meaning 4 true (-7) 1 .shr = some (-4) ∧
    meaning 4 true 2147483647 1 .add = none ∧ meaning 4 true (-2147483648) (-1) .div = none ∧ meaning 4 true (-2147483648) (-1) .mod = none ∧
    meaning 4 false 3 4294967295 .mul = some 4294967293 ∧ meaning 4 true (-1) 255 .and = some 255 ∧ meaning 4 true 5 (-1) .xor = some (-6) ∧
    meaning 4 true 1 32 .shl = none ∧ meaning 8 true 1 32 .shl = some 4294967296 := by decide +kernel

/-- `~x`, and a constant to a bit-field. -/
example : Operand (sample [1]).m ⟨8, true, none, .place (.global 4096)⟩ ∧
    (⟨8, true, none, .place (.global 4096)⟩ : Val).value (sample [1]).m = 1 ∧
    Target (sample [1]).m ⟨4, true, some (3, 5), .deref (.temp BX) 0⟩ ∧
    (⟨4, true, none, .imm (-3)⟩ : Val).value (sample [1]).m = -3 ∧ Room ⟨4, true, some (3, 5), .deref (.temp BX) 0⟩ (-16) ∧
    ¬ Room ⟨4, true, some (3, 5), .deref (.temp BX) 0⟩ 16 :=
  ⟨(sample_operand _ _ size8).toOperand, by decide +kernel, sample_field _ _ size4 (by decide) (by decide) (by decide),
    by decide +kernel, by unfold Room; decide, by unfold Room; decide⟩

/-! ### Where the code is wrong -/

/-- `s.a * 3` where `s` is `struct { unsigned a : 3, b : 5; }` with `a` 7 and `b` 1: 21 is asked for,
and 45 is what comes, because `mul` is applied to the whole storage unit (lines 2583-2587 of
compile.c do not ask whether the operand is a field, unlike those of `compile_div`). -/
theorem C87_product_violated (enc) :
    (⟨4, false, some (0, 3), .place (.global 4096)⟩ : Val).value (sample [0x0f]).m = 7 ∧
    meaning 4 false 7 3 .mul = some 21 ∧
    ∃ code, binary .mul none 4 false ⟨4, false, some (0, 3), .place (.global 4096)⟩ ⟨4, false, none, .imm 3⟩ = some code ∧
      ∃ u, run enc (sample [0x0f]) code = some u ∧ u.m.reg AX % 256 ^ 4 = 45 := by
  refine ⟨by decide +kernel, by decide +kernel, [.conv (.int (.movi 4 AX 3)), .mul 4 (.mem (.abs 4096))], by decide +kernel,
    { sample [0x0f] with m := set (set ((sample [0x0f]).m.set AX 3) 4 AX 45) 4 DX 0 }, ?_, by decide +kernel⟩
  have h : exec ((sample [0x0f]).m.set AX 3) (.mul 4 (.mem (.abs 4096))) = some (set (set ((sample [0x0f]).m.set AX 3) 4 AX 45) 4 DX 0) := by
    have h1 : ((sample [0x0f]).m.set AX 3).reg AX % 256 ^ 4 * operand ((sample [0x0f]).m.set AX 3) 4 (.mem (.abs 4096)) = 45 := by decide +kernel
    have h2 : (45 : Int) / 256 ^ 4 = 0 := by decide
    simp only [exec, h1, h2]
  have hk : (sample [0x0f]).skip = none := rfl
  have hm : Verif.Abi.step (sample [0x0f]).m (.movi 4 AX 3) = (sample [0x0f]).m.set AX 3 := rfl
  simp [run, step, Conv.step, Conv.exec, hk, hm, h]

/-- A temporary in `%rbx` that would be assigned itself and 1: `%rax` is added, which has not been
loaded.  The parser makes no such sum: what a temporary is
assigned does not mention it. -/
theorem C87_sum_violated (enc) :
    (⟨4, true, none, .place (.temp BX)⟩ : Val).value (sample []).m = 4096 ∧ meaning 4 true 4096 1 .add = some 4097 ∧
    ∃ code, binary .add (some ⟨4, true, none, .place (.temp BX)⟩) 4 true ⟨4, true, none, .place (.temp BX)⟩ ⟨4, true, none, .imm 1⟩
        = some code ∧
      ∃ u, run enc (sample []) code = some u ∧ (⟨4, true, none, .place (.temp BX)⟩ : Val).value u.m = 4096 := by
  refine ⟨by decide +kernel, by decide +kernel, [.alu .add 4 BX AX], by decide +kernel, _, rfl, by decide +kernel⟩

end Verif.Arith
