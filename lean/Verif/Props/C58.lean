import Verif.Asm.Line

/-!
# C58: names of registers

`regname` is what `-S` prints; `parseRegister` reads a register in inline assembly, and
`clobbered` one in a clobber list.  `Att.gprName` and `Att.xmmName` are the names by the
manual.
-/

namespace Verif.Asm

open Att (gprName xmmName)

/-- **C58 (printing).**  Of the sixteen general registers at the four widths, and of the
sixteen vector registers, the name printed is the one in the manual. -/
theorem C58_printed :
    (∀ k < 16, ∀ w ∈ Encode.widths, ∃ s, gprName k w = some s ∧ regname w (k + 1) = some (chr% '%' :: s))
    ∧ ∀ k < 16, ∃ s, xmmName k = some s ∧ ∀ w, regname w (k + 17) = some (chr% '%' :: s) := by
  constructor
  · intro k hk w hw
    have : ∀ k : Fin 16, ∀ w ∈ Encode.widths,
        (gprName k.val w).isSome ∧ regname w (k.val + 1) = (gprName k.val w).map (chr% '%' :: ·) := by decide +kernel
    obtain ⟨h1, h2⟩ := this ⟨k, hk⟩ w hw
    obtain ⟨s, hs⟩ := Option.isSome_iff_exists.mp h1
    simp only at hs h2
    exact ⟨s, hs, by rw [h2, hs]; rfl⟩
  · intro k hk
    have : ∀ k : Fin 16, (xmmName k.val).isSome ∧ xmmTable[k.val]? = (xmmName k.val).map (chr% '%' :: ·) := by
      decide +kernel
    obtain ⟨h1, h2⟩ := this ⟨k, hk⟩
    obtain ⟨s, hs⟩ := Option.isSome_iff_exists.mp h1
    simp only at hs h2
    refine ⟨s, hs, fun w => ?_⟩
    rw [regname, if_neg (by omega), if_neg (by omega), if_pos (by omega), Nat.add_sub_cancel, h2, hs]
    rfl

/-- **C58 (reading, general registers).**  A word in inline assembly or in a clobber list is
taken for the general register `k` at width `w` exactly if it is its printed name; what
follows the word does not matter. -/
theorem C58_read (s rest : Bytes) (k w : Nat) (hk : k < 16) :
    parseRegister (s ++ rest) s.length = .ok (k + 1, w)
      ↔ w ∈ Encode.widths ∧ regname w (k + 1) = some (chr% '%' :: s) := by
  constructor
  · intro h
    unfold parseRegister at h
    split_ifs at h with h1
    · exfalso
      simp only at h
      split_ifs at h
      injection h with h
      simp only [Prod.mk.injEq] at h
      omega
    · unfold parseIntReg at h
      split at h
      · rename_i p hp
        have hm := List.mem_of_find?_eq_some hp
        have he := List.find?_some hp
        simp only [List.take_left, Bool.and_eq_true, decide_eq_true_eq, beq_iff_eq] at he
        injection h with h
        have key : ∀ p ∈ asmRegs, p.2.2 ∈ Encode.widths ∧ regname p.2.2 p.2.1 = some (chr% '%' :: p.1) := by
          decide +kernel
        have := key p hm
        rw [h, he.2] at this
        exact this
      · cases h
  · rintro ⟨hw, h⟩
    have key : ∀ k : Fin 16, ∀ w ∈ Encode.widths, ∀ s ∈ regname w (k.val + 1),
        (s.tail, k.val + 1, w) ∈ asmRegs := by decide +kernel
    have hm : (s, k + 1, w) ∈ asmRegs := key ⟨k, hk⟩ w hw (chr% '%' :: s) h
    exact parseRegister_gpr hm

/-- The name of `%r12d`, and a word that is nearly the name of one. -/
example : regname 4 13 = some (chr% '%' :: str% "r12d") := by decide +kernel
example : parseRegister (str% "r12d, %%eax") 4 = .ok (13, 4) := by decide +kernel
example : parseRegister (str% "r16") 3 = .error .exit ∧ parseRegister (str% "raxx") 4 = .error .exit
    ∧ parseRegister (str% "ra") 2 = .error .exit := by decide +kernel

/-- **C58 (no name twice).**  Two registers, general or vector, never print the same. -/
theorem C58_distinct (w w' r r' : Nat) (s : Bytes) (hr : r ∈ Encode.gprs ∧ w ∈ Encode.widths ∨ r ∈ Encode.xmms ∧ w = 0)
    (hr' : r' ∈ Encode.gprs ∧ w' ∈ Encode.widths ∨ r' ∈ Encode.xmms ∧ w' = 0)
    (h : regname w r = some s) (h' : regname w' r' = some s) : r = r' ∧ w = w' := by
  let all : List (Nat × Nat) := (Encode.gprs.flatMap fun r => Encode.widths.map fun w => (r, w))
    ++ Encode.xmms.map fun r => (r, 0)
  have hall : ∀ {r w}, (r ∈ Encode.gprs ∧ w ∈ Encode.widths ∨ r ∈ Encode.xmms ∧ w = 0) → (r, w) ∈ all := by
    intro r w h
    simp only [all, List.mem_append, List.mem_flatMap, List.mem_map, Prod.mk.injEq]
    rcases h with ⟨h1, h2⟩ | ⟨h1, rfl⟩
    · exact .inl ⟨r, h1, w, h2, rfl, rfl⟩
    · exact .inr ⟨r, h1, rfl, rfl⟩
  have key : ∀ p ∈ all, ∀ q ∈ all, (regname p.2 p.1).isSome → regname p.2 p.1 = regname q.2 q.1 → p = q := by
    decide +kernel
  have := key _ (hall hr) _ (hall hr') (by rw [h]; rfl) (by rw [h, h'])
  simpa using this

example : (5 ∈ Encode.gprs ∧ 1 ∈ Encode.widths) ∧ regname 1 5 = some (str% "%spl") := by decide +kernel

/-- **C58 (reading, vector registers).**  The printed name of a vector register is read as
that register, unless a digit or letter follows. -/
theorem C58_xmm_partial (s rest : Bytes) (k : Nat) (hk : k < 16) (h : regname 0 (k + 17) = some (chr% '%' :: s))
    (hr : Stop rest) : parseRegister (s ++ rest) s.length = .ok (k + 17, 0) := by
  obtain ⟨s', hs, hp⟩ := C58_printed.2 k hk
  rw [hp 0] at h
  simp only [Option.some.injEq, List.cons.injEq, true_and] at h
  subst h
  exact (parseRegister_xmm hs hr).1

example : regname 0 29 = some (chr% '%' :: str% "xmm12") ∧ Stop (str% ", %%xmm0") :=
  ⟨by decide +kernel, Not.cons (by decide)⟩

/-- **C58 violated: other words are taken for vector registers.**  `xmm`, `xmm007` and, in a
clobber list, `xmm +3` are no names of registers; the number is read with `strtol`, which
accepts nothing at all, zeros in front, blanks and signs (`assembler.c:201-208`). -/
theorem C58_xmm_violated :
    parseRegister (str% "xmm, %%xmm1") 3 = .ok (17, 0)
    ∧ parseRegister (str% "xmm007") 6 = .ok (24, 0)
    ∧ clobbered (str% "xmm +3") = .ok 20
    ∧ ∀ k < 16, xmmName k ≠ some (str% "xmm") ∧ xmmName k ≠ some (str% "xmm007") ∧ xmmName k ≠ some (str% "xmm +3") := by
  refine ⟨by decide +kernel, by decide +kernel, by decide +kernel, ?_⟩
  have : ∀ k : Fin 16, xmmName k.val ≠ some (str% "xmm") ∧ xmmName k.val ≠ some (str% "xmm007")
      ∧ xmmName k.val ≠ some (str% "xmm +3") := by decide +kernel
  exact fun k hk => this ⟨k, hk⟩

end Verif.Asm
