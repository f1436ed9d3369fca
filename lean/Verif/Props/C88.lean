import Verif.Expr.RunLemmas
import Verif.Expr.AllocLemmas

/-!
# C88: integer expressions and assignments, whole

The source of the expressions is `Exp` and `Stm`; what they mean is `Exp.value` and `exec` in Verif/Expr/Spec.lean, after
C99 6.3.1 and 6.5.  `lowerAll` is what the parser makes of statements (src/parser/expression.c, src/parser/eval.c), and
`code` what the back end makes of that (src/backend/x86_64/compile.c).

Not covered, so the names end in `_partial`: casts to `_Bool` (for which the claim does not hold, `C88_bool_cast_violated`),
bit-fields, pointers, calls, `&&`, `||`, `?:` and the comma operator, and conditions of statements.  Programs whose
behaviour C leaves undefined have no meaning here.
-/

namespace Verif.Expr

open Verif.Abi (M Place BP AX)
open Verif.Conv (CM Val)
open Verif.Types.Spec (Basic)
open Verif.Compare (Flags Rel)
open Verif.Fold (tyOf)
open Verif.Fold.Spec (conv fits)

/-! ### A program to look at

`char c = -5; unsigned u = 3; long s = 100; _Bool t = 0;` and then `s = c * u + s % -7; c++; u <<= 3; t = !(c < u);`. -/

def sampleTypes (i : Nat) : Basic := if i = 0 then .char else if i = 1 then .uint else if i = 2 then .long else .bool

def sampleProgram : List Stm :=
  [.assign 2 (.bin .add (.bin .mul (.var 0) (.var 1)) (.bin .mod (.var 2) (.neg (.const .int 7)))), .post true 0,
    .update .shl 1 (.const .int 3), .assign 3 (.lnot (.rel .lt (.var 0) (.var 1)))]

def sampleValues (i : Nat) : Int := if i = 0 then -5 else if i = 1 then 3 else if i = 2 then 100 else 0

def sampleLocals : List Local := [.var 0, .var 1, .tmp 0, .tmp 1, .var 2, .tmp 2, .tmp 3, .tmp 4, .tmp 5, .tmp 6, .tmp 7, .tmp 8, .var 3]

/-- Memory where a byte, a word, a quadword and a byte have the given bytes, in the places of `sampleLocals`; `%rbp` is 1000. -/
def sampleState (bytes : List (Int × UInt8)) : CM where
  m := ⟨fun r => if r = BP then 1000 else 0, fun a => ((bytes.find? (·.1 == a)).map (·.2)).getD 0⟩
  xmm _ := none
  st := []
  cw := 0x37f
  sf := false
  cf := false
  skip := none

def sampleStart : CM := sampleState [(952, 251), (944, 3), (936, 100)]

theorem sample_ok : ∀ s ∈ sampleProgram, s.Ok 4 := by
  simp only [sampleProgram, List.mem_cons, List.not_mem_nil, or_false]
  rintro s (rfl | rfl | rfl | rfl) <;> simp [Stm.Ok, Exp.Ok]
  all_goals exact ⟨_, _, rfl, by decide⟩

theorem sample_fits : ∀ i < 4, fits (sampleTypes i) (sampleValues i) := by
  intro i hi
  interval_cases i <;> exact ⟨_, _, rfl, by decide⟩

theorem sample_rep : Rep (allocate 0 sampleLocals) sampleTypes 4 sampleStart.m sampleValues := by
  intro i hi
  refine ⟨?_, sample_fits i hi⟩
  interval_cases i <;> unfold Stores <;> decide +kernel

/-- It has a meaning: in the end `c`, `u`, `s` and `t` are -4, 24, 4294967283 and 1. -/
theorem sample_exec : ∃ ρ', exec sampleTypes sampleValues sampleProgram = some ρ' ∧ ρ' 0 = -4 ∧ ρ' 1 = 24 ∧ ρ' 2 = 4294967283 ∧ ρ' 3 = 1 :=
  ⟨_, rfl, by decide +kernel, by decide +kernel, by decide +kernel, by decide +kernel⟩

/-- Statements run: whenever C gives a list of assignments a meaning, the parser accepts it, the back end makes code of it,
and from any state where the variables have their values the code runs to its end, where they have the values that C gives
them.  Nothing else is different but temporaries and scratch registers.  This is so for any places where nothing overlaps. -/
theorem C88_program_partial {Γ : Nat → Basic} {N : Nat} {ρ ρ' : Nat → Int} {prog : List Stm} (hp : ∀ s ∈ prog, s.Ok N) (hf : ∀ i < N, fits (Γ i) (ρ i))
    (h : exec Γ ρ prog = some ρ') :
    ∃ n st, lowerAll Γ prog 0 = some ((), n, st) ∧
      ∀ (L : Layout) (s : CM) (f : Option Flags) (enc), L.Good Γ N n (s.m.reg BP) → s.skip = none → Rep L Γ N s.m ρ →
        ∃ c, code L st = some c ∧ ∃ t g, run enc (s, f) c = some (t, g) ∧ Rep L Γ N t.m ρ' ∧ Untouched L Γ N n (s.m.reg BP) s t := by
  obtain ⟨⟨⟩, n, st, σ', h1, _, h3, h4, _⟩ := lowerAll_sound (σ := ⟨ρ, fun _ => none⟩) (n := 0) hf hp h
  refine ⟨n, st, h1, ?_⟩
  intro L s f enc hL hk hr
  obtain ⟨c, g1, t, g, g2, I, u⟩ := does_ok enc hL h3 f ⟨rfl, hk, hr, by intro k _ b x e; cases e⟩
  refine ⟨c, g1, t, g, g2, ?_, u⟩
  rw [← h4]
  exact I.vars

/-- The hypotheses hold for the program above, and then its code gives `s` the value 4294967283. -/
example (enc) : ∃ n st, lowerAll sampleTypes sampleProgram 0 = some ((), n, st) ∧ ∃ c, code (allocate 0 sampleLocals) st = some c ∧
    ∃ t g, run enc (sampleStart, none) c = some (t, g) ∧ Stores (allocate 0 sampleLocals) sampleTypes t.m 2 4294967283 := by
  obtain ⟨ρ', h, _, _, h2, _⟩ := sample_exec
  obtain ⟨n, st, h1, g⟩ := C88_program_partial sample_ok sample_fits h
  have hn : n = 9 := by
    have e : (lowerAll sampleTypes sampleProgram 0).map (·.2.1) = some 9 := by decide +kernel
    rw [h1] at e
    simpa using e
  subst hn
  obtain ⟨c, g1, t, f, g2, I, _⟩ := g (allocate 0 sampleLocals) sampleStart none enc
    (allocate_good _ _ (by decide) (by decide) (by decide)) rfl sample_rep
  exact ⟨9, st, h1, c, g1, t, f, g2, h2 ▸ (I 2 (by decide)).1⟩

/-- An assignment: the variable gets the value of the expression, converted to its type, and no other variable changes. -/
theorem C88_assign_partial {Γ : Nat → Basic} {N i : Nat} {ρ : Nat → Int} {e : Exp} {b : Basic} {x : Int} (hi : i < N) (he : e.Ok N)
    (hf : ∀ i < N, fits (Γ i) (ρ i)) (h : e.value Γ ρ = some (b, x)) :
    ∃ n st, lowerAll Γ [.assign i e] 0 = some ((), n, st) ∧
      ∀ (L : Layout) (s : CM) (f : Option Flags) (enc), L.Good Γ N n (s.m.reg BP) → s.skip = none → Rep L Γ N s.m ρ →
        ∃ c, code L st = some c ∧ ∃ t g, run enc (s, f) c = some (t, g) ∧ Stores L Γ t.m i (conv (Γ i) x) ∧
          ∀ j < N, j ≠ i → Stores L Γ t.m j (ρ j) := by
  obtain ⟨n, st, h1, h2⟩ := C88_program_partial (prog := [.assign i e]) (ρ' := put ρ i (conv (Γ i) x)) (N := N) (by simpa [Stm.Ok] using ⟨hi, he⟩) hf
    (by simp [exec, Stm.exec, h])
  refine ⟨n, st, h1, ?_⟩
  intro L s f enc hL hk hr
  obtain ⟨c, g1, t, g, g2, I, _⟩ := h2 L s f enc hL hk hr
  refine ⟨c, g1, t, g, g2, ?_, ?_⟩
  · have := (I i hi).1
    simpa [put] using this
  · intro j hj hn
    have := (I j hj).1
    simpa [put, hn] using this

/-- `t = (c + u) & 255` with `c` -5 and `u` 3: the value is 254, and `_Bool` makes it 1. -/
example : (Exp.bin .and (.bin .add (.var 0) (.var 1)) (.const .int 255)).value sampleTypes sampleValues = some (.uint, 254) ∧
    conv (sampleTypes 3) 254 = 1 := by decide +kernel

/-- The type of an expression, as `sizeof` and the operators around it see it, is the one that C gives it. -/
theorem C88_type_partial {Γ : Nat → Basic} {N : Nat} {ρ : Nat → Int} {e : Exp} {b : Basic} {x : Int} (he : e.Ok N) (hf : ∀ i < N, fits (Γ i) (ρ i))
    (h : e.value Γ ρ = some (b, x)) (n : Nat) :
    ∃ e' n' st, lower Γ e n = some (e', n', st) ∧ e'.ty = tyOf b {} ∧ fits b x := by
  obtain ⟨e', n', st, σ', h1, _, _, _, h4⟩ := lower_sound (σ := ⟨ρ, fun _ => none⟩) (n := n) e hf he h
  exact ⟨e', n', st, h1, h4.ty, h4.fits⟩

/-- `c * u` is `unsigned`, `-c` is `int`, and `s << c` is `long`, if that is defined. -/
example : (Exp.bin .mul (.var 0) (.var 1)).value sampleTypes sampleValues = some (.uint, 4294967281) ∧
    (Exp.neg (.var 0)).value sampleTypes sampleValues = some (.int, 5) ∧
    (Exp.bin .shl (.var 2) (.neg (.var 0))).value sampleTypes sampleValues = some (.long, 3200) ∧
    (Exp.bin .shl (.var 2) (.var 0)).value sampleTypes sampleValues = none := by decide +kernel

/-- The places that the back end gives the locals of a function, in any order and with whatever is above them in the frame,
are as the other theorems ask: variables in memory, temporaries in registers that the callee saves, or in memory, and nothing
overlaps. -/
theorem C88_places {Γ : Nat → Basic} {N M : Nat} {l : List Local} (so bp : Int) (hv : ∀ i < N, .var i ∈ l) (ht : ∀ k < M, .tmp k ∈ l)
    (hΓ : ∀ i < N, (Γ i).isFloating = false) : (allocate so l).Good Γ N M bp :=
  allocate_good so bp hv ht hΓ

/-- Five temporaries have registers, the others and the variables have places below those where the registers are saved. -/
example : places 0 sampleLocals = [(.var 0, .frame (-48)), (.var 1, .frame (-56)), (.tmp 0, .temp Abi.BX), (.tmp 1, .temp Abi.R12),
    (.var 2, .frame (-64)), (.tmp 2, .temp Abi.R13), (.tmp 3, .temp Abi.R14), (.tmp 4, .temp Abi.R15), (.tmp 5, .frame (-72)),
    (.tmp 6, .frame (-80)), (.tmp 7, .frame (-88)), (.tmp 8, .frame (-96)), (.var 3, .frame (-104))] := by decide

/-- The two together: the body of a function whose variables are its own. -/
theorem C88_function_partial {Γ : Nat → Basic} {N : Nat} {ρ ρ' : Nat → Int} {prog : List Stm} (hp : ∀ s ∈ prog, s.Ok N)
    (hf : ∀ i < N, fits (Γ i) (ρ i)) (h : exec Γ ρ prog = some ρ') :
    ∃ n st, lowerAll Γ prog 0 = some ((), n, st) ∧
      ∀ (l : List Local) (so : Int) (s : CM) (f : Option Flags) (enc), (∀ i < N, .var i ∈ l) → (∀ k < n, .tmp k ∈ l) → s.skip = none →
        Rep (allocate so l) Γ N s.m ρ →
        ∃ c, code (allocate so l) st = some c ∧ ∃ t g, run enc (s, f) c = some (t, g) ∧ Rep (allocate so l) Γ N t.m ρ' := by
  obtain ⟨n, st, h1, h2⟩ := C88_program_partial hp hf h
  refine ⟨n, st, h1, ?_⟩
  intro l so s f enc hv ht hk hr
  have hΓ : ∀ i < N, (Γ i).isFloating = false := fun i hi => (Fold.fits_isInt (hf i hi))
  obtain ⟨c, g1, t, g, g2, I, _⟩ := h2 _ s f enc (C88_places so _ hv ht hΓ) hk hr
  exact ⟨c, g1, t, g, g2, I⟩

/-- The hypotheses about the locals hold for the program above. -/
example : (∀ i < 4, Local.var i ∈ sampleLocals) ∧ ∀ k < 9, Local.tmp k ∈ sampleLocals := by decide

/-- `s = (_Bool) u` where `u` is 256: C99 6.3.1.2 asks for 1, and `s` gets 0 (as in `C86_bool_violated`, but seen in a variable).  The first argument
of `run` is how real numbers are encoded, and there are none. -/
theorem C88_bool_cast_violated :
    let prog : List Stm := [.assign 2 (.cast .bool (.var 1))]
    let ρ : Nat → Int := fun i => if i = 1 then 256 else 0
    let l : List Local := [.var 1, .tmp 0, .var 2]
    let s := sampleState [(985, 1)]
    (∃ ρ', exec sampleTypes ρ prog = some ρ' ∧ ρ' 2 = 1) ∧ Stores (allocate 0 l) sampleTypes s.m 1 256 ∧
      ∃ n st c t g, lowerAll sampleTypes prog 0 = some ((), n, st) ∧ code (allocate 0 l) st = some c ∧ run (fun _ _ => []) (s, none) c = some (t, g) ∧
        Stores (allocate 0 l) sampleTypes t.m 2 0 := by
  refine ⟨⟨_, rfl, by decide +kernel⟩, by unfold Stores; decide +kernel, ?_⟩
  exact ⟨_, _, _, _, _, rfl, rfl, rfl, by unfold Stores; decide +kernel⟩

end Verif.Expr
