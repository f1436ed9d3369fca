import Verif.Call.Lower
import Verif.Call.Unique

/-!
# C77: every call in an expression is made once, with its own arguments

Statements of integers whose expressions have calls, nested in each other, in operands, in arguments and on both sides of commas.  `exec` is
what C says, with functions `F` that are arbitrary: what they are called with, and in which order, is what their world `w` can depend on.
`lowerAll` is the parser, and `Runs` is what the back end makes of its statements: a call takes all parameters that have been pushed.
-/

namespace Verif.Call

open Verif.Types.Spec (Basic)
open Verif.Fold (tyOf)
open Verif.Fold.Spec (conv fits)
open Verif.Expr (IVar Env)

variable {S : Type}

/-- The parser outside of any call: no argument list is in use, and none has something in it. -/
def PS.Outside (p : PS) : Prop := p.depth = 0 ∧ ∀ l ∈ p.lists, l = []

theorem PS.Outside.clean {p : PS} (h : p.Outside) : Clean p := by
  refine ⟨by rw [h.1]; exact Nat.zero_le _, fun i _ => ?_⟩
  rw [List.getD_eq_getElem?_getD]
  cases e : p.lists[i]? with
  | none => rfl
  | some l => exact h.2 l (List.mem_of_getElem? e)

theorem Clean.outside {p : PS} (h : Clean p) (hd : p.depth = 0) : p.Outside := by
  refine ⟨hd, fun l hl => ?_⟩
  obtain ⟨i, hi, rfl⟩ := List.getElem_of_mem hl
  have := h.rest i (by omega)
  rw [List.getD_eq_getElem?_getD, List.getElem?_eq_getElem hi] at this
  exact this

/-- For every program that C gives a meaning, with functions that are named where they are called: the parser accepts it, and its statements can be
executed in one way only; this ends with the variables and the world that C says, so that every call has been made, once and in order, with its
arguments converted to the types of the parameters or promoted, and its result has been used.  No parameter is left over, and no argument list.

Missing: a function that is the result of another call (see `C77_called_result_violated`); arguments and results that are no integers;
functions that change the variables; operators that branch, and assignments, within expressions. -/
theorem C77_calls_partial {W : Decls} {F : Functions S} {N : Nat} (hW : W.Good) {prog : List Stm} {σ : Env} {fns : Nat → Option Nat} {ρ : Nat → Int}
    {w w' : S} {p : PS} (hp : p.Outside) (hf : ∀ i < N, fits (W.vars i) (σ.vars i)) (ho : ∀ t ∈ prog, t.Ok N)
    (h : exec W F σ.vars prog w = some (ρ, w')) :
    ∃ p' st s', lowerAll W prog p = some ((), p', st) ∧ Runs W F N p'.n ⟨σ, fns, [], w⟩ st s' ∧
      (∀ s'', Runs W F N p'.n ⟨σ, fns, [], w⟩ st s'' → s'' = s') ∧ s'.σ.vars = ρ ∧ s'.w = w' ∧ s'.pending = [] ∧ p'.Outside := by
  obtain ⟨_, p', st, s', e, _, hr, hb, hd⟩ := lowerAll_sound (s := ⟨σ, fns, [], w⟩) hW hf hp.clean rfl ho h
  exact ⟨p', st, s', e, hr, fun _ g => (hr.unique g).symm, hb.vars, hb.idle.w, hb.idle.pending, hb.clean.outside (hd.trans hp.1)⟩

/-! ## Examples -/

/-- Functions that write down how they have been called, and return the sum of their arguments; but number 1 returns number 0. -/
def logging : Functions (List (Nat × List (Basic × Int))) := fun f xs w =>
  some (if f = 1 then .fn 0 else .int ((xs.map Prod.snd).sum), w ++ [(f, xs)])

/-- `char v0; int v1;`, `int f0(int);`, `int (*f1(int))(int);`, `short f2(unsigned char, ...);` -/
def declared : Decls where
  vars := fun i => if i = 0 then .char else .int
  sig := fun k => if k = 0 then ⟨.int .int, [.int], false⟩ else if k = 1 then ⟨.fn 0, [.int], false⟩ else ⟨.int .short, [.uchar], true⟩
  type := id

theorem declared_good : declared.Good := by
  constructor
  · intro k b hb
    simp only [declared] at hb
    split_ifs at hb <;> simp at hb <;> subst hb <;> rfl
  · intro k b hb
    simp only [declared] at hb
    split_ifs at hb <;> simp at hb <;> subst hb <;> rfl

/-- `v1 = f0(1) - f2(f0(300), v0, (f0(2), !f0(3)));` -/
def nested : Stm :=
  .assign 1 (.bin .sub (.call (.name 0) (.cons (.const .int 1) .nil))
    (.call (.name 2) (.cons (.call (.name 0) (.cons (.const .int 300) .nil)) (.cons (.var 0)
      (.cons (.comma (.call (.name 0) (.cons (.const .int 2) .nil)) (.lnot (.call (.name 0) (.cons (.const .int 3) .nil)))) .nil)))))

/-- What C says about it, where `v0` is 5: 300 becomes 44, and `v0` an `int`. -/
example : ((exec declared logging (fun i => if i = 0 then 5 else 0) [nested] []).map fun r => (r.1 1, r.2)) =
    some (-48, [(0, [(.int, 1)]), (0, [(.int, 300)]), (0, [(.int, 2)]), (0, [(.int, 3)]), (2, [(.uchar, 44), (.int, 5), (.int, 0)])]) := by
  decide +kernel

/-- The hypotheses can be met. -/
example : ∃ p' st s', lowerAll declared [nested] ⟨0, [], 0⟩ = some ((), p', st) ∧
    Runs declared logging 2 p'.n ⟨⟨fun i => if i = 0 then 5 else 0, fun _ => none⟩, fun _ => none, [], []⟩ st s' ∧ s'.σ.vars 1 = -48 := by
  have hx : ∃ ρ w, exec declared logging (fun i => if i = 0 then 5 else 0) [nested] [] = some (ρ, w) ∧ ρ 1 = -48 := by
    cases h : exec declared logging (fun i => if i = 0 then 5 else 0) [nested] [] with
    | none =>
      have : (exec declared logging (fun i => if i = 0 then 5 else 0) [nested] []).isSome = true := by decide +kernel
      rw [h] at this
      cases this
    | some r =>
      have : (exec declared logging (fun i => if i = 0 then 5 else 0) [nested] []).map (fun r => r.1 1) = some (-48) := by decide +kernel
      rw [h] at this
      exact ⟨r.1, r.2, rfl, Option.some.inj this⟩
  obtain ⟨ρ, w, h, h48⟩ := hx
  obtain ⟨p', st, s', h1, h2, _, h3, _⟩ := C77_calls_partial (N := 2) (σ := ⟨fun i => if i = 0 then 5 else 0, fun _ => none⟩) (fns := fun _ => none)
    (p := ⟨0, [], 0⟩) declared_good ⟨rfl, by simp⟩ (by
      intro i hi
      rcases (show i = 0 ∨ i = 1 by omega) with rfl | rfl
      · exact ⟨_, _, rfl, by decide⟩
      · exact ⟨_, _, rfl, by decide⟩) (by
      intro t ht
      simp only [List.mem_singleton] at ht
      subst ht
      simp only [nested, Stm.Ok, CE.Ok, Args.Ok, CE.isCall]
      have int : ∀ n : Int, 0 ≤ n → n < 1000 → fits .int n := fun n h1 h2 => ⟨_, _, rfl, by omega, by omega⟩
      simp [int]) h
  exact ⟨p', st, s', h1, h2, by rw [h3]; exact h48⟩

/-! ## What goes wrong -/

/-- `v1 = f1(2)(1);` -/
def twice : Stm := .assign 1 (.call (.call (.name 1) (.cons (.const .int 2) .nil)) (.cons (.const .int 1) .nil))

/-- The result of a call is called: C says that `f1` has 2 and the function it returns has 1.  But the parameters of the second call are pushed before
the first is made: `f1` has both, and the second has none. -/
theorem C77_called_result_violated :
    (exec declared logging (fun _ => 0) [twice] []).map Prod.snd = some [(1, [(.int, 2)]), (0, [(.int, 1)])] ∧
    ∃ p' st, lowerAll declared [twice] ⟨0, [], 0⟩ = some ((), p', st) ∧
      (∃ s', Runs declared logging 2 p'.n ⟨⟨fun _ => 0, fun _ => none⟩, fun _ => none, [], []⟩ st s') ∧
      ∀ s', Runs declared logging 2 p'.n ⟨⟨fun _ => 0, fun _ => none⟩, fun _ => none, [], []⟩ st s' → s'.w = [(1, [(.int, 2), (.int, 1)]), (0, [])] := by
  have run : ∃ s', Runs declared logging 2 1 ⟨⟨fun _ => 0, fun _ => none⟩, fun _ => none, [], []⟩
      [.param (.imm ⟨tyOf .int {}, BitVec.ofInt 64 2⟩), .param (.imm ⟨tyOf .int {}, BitVec.ofInt 64 1⟩), .call (.fn 0) (.name 1),
        .call (.var (.obj 1 (tyOf (declared.vars 1) {}))) (.tmp 0 0)] s' ∧ s'.w = [(1, [(.int, 2), (.int, 1)]), (0, [])] := by
    refine ⟨_, .param (.param (.call (f := 1) rfl (xs := [(.int, 2), (.int, 1)])
      (.cons ⟨rfl, ⟨_, _, rfl, by decide⟩, rfl⟩ (.cons ⟨rfl, ⟨_, _, rfl, by decide⟩, rfl⟩ .nil)) rfl rfl (.fn (by decide))
      (.call (f := 0) ⟨by decide, rfl, rfl⟩ (xs := []) .nil rfl rfl (.obj (by decide)) .nil))), ?_⟩
    rfl
  obtain ⟨s', hr, hw⟩ := run
  refine ⟨by decide +kernel, ⟨1, [[]], 0⟩, _, ?_, ⟨s', hr⟩, fun s'' g => ?_⟩
  · decide +kernel
  · rw [← hr.unique g]
    exact hw

end Verif.Call
