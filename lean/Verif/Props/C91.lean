import Verif.Ptr.AcceptLemmas
import Verif.Props.C90

/-!
# C91: code for pointers, array elements and members does at run time what C says

Source, meaning and front end are those of C90.  `code` is what the back end makes of the statements of the front end
(src/backend/x86_64/compile.c), for any placement of variables and temporaries that is as `Fits` asks; `Expr.run` runs
instructions on a machine with registers and a memory of bytes.

Not covered, so the names end in `_partial`: what C90 does not cover; copies of structures (C40); offsets of 2 GB and more and
constant addresses, which the compiler does not accept; position independent code.  `C91_address_cast_violated` is a program that
is correct and stops the compiler.
-/

namespace Verif.Ptr

open Verif.Abi (Place BP BX R12 R13 R14 R15)
open Verif.Conv (CM)
open Verif.Expr (Layout home Apart)
open Verif.Compare (Flags)

/-- Statements: the code exists if the back end accepts them, and gives the objects in memory what C says, without changing
anything that is no object, no temporary and no scratch register. -/
theorem C91_program_partial {W : World} (hW : W.Good) {p : List Stm} (ok : ∀ s ∈ p, s.Ok) {mem mem' : Mem} (h : exec W mem p = some mem') :
    ∃ n st, lowerAll W.toDecls p 0 = some ((), n, st) ∧
      ((∀ q ∈ st, q.Accepted W.toDecls) → ∀ (L : Layout) (s : CM) (f : Option Flags) (enc), Fits L W n (s.m.reg BP) → s.skip = none → Holds W s.m mem →
        ∃ c, code W.toDecls L st = some c ∧ ∃ t g, Expr.run enc (s, f) c = some (t, g) ∧ Holds W t.m mem' ∧ Untouched L W n (s.m.reg BP) s t) := by
  obtain ⟨_, n, st, σ, h1, _, ⟨h2, hs⟩, h3⟩ := lowerAll_sound hW ok (σ := ⟨mem, fun _ => none⟩) (n := 0) h
  refine ⟨n, st, h1, ?_⟩
  intro ha L s f enc hL hk hm
  have plain : ∀ {st : List PStmt} {σ σ' : Env}, (∀ q ∈ st, q.Shape W n) → (∀ q ∈ st, q.Accepted W.toDecls) → execs W σ st = some σ' →
      ∀ q ∈ st, q.Plain W.toDecls n := by
    intro st
    induction st with
    | nil => intro _ _ _ _ _ q hq; cases hq
    | cons q r ih =>
      intro σ σ' hs ha h q' hq
      simp only [execs, Option.bind_eq_some_iff] at h
      obtain ⟨σ1, e1, e2⟩ := h
      rcases List.mem_cons.mp hq with rfl | hq
      · exact plain_of (hs _ (List.mem_cons_self ..)) (ha _ (List.mem_cons_self ..)) e1
      · exact ih (fun q hq => hs q (List.mem_cons_of_mem _ hq)) (fun q hq => ha q (List.mem_cons_of_mem _ hq)) e2 q' hq
  obtain ⟨c, g1, t, g, g2, I, u⟩ := execs_ok enc hW hL f (plain hs ha h2) h2 ⟨rfl, hk, hm, fun _ _ _ _ e => by cases e⟩
  exact ⟨c, g1, t, g, g2, by have := I.mem; rw [h3] at this; exact this, u⟩

/-- The back end accepts nothing else: no structures are copied, offsets are less than 2 GB, nothing at a constant address is used, and
no address of a variable is cast to something shorter than 8 bytes. -/
theorem C91_accepted_partial {W : World} {L : Layout} : ∀ {st : List PStmt} {c}, code W.toDecls L st = some c → ∀ q ∈ st, q.Accepted W.toDecls
  | [], _, _, _, hq => by cases hq
  | s :: r, c, h, q, hq => by
    simp only [code, Option.bind_eq_bind, Option.bind_eq_some_iff] at h
    obtain ⟨a, h1, b, h2, -⟩ := h
    rcases List.mem_cons.mp hq with rfl | hq
    · exact accepted_of h1
    · exact C91_accepted_partial h2 q hq

/-! ### The program of C90, without the structure that is copied -/

def linkedProgram : List Stm := nodesProgram.eraseIdx 7

/-- Variables are at fixed addresses; five temporaries have registers, and the others are in the frame. -/
def linked : Layout where
  var i := .global (nodes.addr i)
  tmp k := match k with
    | 0 => .temp BX
    | 1 => .temp R12
    | 2 => .temp R13
    | 3 => .temp R14
    | 4 => .temp R15
    | k => .frame (-8 * k)

def linkedStart : CM := ⟨⟨fun r => if r = BP then 65536 else 0, fun _ => 0⟩, fun _ => none, [], 0x37f, false, false, none⟩

theorem linked_fits (n : Nat) (hn : n < 100) : Fits linked nodes n (linkedStart.m.reg BP) := by
  have hb : linkedStart.m.reg BP = 65536 := rfl
  have split : ∀ k, (∃ r, linked.tmp k = .temp r ∧ Abi.isTempInt r) ∨ 5 ≤ k ∧ linked.tmp k = .frame (-8 * k) := by
    intro k
    match k with
    | 0 | 1 | 2 | 3 | 4 => exact .inl ⟨_, rfl, by decide⟩
    | k + 5 => exact .inr ⟨by omega, rfl⟩
  have fr : ∀ {k o}, linked.tmp k = .frame o → o = -8 * k := by
    intro k o h
    rcases split k with ⟨r, e, _⟩ | ⟨_, e⟩
    · rw [e] at h; cases h
    · rw [e] at h; cases h; rfl
  rw [hb]
  refine ⟨fun i => ⟨fun r e => (by cases e), rfl⟩, ?_, ?_, ?_, ?_⟩
  · intro k _
    rcases split k with h | ⟨_, h⟩
    · exact .inl h
    · exact .inr ⟨_, h⟩
  · intro k hk k' hk' r h h'
    have small : ∀ {k}, linked.tmp k = .temp r → k < 5 := by
      intro k h
      by_contra hc
      rcases split k with ⟨r', e, _⟩ | ⟨_, e⟩
      · match k with
        | 0 | 1 | 2 | 3 | 4 => omega
        | k + 5 => cases e
      · rw [e] at h; cases h
    have a := small h
    have b := small h'
    interval_cases k <;> interval_cases k' <;> first | rfl | (rw [← h'] at h; simp [linked] at h; done) | (exfalso; revert h h'; simp only [linked, Place.temp.injEq]; rintro rfl h; revert h; decide)
  · intro k _ k' _ o o' hne h h'
    have := fr h
    have := fr h'
    unfold Apart
    omega
  · intro k _ o h j hj
    have := fr h
    simp only [nodes, Bool.and_eq_false_iff, decide_eq_false_iff_not]
    omega

theorem linked_ok : ∀ s ∈ linkedProgram, s.Ok := fun s hs => nodes_ok s (List.mem_of_mem_eraseIdx hs)

theorem linked_run : (exec nodes zeroed linkedProgram).map nodesAfter =
    some [some 10, some (-6), some (-7), some 1, some 0, some 2, some 0, some (4096 + 16)] := by decide +kernel

/-- The hypotheses hold for that program, and so its code leaves behind what it should. -/
example (enc) : ∃ n st, lowerAll nodes.toDecls linkedProgram 0 = some ((), n, st) ∧ ∃ c, code nodes.toDecls linked st = some c ∧
    ∃ t g, Expr.run enc (linkedStart, none) c = some (t, g) ∧ ∃ mem, Holds nodes t.m mem ∧
      nodesAfter mem = [some 10, some (-6), some (-7), some 1, some 0, some 2, some 0, some (4096 + 16)] := by
  obtain ⟨mem', h1, h2⟩ := Option.map_eq_some_iff.mp linked_run
  obtain ⟨n, st, e, g⟩ := C91_program_partial nodes_good linked_ok h1
  have hn : n = 14 := by
    have e' : (lowerAll nodes.toDecls linkedProgram 0).map (·.2.1) = some 14 := by decide +kernel
    rw [e] at e'
    simpa using e'
  have ha : (code nodes.toDecls linked st).isSome := by
    have e' : (lowerAll nodes.toDecls linkedProgram 0).map (fun x => (code nodes.toDecls linked x.2.2).isSome) = some true := by decide +kernel
    rw [e] at e'
    simpa using e'
  obtain ⟨c, hc⟩ := Option.isSome_iff_exists.mp ha
  obtain ⟨c, g1, t, f, g2, hm, _⟩ := g (C91_accepted_partial hc) linked linkedStart none enc (linked_fits n (by omega)) rfl (fun _ _ => rfl)
  exact ⟨n, st, e, c, g1, t, f, g2, mem', hm, h2⟩

/-! ### An address that is made shorter -/

/-- `i = (int) (long) &x;`: C says that `i` is the address, 4096, and the front end makes a statement of it.  There is no code for it,
wherever things are: `load_int` asserts that an address has 8 bytes (compile.c:700), and the compiler stops. -/
theorem C91_address_cast_violated :
    let p : List Stm := [.assign (.var 2) (.cast (.int .int) (.cast (.int .long) (.addr (.var 0))))]
    (∀ s ∈ p, s.Ok) ∧ (exec nodes zeroed p).map (fun m => scalar nodes m (.int .int) (nodes.addr 2)) = some (some 4096) ∧
      ∃ n st, lowerAll nodes.toDecls p 0 = some ((), n, st) ∧ ∀ L : Layout, code nodes.toDecls L st = none := by
  refine ⟨?_, by decide +kernel, _, _, rfl, ?_⟩
  · intro s hs
    rw [List.mem_singleton] at hs
    subst hs
    simp only [Stm.Ok, E.Ok, CTy.Ok]
    and_intros <;> first | exact trivial | exact rfl | (intro h; cases h)
  · intro L
    rw [Option.eq_none_iff_forall_ne_some]
    intro c h
    have := C91_accepted_partial h _ (List.mem_singleton_self _)
    rcases this.2.2.2 with e | e
    · cases e
    · cases e _ _ _ rfl

end Verif.Ptr
