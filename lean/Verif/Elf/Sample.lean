import Verif.Elf.Image

/-! A small translation unit, used in examples. -/

namespace Verif.Elf

open Encode

/-- `push %rbp`, `je 2`, `movl $7, x+4`, `call g`, `jmp 2`, `ret`. -/
def iPush : Instr := ⟨oPUSH, 0, 0, .reg 8 BP⟩
def iJe : Instr := ⟨oJcc, 4, 0, .imm ⟨8, .addr ⟨some (.normal, 2), 0, 0, 0, 0⟩⟩⟩
def iMov : Instr := ⟨oMOV, 0, 0, .immMem ⟨4, .int 7⟩ 4 ⟨some (.normal, 4), 4, 0, 0, 0⟩⟩
def iCall : Instr := ⟨oCALL, 0, 0, .imm ⟨8, .addr ⟨some (.plt, 3), 0, 0, 0, 0⟩⟩⟩
def iJmp : Instr := ⟨oJMP, 0, 0, .imm ⟨8, .addr ⟨some (.normal, 2), 0, 0, 0, 0⟩⟩⟩
def iRet : Instr := ⟨oRET, 0, 0, .none 0⟩

theorem iPush_good : Good iPush := ⟨rfl, .inr (.inl ⟨.inr (.inl rfl), rfl, rfl, by decide⟩)⟩
theorem iJe_good : Good iJe := ⟨rfl, rfl, .inr ⟨.inr ⟨rfl, by decide⟩, 2, rfl⟩⟩
theorem iMov_good : Good iMov := by
  refine ⟨rfl, ⟨(fun g => nomatch g), by decide, by decide⟩, by decide, rfl, rfl, by decide⟩
theorem iCall_good : Good iCall := ⟨rfl, rfl, .inl ⟨rfl, 3, .inr rfl⟩⟩
theorem iJmp_good : Good iJmp := ⟨rfl, rfl, .inr ⟨.inl rfl, 2, rfl⟩⟩
theorem iRet_good : Good iRet := .inr (.inl ⟨.inr (.inl rfl), rfl, rfl⟩)

def cPush : Code := ⟨[85], []⟩
def cJe : Code := ⟨[15, 132, 0, 0, 0, 0], [.label 2 2 (-4)]⟩
def cMov : Code := ⟨[199, 5, 0, 0, 0, 0, 7, 0, 0, 0], [.reloc 2 4 2 0]⟩
def cCall : Code := ⟨[232, 0, 0, 0, 0], [.reloc 4 3 1 0]⟩
def cJmp : Code := ⟨[233, 0, 0, 0, 0], [.label 2 1 (-4)]⟩
def cRet : Code := ⟨[195], []⟩

theorem coded : encode iPush = some cPush ∧ encode iJe = some cJe ∧ encode iMov = some cMov
    ∧ encode iCall = some cCall ∧ encode iJmp = some cJmp ∧ encode iRet = some cRet := by decide +kernel

def sF : Sym := ⟨1, [102], false, .func true⟩
def sL : Sym := ⟨2, [], true, .label⟩
def sG : Sym := ⟨3, [103], false, .func false⟩
def sX : Sym := ⟨4, [120], false, .object true 8 4⟩
def sD : Sym := ⟨5, [100], false, .data 16 8⟩
def sC : Sym := ⟨6, [99], true, .const [104, 105, 0] 16⟩

def sE : Sym := ⟨7, [101], false, .data 4 4⟩
def sB : Sym := ⟨8, [98], true, .object true 1 1⟩
def sB' : Sym := ⟨9, [99], true, .object true 8 8⟩

/-- A function, a string, an object with an initialiser `{ 1, &x + 4 }` and one with 9, two
static objects and a global one without, and a function that is called. -/
def sample : List Op :=
  [.symbol sF, .text cPush, .text cJe, .text cMov, .symbol sL, .text cCall, .text cJmp, .text cRet, .endFunction,
   .symbol sC, .symbol sD, .data (.bytes [1, 0, 0, 0, 0, 0, 0, 0]), .data (.addr 4 4), .symbol sE,
   .data (.bytes [9, 0, 0, 0]), .symbol sB, .symbol sB', .symbol sX, .symbol sG]

theorem split_at {α : Type} {l a b : List α} {x : α} (h : l = a ++ x :: b) :
    ∃ k, k < l.length ∧ a = l.take k ∧ l[k]? = some x ∧ b = l.drop (k + 1) := by
  refine ⟨a.length, by rw [h]; simp, by rw [h]; simp, by rw [h]; simp, by rw [h]; simp⟩

theorem sample_calls : Calls sample := by
  constructor
  case ids => decide
  case names =>
    intro s hs
    simp only [sample, List.mem_cons, Op.symbol.injEq, reduceCtorEq, List.not_mem_nil, or_false, false_or] at hs
    rcases hs with rfl | rfl | rfl | rfl | rfl | rfl | rfl | rfl | rfl <;>
      exact ⟨by decide, by simp [alignOk, sF, sL, sG, sX, sD, sC, sE, sB, sB']⟩
  case labels =>
    intro a s b h hk
    obtain ⟨k, h1, h2, h3, h4⟩ := split_at h
    have hl : sample.length = 19 := rfl
    rw [hl] at h1
    subst h2
    interval_cases k <;> simp only [sample, List.getElem?_cons_zero, List.getElem?_cons_succ, Option.some.injEq,
      Op.symbol.injEq, reduceCtorEq] at h3 <;> subst h3 <;> first | decide | (cases hk)
  case code =>
    intro a c b h
    obtain ⟨e1, e2, e3, e4, e5, e6⟩ := coded
    obtain ⟨k, h1, h2, h3, h4⟩ := split_at h
    have hl : sample.length = 19 := rfl
    rw [hl] at h1
    subst h2
    have hno : ∀ i : Instr, i.ref = none → ∀ ty s disp, i.ref = some (ty, s, disp) → -2 ^ 32 < disp ∧ disp < 2 ^ 32
      ∧ (i.jumps = true → ∃ t, .symbol t ∈ sample ∧ t.kind = .label ∧ t.id = s)
      ∧ (i.jumps = false → ∃ t ∈ declared sample, t.id = s) := by
      intro i hi ty s disp q; rw [hi] at q; cases q
    interval_cases k <;> simp only [sample, List.getElem?_cons_zero, List.getElem?_cons_succ, Option.some.injEq,
      Op.text.injEq, reduceCtorEq] at h3 <;> subst h3 <;> refine ⟨by decide, ?_⟩
    · exact .inl ⟨rfl, by decide, by decide⟩
    · refine .inr ⟨iJe, iJe_good, e2, ?_⟩
      intro ty s disp q
      cases q
      exact ⟨by decide, by decide, fun _ => ⟨sL, by decide, rfl, rfl⟩, fun q => by cases q⟩
    · refine .inr ⟨iMov, iMov_good, e3, ?_⟩
      intro ty s disp q
      cases q
      exact ⟨by decide, by decide, (fun q => by cases q), fun _ => ⟨sX, by decide, rfl⟩⟩
    · refine .inr ⟨iCall, iCall_good, e4, ?_⟩
      intro ty s disp q
      cases q
      exact ⟨by decide, by decide, (fun q => by cases q), fun _ => ⟨sG, by decide, rfl⟩⟩
    · refine .inr ⟨iJmp, iJmp_good, e5, ?_⟩
      intro ty s disp q
      cases q
      exact ⟨by decide, by decide, fun _ => ⟨sL, by decide, rfl, rfl⟩, fun q => by cases q⟩
    · exact .inr ⟨iRet, iRet_good, e6, hno _ rfl⟩
  case ends =>
    intro a b h c hc l hl
    obtain ⟨k, h1, h2, h3, h4⟩ := split_at h
    have hlen : sample.length = 19 := rfl
    rw [hlen] at h1
    subst h2
    have : l = 2 := by
      have hc : .text c ∈ sample := List.mem_of_mem_take hc
      simp only [sample, List.mem_cons, Op.text.injEq, reduceCtorEq, List.not_mem_nil, or_false, false_or] at hc
      rcases hc with rfl | rfl | rfl | rfl | rfl | rfl <;> cases hl <;> rfl
    subst this
    interval_cases k <;> simp only [sample, List.getElem?_cons_zero, List.getElem?_cons_succ, Option.some.injEq,
      reduceCtorEq] at h3
    exact ⟨sL, by decide, rfl, rfl⟩
  case data =>
    intro s d h
    simp only [sample, List.mem_cons, Op.data.injEq, Datum.addr.injEq, reduceCtorEq, List.not_mem_nil, or_false, false_or] at h
    obtain ⟨rfl, rfl⟩ := h
    exact ⟨by decide, by decide, sX, by decide, rfl⟩

/-- The file for it. -/
def sampleFile : List Nat := (assemble [97, 46, 99] false false sample).getD []

theorem sample_file : assemble [97, 46, 99] false false sample = some sampleFile ∧ sampleFile.length < 2000 := by
  decide +kernel

theorem sample_compiled : Compiled [97, 46, 99] false false sample sampleFile :=
  ⟨sample_calls, sample_file.1, by have := sample_file.2; omega, by decide⟩

end Verif.Elf
