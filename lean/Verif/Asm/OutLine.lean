import Verif.Asm.OutCheck

/-! The printed line is read as the instruction. -/

namespace Verif.Asm.Printed

open Gas
open Att (Arg Form)
open Encode
open Encode.Intel (Ins)

/-! ## Operands -/

structure OpText (syms : Bytes → Option Nat) (t : Bytes) (a : Arg) (r : Option Ref) : Prop where
  head : ∃ c s, t = c :: s ∧ isBlank c = false
  solid : Solid 0 t
  read : readOperand syms t = some (a, r)

theorem cons_inert {c : UInt8} {s : Bytes} (hc : inertC c = true) (h : s.all inertC = true) : Inert (c :: s) := by
  intro x hx
  rcases List.mem_cons.mp hx with rfl | hx
  · exact hc
  · exact List.all_eq_true.mp h x hx

theorem op_reg {syms : Bytes → Option Nat} {s : Bytes} {a : Arg} (h : readReg (chr% '%' :: s) = some a)
    (hs : s.all inertC = true) : OpText syms (chr% '%' :: s) a none :=
  ⟨⟨_, _, rfl, by decide⟩, (cons_inert (by decide) hs).solid,
    by rw [readOperand, if_pos rfl, h]; rfl⟩

theorem op_gpr (syms : Bytes → Option Nat) {w r : Nat} (hr : r ∈ gprs) (hw : w ∈ widths) :
    ∃ t, regname w r = some t ∧ OpText syms t (.gpr (r - 1) w) none := by
  obtain ⟨s, h1, h2, h3, _⟩ := gprText r hr w hw
  exact ⟨_, h1, op_reg h2 h3⟩

theorem op_xmm (syms : Bytes → Option Nat) {r : Nat} (w : Nat) (hr : r ∈ xmms) :
    ∃ t, regname w r = some t ∧ OpText syms t (.xmm (r - 17)) none := by
  obtain ⟨s, h1, h2, h3, _⟩ := xmmText r hr w
  exact ⟨_, h1, op_reg h2 h3⟩

theorem op_star (syms : Bytes → Option Nat) {w r : Nat} (hr : r ∈ gprs) (hw : w ∈ widths) :
    ∃ t, regname w r = some t ∧ OpText syms (chr% '*' :: t) (.gpr (r - 1) w) none := by
  obtain ⟨s, h1, h2, h3, _⟩ := gprText r hr w hw
  refine ⟨_, h1, ⟨_, _, rfl, by decide⟩, ?_, ?_⟩
  · exact Inert.solid (cons_inert (by decide) (by rw [List.all_cons, h3]; decide))
  · rw [readOperand, if_neg (by decide), if_pos rfl, h2]; rfl

theorem op_imm (syms : Bytes → Option Nat) (name : Nat → Bytes) (w : Nat) (q : Int) :
    ∃ t, immText name ⟨w, .int q⟩ = some t ∧ OpText syms t (.imm (stored w q)) none := by
  refine ⟨_, rfl, ⟨_, _, rfl, by decide⟩, ?_, ?_⟩
  · exact Inert.solid ((show Inert (str% "$") by unfold Inert; decide).append (intText_inert _))
  · show readOperand syms (chr% '$' :: intText (stored w q)) = _
    rw [readOperand, if_neg (by decide), if_neg (by decide), if_pos rfl, readInt_text]; rfl

theorem starts_plain : ∀ c, starts c = true →
    isBlank c = false ∧ c ≠ chr% '%' ∧ c ≠ chr% '*' ∧ c ≠ chr% '$' := by
  apply forall_byte; decide +kernel

theorem op_addr {syms : Bytes → Option Nat} {name : Nat → Bytes} {a : Addr} (h : Written syms name a) :
    ∃ t, addressText name a = some t ∧ OpText syms t (.mem (memOf a) (refOf a)) (refOf a) := by
  obtain ⟨c, r, h1, h2, h3, h4⟩ := address_text h
  obtain ⟨b1, b2, b3, b4⟩ := starts_plain c h2
  exact ⟨_, h1, ⟨_, _, rfl, b1⟩, h3, by rw [readOperand, if_neg b2, if_neg b3, if_neg b4, h4]⟩

/-- The place of a jump or call that can be written. -/
def Place (syms : Bytes → Option Nat) (name : Nat → Bytes) (a : Addr) : Prop :=
  ∃ t s, a.sym = some (t, s) ∧ Named syms name s ∧ IntRange a.disp ∧ (t = .normal ∨ a.disp = 0)
    ∧ a.base = 0 ∧ a.index = 0 ∧ a.scale = 0

theorem op_place {syms : Bytes → Option Nat} {name : Nat → Bytes} {a : Addr} (h : Place syms name a) (w : Nat) :
    ∃ t l, immText name ⟨w, .addr a⟩ = some t ∧ OpText syms t (.target l) (refOf a) := by
  obtain ⟨t, s, hs, hn, hd, ht, hb, hi, hsc⟩ := h
  obtain ⟨c, r, h1, h2, h3, h4, h5⟩ := symbol_text hs hn hd ht
  obtain ⟨b1, b2, b3, b4⟩ := starts_plain c (by unfold starts; rw [h2]; rfl)
  refine ⟨c :: r, s, ?_, ⟨_, _, rfl, b1⟩, h3.solid, ?_⟩
  · have hr : regsText a = some [] := by unfold regsText; rw [hb, hi, hsc]; rfl
    unfold immText
    simp only [hs, Option.isSome_some, if_true]
    unfold addressText
    rw [h1, hr, Option.bind_some, Option.bind_some, List.append_nil, if_pos (by omega)]
  · rw [readOperand, if_neg b2, if_neg b3, if_neg b4]
    unfold readAddress
    rw [parens_bare h3, Option.bind_some]
    simp only
    rw [if_neg (by show ¬ (Gas.isDigit c || c == chr% '-') = true; rw [letter_ne c h2]; decide), h5]
    simp only [Option.map_some, refOf, hs]

/-! ## Lines -/

theorem skip_cons {c : UInt8} {t : Bytes} (h : isBlank c = false) : Gas.skip (c :: t) = c :: t := by
  unfold Gas.skip; rw [List.dropWhile_cons, if_neg (by simp [h])]

theorem skip_tab {t : Bytes} : Gas.skip (str% "\t" ++ t) = Gas.skip t := rfl

theorem operands_one {syms t a r} (h : OpText syms t a r) : operands t = [t] := by
  obtain ⟨c, s, hc, hb⟩ := h.head
  unfold operands
  have := h.solid []
  rw [List.append_nil] at this
  rw [if_neg (by rw [hc]; simp), this]
  show [Gas.skip (t ++ [])] = [t]
  rw [List.append_nil, hc, skip_cons hb]

theorem operands_two {syms t a r t' a' r'} (h : OpText syms t a r) (h' : OpText syms t' a' r') :
    operands (t ++ (str% ", " ++ t')) = [t, t'] := by
  obtain ⟨c, s, hc, hb⟩ := h.head
  obtain ⟨c', s', hc', hb'⟩ := h'.head
  unfold operands
  have h2 : Solid 0 (str% " " ++ t') := Solid.append (by
    intro rest
    show splitArgs 0 (chr% ' ' :: rest) = _
    rw [splitArgs, if_neg (by decide), if_neg (by decide), if_neg (by decide), onto_glue _ (splitArgs_ne _ _)]) h'.solid
  have h3 := h2 []
  rw [List.append_nil] at h3
  rw [if_neg (by rw [hc]; simp), h.solid,
    show splitArgs 0 (str% ", " ++ t') = [] :: splitArgs 0 (str% " " ++ t') from rfl, h3]
  show [Gas.skip (t ++ []), Gas.skip (str% " " ++ t' ++ [])] = [t, t']
  rw [List.append_nil, List.append_nil, show Gas.skip (str% " " ++ t') = Gas.skip t' from rfl, hc, hc', skip_cons hb,
    skip_cons hb']

theorem word_blank : ∀ c, isWord c = true → isBlank c = false := by
  apply forall_byte; decide +kernel

/-- The mnemonic. -/
theorem split_line {m o : Bytes} (hw : ∀ c ∈ m, isWord c = true) (hm : m ≠ []) (hr : m ≠ str% "rep")
    (ho : o = [] ∨ ∃ t, o = chr% '\t' :: t) :
    splitLine (str% "\t" ++ (m ++ o)) = (false, m, operands (Gas.skip o)) := by
  have h1 : Gas.skip (str% "\t" ++ (m ++ o)) = m ++ o := by
    cases m with
    | nil => exact absurd rfl hm
    | cons c m => rw [skip_tab, List.cons_append, skip_cons (word_blank c (hw c (by simp)))]
  have h2 := takeWhile_stop hw (b := o) (by
    rcases ho with rfl | ⟨t, rfl⟩
    · exact .inl rfl
    · exact .inr ⟨_, _, rfl, by decide⟩)
  unfold splitLine
  rw [h1]
  simp only [h2.1, h2.2]
  rw [if_neg hr]

theorem line_end {syms : Bytes → Option Nat} {t : Bytes} :
    instruction syms (t ++ str% "\n") = (readAll syms (splitLine t).2.2).bind fun args =>
      (Gas.meaning (splitLine t).2.1 (args.map (·.1))).bind fun ins =>
        (repeated (splitLine t).1 ins).map fun ins => (ins, args.findSome? (·.2)) := by
  unfold instruction
  rw [if_pos (by simp), List.dropLast_append_of_ne_nil (by simp)]
  simp

theorem line_ok {syms : Bytes → Option Nat} {m o : Bytes} {f : Form} {args : List (Arg × Option Ref)} {ins : Ins}
    (hw : ∀ c ∈ m, isWord c = true) (hm : m ≠ []) (hr : m ≠ str% "rep") (hz : m ≠ str% "fldz")
    (hl : Att.lookup m = some f) (ho : o = [] ∨ ∃ t, o = chr% '\t' :: t)
    (ha : readAll syms (operands (Gas.skip o)) = some args) (hi : Att.meaning f (args.map (·.1)) = some ins) :
    instruction syms (str% "\t" ++ ([] ++ (m ++ (o ++ str% "\n")))) = some (ins, args.findSome? (·.2)) := by
  rw [show str% "\t" ++ ([] ++ (m ++ (o ++ str% "\n"))) = (str% "\t" ++ (m ++ o)) ++ str% "\n" by simp,
    line_end, split_line hw hm hr ho]
  simp only [ha, Option.bind_some]
  unfold Gas.meaning Att.att
  rw [if_neg (fun h => hz h.1), hl, Option.bind_some, hi, Option.bind_some]
  rfl

/-- What is printed and how it is read. -/
def Reads (syms : Bytes → Option Nat) (name : Nat → Bytes) (i : Instr) : Prop :=
  ∃ t ins, asmText name i = some t ∧ Encode.meaning i = some ins ∧ instruction syms t = some (ins, i.ref)

theorem reads_one {syms : Bytes → Option Nat} {name : Nat → Bytes} {op cc : Nat} {o : Ops} {f : Form} {t : Bytes} {a : Arg}
    {r : Option Ref} {ins : Ins} (hs : spoken ⟨op, cc, 0, o⟩ f = true)
    (ho : opsText name ⟨op, cc, 0, o⟩ = some (str% "\t" ++ t)) (ht : OpText syms t a r)
    (hi : Att.meaning f [a] = some ins) (hm : Encode.meaning ⟨op, cc, 0, o⟩ = some ins)
    (hr : (⟨op, cc, 0, o⟩ : Instr).ref = r) : Reads syms name ⟨op, cc, 0, o⟩ := by
  obtain ⟨m, h1, h2, h3, h4, h5, h6⟩ := spoken_text hs
  obtain ⟨c, s, hc, hb⟩ := ht.head
  refine ⟨_, ins, by unfold asmText; rw [h1, ho]; rfl, hm, ?_⟩
  refine (line_ok (o := str% "\t" ++ t) h2 h3 h4 h5 h6 (.inr ⟨t, rfl⟩) (args := [(a, r)]) ?_ hi).trans ?_
  · rw [skip_tab, hc, skip_cons hb, ← hc, operands_one ht]
    simp only [readAll, ht.read, Option.bind_some, Option.map_some]
  · rw [hr]; cases r <;> rfl

theorem reads_two {syms : Bytes → Option Nat} {name : Nat → Bytes} {op cc : Nat} {o : Ops} {f : Form} {t t' : Bytes} {a a' : Arg}
    {r r' : Option Ref} {ins : Ins} (hs : spoken ⟨op, cc, 0, o⟩ f = true)
    (ho : opsText name ⟨op, cc, 0, o⟩ = some (str% "\t" ++ (t ++ (str% ", " ++ t'))))
    (ht : OpText syms t a r) (ht' : OpText syms t' a' r')
    (hi : Att.meaning f [a, a'] = some ins) (hm : Encode.meaning ⟨op, cc, 0, o⟩ = some ins)
    (hr : (⟨op, cc, 0, o⟩ : Instr).ref = r.or r') : Reads syms name ⟨op, cc, 0, o⟩ := by
  obtain ⟨m, h1, h2, h3, h4, h5, h6⟩ := spoken_text hs
  obtain ⟨c, s, hc, hb⟩ := ht.head
  refine ⟨_, ins, by unfold asmText; rw [h1, ho]; rfl, hm, ?_⟩
  refine (line_ok (o := str% "\t" ++ (t ++ (str% ", " ++ t'))) h2 h3 h4 h5 h6 (.inr ⟨_, rfl⟩)
    (args := [(a, r), (a', r')]) ?_ hi).trans ?_
  · rw [skip_tab, hc, List.cons_append, skip_cons hb, ← List.cons_append, ← hc, operands_two ht ht']
    simp only [readAll, ht.read, ht'.read, Option.bind_some, Option.map_some]
  · rw [hr]; cases r <;> cases r' <;> rfl

theorem reads_none {syms : Bytes → Option Nat} {name : Nat → Bytes} {op cc w : Nat} {f : Form} {ins : Ins}
    (hs : spoken ⟨op, cc, 0, .none w⟩ f = true) (hi : Att.meaning f [] = some ins)
    (hm : Encode.meaning ⟨op, cc, 0, .none w⟩ = some ins) : Reads syms name ⟨op, cc, 0, .none w⟩ := by
  obtain ⟨m, h1, h2, h3, h4, h5, h6⟩ := spoken_text hs
  refine ⟨_, ins, by unfold asmText; rw [h1]; rfl, hm, ?_⟩
  exact line_ok (o := []) h2 h3 h4 h5 h6 (.inl rfl) (args := []) rfl hi

end Verif.Asm.Printed
