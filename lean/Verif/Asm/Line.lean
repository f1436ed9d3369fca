import Verif.Asm.LineLemmas

/-! Whole lines. -/

namespace Verif.Asm

open Att (Arg gprName xmmName Form)
open Encode.Intel (Mem Opnd Ins)
open Encode (Addr Imm ImmVal Ops Instr Enc memOf)

/-! ## Text has no zero byte and begins with no blank -/

/-- No zero, and nothing that means something to the reading of lines. -/
def inert (c : UInt8) : Bool :=
  c ≠ 0 && c ≠ chr% '"' && c ≠ chr% '\'' && c ≠ chr% '/' && c ≠ chr% '?' && c ≠ chr% '\\'

theorem class_zero : ∀ c : UInt8, (isSpace c = true → inert c = true) ∧ (isDigit c = true → inert c = true ∧ isSpace c = false)
    ∧ (identChar c = true → inert c = true ∧ isSpace c = false) ∧ (isAlnum c = true → inert c = true ∧ isSpace c = false) := by
  intro c; revert c; apply forall_byte; decide +kernel

abbrev NoZero (t : Bytes) : Prop := ∀ c ∈ t, inert c = true

theorem NoZero.append {a b : Bytes} (ha : NoZero a) (hb : NoZero b) : NoZero (a ++ b) := by
  intro c hc
  rw [List.mem_append] at hc
  exact hc.elim (ha c) (hb c)

theorem NoZero.cons {a : UInt8} {b : Bytes} (ha : inert a = true) (hb : NoZero b) : NoZero (a :: b) := by
  intro c hc
  rw [List.mem_cons] at hc
  rcases hc with rfl | hc
  · exact ha
  · exact hb c hc

theorem Blank.noZero {b : Bytes} (h : Blank b) : NoZero b := fun c hc => (class_zero c).1 (h c hc)
theorem digits_noZero {ds : Bytes} (h : ∀ c ∈ ds, isDigit c = true) : NoZero ds :=
  fun c hc => ((class_zero c).2.1 (h c hc)).1
theorem alnum_noZero {ds : Bytes} (h : ∀ c ∈ ds, isAlnum c = true) : NoZero ds :=
  fun c hc => ((class_zero c).2.2.2 (h c hc)).1

theorem gpr_alnum {k w : Nat} {s : Bytes} (h : gprName k w = some s) : ∀ c ∈ s, isAlnum c = true :=
  (asmRegs_facts _ (gprName_mem h)).1

theorem RegText.noZero {k : Nat} {t : Bytes} (h : RegText k t) : NoZero t := by
  obtain ⟨s, hs, rfl⟩ := h
  exact NoZero.append (by decide) (alnum_noZero (gpr_alnum hs))

theorem scale_noZero {s : Nat} {ds : Bytes} (hs : s ∈ [1, 2, 4, 8]) (hd : ds = [48 + UInt8.ofNat s]) : NoZero ds := by
  subst hd
  simp only [List.mem_cons, List.not_mem_nil, or_false] at hs
  rcases hs with rfl | rfl | rfl | rfl <;> decide

theorem InnerText.noZero {e : Env} {b : Option Nat} {i : Option (Nat × Nat)} {t : Bytes} (h : InnerText e b i t) : NoZero t := by
  cases h with
  | base h h1 h2 => exact h1.noZero.append (h.noZero.append (h2.noZero.append (by decide)))
  | operand _ _ _ hd _ _ h1 h2 =>
    exact h1.noZero.append ((NoZero.cons (by decide) (digits_noZero hd)).append (h2.noZero.append (by decide)))
  | index h h' h1 h2 h3 h4 =>
    exact h1.noZero.append (h.noZero.append (h2.noZero.append (NoZero.append (by decide)
      (h3.noZero.append (h'.noZero.append (h4.noZero.append (by decide)))))))
  | scale h h' hs hd h1 h2 h3 h4 h5 h6 =>
    exact h1.noZero.append (h.noZero.append (h2.noZero.append (NoZero.append (by decide)
      (h3.noZero.append (h'.noZero.append (h4.noZero.append (NoZero.append (by decide)
        (h5.noZero.append ((scale_noZero hs hd).append (h6.noZero.append (by decide)))))))))))
  | noBase h' hs hd h1 h3 h4 h5 h6 =>
    exact h1.noZero.append (NoZero.append (by decide)
      (h3.noZero.append (h'.noZero.append (h4.noZero.append (NoZero.append (by decide)
        (h5.noZero.append ((scale_noZero hs hd).append (h6.noZero.append (by decide)))))))))

theorem DispText.facts {d : Int} {t : Bytes} (h : DispText d t) : NoZero t ∧ t ≠ [] ∧ Not isSpace t := by
  cases h with
  | plain hn hd _ =>
    refine ⟨digits_noZero hd, hn, ?_⟩
    obtain ⟨c, r, rfl⟩ := List.exists_cons_of_ne_nil hn
    exact Not.cons ((class_zero c).2.1 (hd c (by simp))).2
  | plus hn hd _ => exact ⟨.cons (by decide) (digits_noZero hd), by simp, Not.cons (by decide)⟩
  | minus hn hd _ => exact ⟨.cons (by decide) (digits_noZero hd), by simp, Not.cons (by decide)⟩

theorem xmm_alnum {k : Nat} {s : Bytes} (h : xmmName k = some s) : ∀ c ∈ s, isAlnum c = true := by
  have : ∀ k : Fin 16, ∀ s ∈ xmmName k.val, ∀ c ∈ s, isAlnum c = true := by decide +kernel
  have hk : k < 16 := by
    unfold xmmName at h
    split_ifs at h <;> omega
  exact this ⟨k, hk⟩ s h

theorem Text.facts {e : Env} {n : Nat} {a : Arg} {t : Bytes} (h : Text e n a t) :
    NoZero t ∧ t ≠ [] ∧ Not isSpace t := by
  cases h with
  | gpr h => exact ⟨NoZero.append (by decide) (alnum_noZero (gpr_alnum h)), by simp, Not.cons (by decide)⟩
  | xmm h => exact ⟨NoZero.append (by decide) (alnum_noZero (xmm_alnum h)), by simp, Not.cons (by decide)⟩
  | imm h _ => exact ⟨.cons (by decide) (digits_noZero h.1), by simp, Not.cons (by decide)⟩
  | mem h => exact ⟨NoZero.append (by decide) h.noZero, by simp, Not.cons (by decide)⟩
  | @disp _ _ _ _ dt b h hb h' =>
    obtain ⟨h1, h2, h3⟩ := h.facts
    refine ⟨h1.append (hb.noZero.append (NoZero.append (by decide) h'.noZero)), by simp, ?_⟩
    obtain ⟨c, r, rfl⟩ := List.exists_cons_of_ne_nil h2
    exact Not.cons (h3 c rfl)
  | operand _ _ _ hd _ _ => exact ⟨.cons (by decide) (digits_noZero hd), by simp, Not.cons (by decide)⟩
  | label _ _ hd _ _ => exact ⟨NoZero.append (by decide) (digits_noZero hd), by simp, Not.cons (by decide)⟩

theorem takeWhile_noZero {t : Bytes} (h : NoZero t) : t.takeWhile (· ≠ 0) = t := by
  induction t with
  | nil => rfl
  | cons c t ih =>
    rw [List.takeWhile_cons, if_pos (by have := h c (by simp); simp only [inert, Bool.and_eq_true] at this; exact this.1.1.1.1.1), ih fun d hd => h d (by simp [hd])]

/-! ## Reading a line -/

theorem operands_one {e : Env} {t b : Bytes} {o : Opd} (ht : t ≠ []) (hs : Not isSpace t)
    (hp : parseOperand e (t ++ b) = .ok (o, b)) (hb : Blank b) :
    ∃ r, parseOperands e (t ++ b) = .ok (single o, r) ∧ skipWs r = [] := by
  obtain ⟨c, r, rfl⟩ := List.exists_cons_of_ne_nil ht
  rw [List.cons_append] at hp ⊢
  have hsk : skipWs b = [] := by
    have := skip hb (t := []) Not.nil
    rwa [List.append_nil] at this
  have hc : c ≠ chr% '\n' := by
    rintro rfl
    have h := hs _ rfl
    revert h
    decide
  refine ⟨[], ?_, rfl⟩
  simp only [parseOperands, hp, hsk, if_neg hc]

theorem operands_two {e : Env} {t b t' b' : Bytes} {o o' : Opd} {q : Ops} {x : Bytes} (ht : t ≠ []) (hs : Not isSpace t)
    (hp : parseOperand e (t ++ (b ++ (str% "," ++ x))) = .ok (o, b ++ (str% "," ++ x)))
    (hp' : parseOperand e x = .ok (o', b'))
    (hb : Blank b) (hq : combine o o' = some q) :
    parseOperands e (t ++ (b ++ (str% "," ++ x))) = .ok (q, b') := by
  obtain ⟨c, r, rfl⟩ := List.exists_cons_of_ne_nil ht
  rw [List.cons_append] at hp ⊢
  have hsk : skipWs (b ++ (str% "," ++ x)) = chr% ',' :: x := skip hb (t := chr% ',' :: x) (Not.cons (by decide))
  have hc : c ≠ chr% '\n' := by
    rintro rfl
    have h := hs _ rfl
    revert h
    decide
  simp only [parseOperands, hp, hsk, if_neg hc, if_true, hp', hq]

theorem pick_of_match {m : Bytes} {o o' : Ops} {op : Nat} (h : matchMnemonic m o = .ok (op, o')) :
    ∃ ws wd, pick o (entries m) = some (op, ws, wd) ∧ o' = withWidths o ws wd := by
  unfold matchMnemonic at h
  split_ifs at h
  exact matchFrom_pick h

theorem matchMnemonic_pick {m : Bytes} {o : Ops} {op ws wd : Nat} (hm : m ≠ [])
    (h : pick o (entries m) = some (op, ws, wd)) : matchMnemonic m o = .ok (op, withWidths o ws wd) := by
  rw [matchMnemonic, if_neg hm]
  unfold entries at h
  generalize (0 : Nat) = k at h ⊢
  revert h
  induction rows generalizing k with
  | nil => intro h; cases h
  | cons row rest ih =>
    obtain ⟨name, e⟩ := row
    intro h
    rw [matchFrom, tryRow_eq]
    rw [entriesFrom] at h
    cases hs : suffixOf m name e.suffix with
    | none =>
      rw [hs] at h
      simp only at h ⊢
      exact ih _ h
    | some sfx =>
      rw [hs] at h
      simp only [pick] at h ⊢
      cases ht : tryEnc o sfx e with
      | next =>
        rw [ht] at h
        exact ih _ h
      | error => rw [ht] at h; cases h
      | found a b =>
        rw [ht] at h
        cases h
        rfl

theorem ref_withWidths (o : Ops) (ws wd op cc pfx : Nat) :
    (⟨op, cc, pfx, withWidths o ws wd⟩ : Instr).ref = (⟨op, cc, pfx, o⟩ : Instr).ref := by
  cases o with
  | imm i => obtain ⟨w, v⟩ := i; cases v <;> rfl
  | immReg i _ _ => obtain ⟨w, v⟩ := i; cases v <;> rfl
  | immMem i _ _ => obtain ⟨w, v⟩ := i; cases v <;> rfl
  | _ => rfl

theorem OpsOk.ref {n : Nat} {args : List Arg} {o : Ops} (h : OpsOk n args o) (op cc pfx : Nat) :
    (⟨op, cc, pfx, o⟩ : Instr).ref = refs args := by
  have hm : ∀ a : Addr, (a.sym.map fun (t, s) => (t, s, a.disp)) = refOf a := fun a => rfl
  have hr : ∀ {w r a}, RegOk w r a → Arg.ref a = none := by
    intro w r a h
    cases h <;> rfl
  have h1 : ∀ x y : Arg, refs [x, y] = (Arg.ref x).or (Arg.ref y) := by
    intro x y
    simp only [refs, List.findSome?]
    cases Arg.ref x with
    | some v => rfl
    | none => cases Arg.ref y <;> rfl
  have h0 : ∀ x : Arg, refs [x] = Arg.ref x := by
    intro x
    simp only [refs, List.findSome?]
    cases Arg.ref x <;> rfl
  cases h with
  | reg h => rw [h0, hr h]; rfl
  | mem h => rw [h0]; rfl
  | imm h => rfl
  | target => rfl
  | regReg h h' => rw [h1, hr h, hr h']; rfl
  | regMem h h' => rw [h1, hr h]; rfl
  | memReg h h' => rw [h1, hr h', Option.or_none]; rfl
  | immReg h h' => rw [h1, hr h']; rfl
  | immMem h h' => rw [h1]; rfl

theorem no_target {f : Form} {l : Nat} {y : Arg} : Att.meaning f [.target l, y] = none := by
  cases f <;> cases y <;> rfl

theorem combine_some {n : Nat} {f : Form} {a a' : Arg} {o o' : Opd} {ins : Ins} (h : Parsed n a o) (h' : Parsed n a' o')
    (hm : Att.meaning f [a, a'] = some ins) : ∃ q, combine o o' = some q := by
  cases h <;> cases h' <;> first
    | exact ⟨_, rfl⟩
    | (exfalso; rw [no_target] at hm; cases hm)
    | (exfalso; revert hm; cases f <;> (intro hm; first | cases hm | simp [Att.meaning, Att.binMeaning] at hm))

theorem one_or_two {e : Env} {n : Nat} {m : Bytes} {f : Form} {args : List Arg} {t : Bytes} {ins : Ins}
    (hmem : (m, f) ∈ Att.names) (h : LineText e n m args t) (hm : Att.meaning f args = some ins) :
    NoZero t ∧ ∃ o, OpsOk n args o ∧
      assembleLine e t = (matchMnemonic m o).map fun p => [⟨p.1, 0, 0, p.2⟩] := by
  obtain ⟨hne, hid, hd⟩ := names_words _ hmem
  simp only at hne hid hd
  have hmz : NoZero m := fun c hc => ((class_zero c).2.2.1 (hid c hc)).1
  have hms : ∀ r, Not isSpace (m ++ r) := by
    intro r
    obtain ⟨c, m', rfl⟩ := List.exists_cons_of_ne_nil hne
    exact Not.cons ((class_zero c).2.2.1 (hid c (by simp))).2
  -- everything but the operands
  have key : ∀ {b0 b1 x r : Bytes} {o : Ops}, Blank b0 → Blank b1 → b1 ≠ [] → NoZero x → Not isSpace x →
      parseOperands e x = .ok (o, r) → skipWs r = [] →
      NoZero (b0 ++ (m ++ (b1 ++ x))) ∧
        assembleLine e (b0 ++ (m ++ (b1 ++ x))) = (matchMnemonic m o).map fun p => [⟨p.1, 0, 0, p.2⟩] := by
    intro b0 b1 x r o h0 h1 hn hx hxs hp hr
    refine ⟨h0.noZero.append (hmz.append (h1.noZero.append hx)), ?_⟩
    have hz : NoZero (b0 ++ (m ++ (b1 ++ x))) := h0.noZero.append (hmz.append (h1.noZero.append hx))
    have hst : Stop (b1 ++ x) := by
      obtain ⟨c, b, rfl⟩ := List.exists_cons_of_ne_nil hn
      exact Not.cons ((classes c).2.2 (h1 c (by simp))).1
    have hl : parseInstruction e (m ++ (b1 ++ x)) = (matchMnemonic m o).map fun p => (⟨p.1, 0, 0, p.2⟩, r) := by
      have htk : (m ++ (b1 ++ x)).take m.length = m := by simp
      simp only [parseInstruction, asmtok_ident e hne hid hd hst, skip h1 hxs, hp, htk]
      cases matchMnemonic m o <;> rfl
    rw [assembleLine, takeWhile_noZero hz, skip h0 (hms _)]
    obtain ⟨c, m', rfl⟩ := List.exists_cons_of_ne_nil hne
    rw [List.cons_append] at hl ⊢
    simp only [hl]
    cases matchMnemonic (c :: m') o with
    | error x => rfl
    | ok p => simp only [Except.map, hr, if_true]
  cases h with
  | @one a t b0 b1 b2 ht h0 h1 hn h2 =>
    obtain ⟨hz, hne', hs⟩ := ht.facts
    obtain ⟨o, hp, hpa⟩ := parseOperand_text (b := []) ht (by intro c h; cases h)
      (stop_blank (r := []) h2 Not.nil)
    rw [List.append_nil, List.nil_append] at hp
    obtain ⟨r, hp', hr⟩ := operands_one hne' hs hp h2
    have := key h0 h1 hn (hz.append h2.noZero) (x := t ++ b2) ?_ hp' hr
    · exact ⟨this.1, single o, single_ok hpa, this.2⟩
    obtain ⟨c, r, rfl⟩ := List.exists_cons_of_ne_nil hne'
    exact Not.cons (hs c rfl)
  | @indirect k s b0 b1 b2 hc hs h0 h1 hn h2 =>
    have hf := asmRegs_facts _ (gprName_mem hs)
    have hk : k < 16 := by
      have h17 : ∀ r ∈ Encode.gprs, r < 17 := by decide
      have := h17 _ hf.2.2.2.1
      dsimp only at this
      omega
    have hp : parseOperand e (str% "*%%" ++ s ++ b2) = .ok (.reg 8 (k + 1), b2) := by
      have hm := gprName_mem hs
      have hst := stop_blank (r := []) h2 Not.nil
      rw [List.append_nil] at hst
      unfold parseOperand
      rw [List.append_assoc, asmtok_star e hf.1 hst]
      simp only [parseRegister_gpr hm]
    have hz : NoZero (str% "*%%" ++ s) := NoZero.append (by decide) (alnum_noZero (gpr_alnum hs))
    obtain ⟨r, hp', hr⟩ := operands_one (t := str% "*%%" ++ s) (by simp) (Not.cons (by decide)) hp h2
    have := key h0 h1 hn (hz.append h2.noZero) (Not.cons (by decide)) hp' hr
    exact ⟨this.1, _, .reg (.gpr hk hf.2.2.2.2.1), this.2⟩
  | @two a t a' t' b0 b1 b2 b3 b4 ht ht' h0 h1 hn h2 h3 h4 =>
    obtain ⟨hz, hne', hs⟩ := ht.facts
    obtain ⟨hz', _, _⟩ := ht'.facts
    obtain ⟨o, hp, hpa⟩ := parseOperand_text (b := []) (r := b2 ++ (str% "," ++ (b3 ++ (t' ++ b4)))) ht (by intro c h; cases h)
      (stop_blank h2 (Not.cons (by decide)))
    rw [List.nil_append] at hp
    obtain ⟨o', hp', hpa'⟩ := parseOperand_text (b := b3) (r := b4) ht' h3
      (by have := stop_blank (r := []) h4 Not.nil; rwa [List.append_nil] at this)
    obtain ⟨q, hq⟩ := combine_some hpa hpa' hm
    have hpp := operands_two (t' := []) hne' hs hp hp' h2 hq
    have := key h0 h1 hn
      (hz.append (h2.noZero.append (NoZero.append (by decide) (h3.noZero.append (hz'.append h4.noZero))))) ?_ hpp ?_
    · refine ⟨this.1, q, combine_ok hpa hpa' hq ?_, this.2⟩
      rintro l rfl
      rw [no_target] at hm
      cases hm
    · obtain ⟨c, r, rfl⟩ := List.exists_cons_of_ne_nil hne'
      exact Not.cons (hs c rfl)
    · have := skip h4 (t := []) Not.nil
      rwa [List.append_nil] at this

theorem OpsOk.not_none {n : Nat} {args : List Arg} {o : Ops} (h : OpsOk n args o) (w : Nat) : o ≠ .none w := by
  cases h <;> simp

/-! ## What is accepted -/

theorem ambiguous_ok {n : Nat} {m : Bytes} {args : List Arg} {o : Ops} (h : OpsOk n args o)
    (ha : m = str% "cvtsi2sd" → ∀ x r, Arg.mem x r ∉ args) : ambiguous m o = false := by
  cases h <;> first
    | rfl
    | (rename_i hw hy
       simp only [ambiguous, Bool.and_eq_false_iff]
       right
       rw [beq_eq_false_iff_ne]
       intro hm
       exact ha hm _ _ (by simp [memArg]; exact .inl ⟨rfl, rfl⟩))

/-- A word the compiler knows with all its operands. -/
def accepts (m : Bytes) (f : Form) (o : Ops) : Bool :=
  match Att.meaning f (argsOf o) with
  | none => true
  | some ins => !sizedB (memWidth o) ins || (pick o (entries m)).isSome

/-- The instructions that are known with every operand they have. -/
def spoken : List Bytes := [
  str% "add", str% "addb", str% "addw", str% "addl", str% "addq", str% "and", str% "cmp",
  str% "movb", str% "movw", str% "movl", str% "movq", str% "or", str% "sub", str% "test",
  str% "xor", str% "sar", str% "shl", str% "shr", str% "div", str% "idiv", str% "mul",
  str% "not", str% "leaq", str% "movslq", str% "push", str% "pop", str% "call", str% "jmp",
  str% "flds", str% "fldl", str% "fldt", str% "fstps", str% "fstpl", str% "fstpt",
  str% "filds", str% "fildl", str% "fildq", str% "fistps", str% "fistpl", str% "fistpq",
  str% "fldcw", str% "fnstcw"]

def repOpsList : List Ops :=
  (repRegs.flatMap fun x => repRegs.map fun y => .regReg x.1 x.2 y.1 y.2)
  ++ ((repWidths.flatMap fun w => repRegs.map fun y => .memReg w noAddr y.1 y.2)
  ++ ((repWidths.flatMap fun w => repRegs.map fun y => .regMem y.1 y.2 w noAddr)
  ++ ((repInts.flatMap fun q => repRegs.map fun y => .immReg ⟨0, .int q⟩ y.1 y.2)
  ++ ((repInts.flatMap fun q => repWidths.map fun w => .immMem ⟨0, .int q⟩ w noAddr)
  ++ ((repRegs.map fun y => .reg y.1 y.2) ++ ((repWidths.map fun w => .mem w noAddr)
  ++ ((repInts.map fun q => .imm ⟨0, .int q⟩) ++ [.imm ⟨8, .addr ⟨some (.normal, 0), 0, 0, 0, 0⟩⟩])))))))

theorem accepts_all : ∀ m ∈ spoken, ∀ f ∈ Att.lookup m, ∀ o ∈ repOpsList, accepts m f o = true := by
  decide +kernel

theorem spoken_not : ∀ m ∈ spoken, m ≠ str% "cvtsi2sd" := by decide +kernel

theorem carry_accept {m : Bytes} {f : Form} {o : Ops} {ins : Ins}
    (hatt : ∃ ins0, Att.meaning f (argsOf (repOps o)) = some ins0 ∧ relabel o ins0 = ins)
    (hc : accepts m f (repOps o) = true) (hs : sizedB (memWidth o) ins = true) :
    (pick o (entries m)).isSome = true := by
  obtain ⟨ins0, h0, rfl⟩ := hatt
  rw [sized_relabel] at hs
  unfold accepts at hc
  rw [h0, pick_rep] at hc
  simpa only [hs, Bool.not_true, Bool.false_or] using hc

theorem ops_accept {m : Bytes} {f : Form} {n : Nat} {args : List Arg} {o : Ops} {ins : Ins}
    (hm : m ∈ spoken) (hf : Att.lookup m = some f) (ho : OpsOk n args o) (h : Att.meaning f args = some ins)
    (hs : sizedB n ins = true) : (pick o (entries m)).isSome = true := by
  have hmem := lookup_mem hf
  have hs' : sizedB (memWidth o) ins = true := by
    rcases ho.memWidth with h0 | h0
    · rw [h0]; rfl
    · rw [h0]; exact hs
  rw [← ho.args] at h
  have hc : ∀ o1, repOps o1 ∈ repOpsList → accepts m f (repOps o1) = true := fun o1 h => accepts_all m hm f hf _ h
  cases ho with
  | @reg w r a hr =>
    refine carry_accept (att_reg h) (hc _ ?_) hs'
    simp only [repOps, repOpsList, List.mem_append]
    exact .inr (.inr (.inr (.inr (.inr (.inl (List.mem_map.mpr ⟨_, hr.rep, rfl⟩))))))
  | @mem w a hw =>
    have hatt := att_mem h
    refine carry_accept hatt (hc _ ?_) hs'
    obtain ⟨ins0, h0, rfl⟩ := hatt
    rw [sized_relabel] at hs'
    have := known_width (known_mem _ hmem) h0 hs'
    simp only [repOps, repOpsList, List.mem_append]
    exact .inr (.inr (.inr (.inr (.inr (.inr (.inl (List.mem_map.mpr ⟨_, this, rfl⟩)))))))
  | @imm q h0 =>
    refine carry_accept (att_imm h0 h) (hc _ ?_) hs'
    simp only [repOps, repOpsList, List.mem_append]
    exact .inr (.inr (.inr (.inr (.inr (.inr (.inr (.inl (List.mem_map.mpr ⟨_, rep_int q, rfl⟩))))))))
  | target =>
    refine carry_accept (att_target h) (hc _ ?_) hs'
    simp only [repOps, repOpsList, List.mem_append]
    exact .inr (.inr (.inr (.inr (.inr (.inr (.inr (.inr (List.mem_singleton.mpr rfl))))))))
  | regReg hx hy =>
    refine carry_accept (att_regReg h) (hc _ ?_) hs'
    simp only [repOps, repOpsList, List.mem_append]
    exact .inl (List.mem_flatMap.mpr ⟨_, hx.rep, List.mem_map.mpr ⟨_, hy.rep, rfl⟩⟩)
  | @regMem ws r w a x hx hw =>
    have hatt := att_regMem h
    refine carry_accept hatt (hc _ ?_) hs'
    obtain ⟨ins0, h0, rfl⟩ := hatt
    rw [sized_relabel] at hs'
    have := known_width (known_regMem _ hmem _ hx.rep) h0 hs'
    simp only [repOps, repOpsList, List.mem_append]
    exact .inr (.inr (.inl (List.mem_flatMap.mpr ⟨_, this, List.mem_map.mpr ⟨_, hx.rep, rfl⟩⟩)))
  | @memReg ws' a w r y hw hy =>
    by_cases hl : isLea f = true
    · rw [pick_lea (lea_rows _ hmem hl) ws']
      refine carry_accept (o := .memReg 0 a w r) (att_memReg h) (hc _ ?_) rfl
      simp only [repOps, repOpsList, List.mem_append]
      exact .inr (.inl (List.mem_flatMap.mpr ⟨0, by decide, List.mem_map.mpr ⟨_, hy.rep, rfl⟩⟩))
    · have hatt := att_memReg h
      refine carry_accept hatt (hc _ ?_) hs'
      obtain ⟨ins0, h0, rfl⟩ := hatt
      rw [sized_relabel] at hs'
      have hk := known_memReg _ hmem _ hy.rep
      simp only [Bool.not_eq_true] at hl
      rw [hl, Bool.false_or] at hk
      have := known_width hk h0 hs'
      simp only [repOps, repOpsList, List.mem_append]
      exact .inr (.inl (List.mem_flatMap.mpr ⟨_, this, List.mem_map.mpr ⟨_, hy.rep, rfl⟩⟩))
  | @immReg q w r y h0 hy =>
    refine carry_accept (att_immReg (form_ok _ hmem) h0 hy.width h) (hc _ ?_) hs'
    simp only [repOps, repOpsList, List.mem_append]
    exact .inr (.inr (.inr (.inl (List.mem_flatMap.mpr ⟨_, rep_int q, List.mem_map.mpr ⟨_, hy.rep, rfl⟩⟩))))
  | @immMem q w a h0 hw =>
    have hatt := att_immMem (form_ok _ hmem) h0 h
    refine carry_accept hatt (hc _ ?_) hs'
    obtain ⟨ins0, h0, rfl⟩ := hatt
    rw [sized_relabel] at hs'
    have := known_width (known_immMem _ hmem _ (rep_int q)) h0 hs'
    simp only [repOps, repOpsList, List.mem_append]
    exact .inr (.inr (.inr (.inr (.inl (List.mem_flatMap.mpr ⟨_, rep_int q, List.mem_map.mpr ⟨_, this, rfl⟩⟩)))))

/-! ## Templates -/

theorem readLine_inert {t r : Bytes} (h : NoZero t) (hn : chr% '\n' ∉ t) :
    Input.readLine (t ++ (chr% '\n' :: r)) = .line t r 1 := by
  have key : ∀ (t' pre : Bytes), NoZero t' → chr% '\n' ∉ t' →
      Input.loop1 (pre ++ (t' ++ (chr% '\n' :: r))) (t' ++ (chr% '\n' :: r)) pre.length = .line (pre ++ t') r 1 := by
    intro t'
    induction t' with
    | nil =>
      intro pre _ _
      rw [List.nil_append, Input.loop1, if_pos rfl]
      simp
    | cons c t' ih =>
      intro pre hz hn
      have hc := hz c (by simp)
      have h10 : c ≠ chr% '\n' := fun hc => hn (by simp [hc])
      simp only [inert, Bool.and_eq_true, decide_eq_true_eq, ne_eq] at hc
      obtain ⟨⟨⟨⟨⟨h0, h1⟩, h2⟩, h3⟩, h4⟩, h5⟩ := hc
      rw [List.cons_append, Input.loop1, if_neg h10, if_neg (by simp [h1, h2, h3, h4, h5])]
      have := ih (pre ++ [c]) (fun d hd => hz d (by simp [hd])) (fun hd => hn (by simp [hd]))
      simpa using this
  exact key t [] h hn

/-! ## The two rows of an addition -/

theorem row_one : ∀ p ∈ Att.names, ∀ x ∈ entries p.1, x.1 = 1 → x.2.2.optype = 192 := by
  decide +kernel

theorem pick_one {o : Ops} {es : List (Nat × Nat × Enc)} (he : ∀ x ∈ es, x.1 = 1 → x.2.2.optype = 192)
    {ws wd : Nat} (h : pick o es = some (1, ws, wd)) : 192 &&& o.mask = o.mask := by
  induction es with
  | nil => cases h
  | cons x es ih =>
    obtain ⟨op, sfx, e⟩ := x
    rw [pick] at h
    cases ht : tryEnc o sfx e with
    | next => rw [ht] at h; exact ih (fun x hx => he x (by simp [hx])) h
    | error => rw [ht] at h; cases h
    | found a b =>
      rw [ht] at h
      cases h
      have h192 := he _ (List.mem_cons_self ..) rfl
      simp only at h192
      unfold tryEnc at ht
      by_cases hq : e.optype &&& o.mask = o.mask
      · rwa [h192] at hq
      · rw [if_pos hq] at ht
        cases ht

theorem encode_norm {op : Nat} {o : Ops} {ws wd : Nat} (h : op = 1 → 192 &&& o.mask = o.mask) (hn : ∀ w, o ≠ .none w) :
    Encode.encode ⟨op, 0, 0, withWidths o ws wd⟩ = Encode.encode ⟨norm op, 0, 0, withWidths o ws wd⟩ := by
  by_cases h1 : op = 1
  · subst h1
    have h := h rfl
    have hc1 : Encode.candidates 1 = (Encode.candidates 0).drop 1 := by decide +kernel
    have hc0 : (Encode.candidates 0).take 1 = [Encode.encodings[0]] := by decide +kernel
    have h0 : (Encode.encodings[0]).optype = 56 := by decide +kernel
    have hm : ∀ o' : Ops, 56 &&& o'.mask ≠ o'.mask → Encode.findEncoding ⟨1, 0, 0, o'⟩ = Encode.findEncoding ⟨0, 0, 0, o'⟩ := by
      intro o' ho
      unfold Encode.findEncoding
      simp only
      rw [hc1, ← List.take_append_drop 1 (Encode.candidates 0), hc0]
      have : Encode.matchesRow o' Encode.encodings[0] = false := by
        cases o' <;> simp_all [Encode.matchesRow, Ops.mask]
      simp [this]
    show Encode.encode ⟨1, 0, 0, withWidths o ws wd⟩ = Encode.encode ⟨0, 0, 0, withWidths o ws wd⟩
    have hf := hm (withWidths o ws wd) (by
      clear hm hc1 hc0
      cases o <;> simp_all [Ops.mask, withWidths])
    unfold Encode.encode
    rw [hf]
    rfl
  · rw [norm, if_neg h1]

end Verif.Asm
