import Verif.Elf.Places

/-!
# The calls and what they amount to

Quantities read off the list of calls alone, and how they appear in the object.
-/

namespace Verif.Elf

open Encode (le Code Fix le_length le_lt value_le)

/-! ## Read off the calls -/

/-- The length of the code. -/
def codeLen : List Op → Nat
  | [] => 0
  | .text c :: l => c.val.length + codeLen l
  | _ :: l => codeLen l

/-- The code up to the next function. -/
def bodyLen : List Op → Nat
  | [] => 0
  | .text c :: l => c.val.length + bodyLen l
  | .symbol s :: l =>
    match s.kind with
    | .func _ => 0
    | _ => bodyLen l
  | _ :: l => bodyLen l

/-- The data up to the next object with an initialiser. -/
def dataBytes : List Op → List Nat
  | [] => []
  | .data (.bytes b) :: l => b ++ dataBytes l
  | .data (.addr _ _) :: l => List.replicate 8 0 ++ dataBytes l
  | .symbol s :: l =>
    match s.kind with
    | .data _ _ => []
    | _ => dataBytes l
  | _ :: l => dataBytes l

/-- No object with an initialiser is declared. -/
def NoData (l : List Op) : Prop := ∀ s, .symbol s ∈ l → ∀ n a, s.kind ≠ .data n a

/-- The references to symbols in the code from position `p`: type, symbol, place,
addend. -/
def codeRefs (p : Nat) : List Op → List (Nat × Nat × Nat × Int)
  | [] => []
  | .text c :: l =>
    (match c.fix with
      | [.reloc ty s pos a] => [(ty, s, p + pos, a)]
      | _ => []) ++ codeRefs (p + c.val.length) l
  | _ :: l => codeRefs p l

/-- The number of addresses in data. -/
def dataRefs : List Op → Nat
  | [] => 0
  | .data (.addr _ _) :: l => dataRefs l + 1
  | _ :: l => dataRefs l

def Kind.size : Kind → Nat
  | .label => 0
  | .func _ => 0
  | .data n _ => n
  | .const b _ => b.length
  | .object _ n _ => n

/-- All objects together, with what alignment may cost. -/
def room : List Op → Nat
  | [] => 0
  | .symbol s :: l => s.kind.size + 16 + room l
  | _ :: l => room l

/-- The symbols that get an entry. -/
def declared : List Op → List Sym
  | [] => []
  | .symbol s :: l => if s.kind = .label then declared l else s :: declared l
  | _ :: l => declared l

/-! ## In the object -/

variable {o : Obj}

theorem run_append (o : Obj) (a b : List Op) : o.run (a ++ b) = (o.run a).run b := by
  unfold Obj.run; rw [List.foldl_append]

theorem run_cons (o : Obj) (op : Op) (l : List Op) : o.run (op :: l) = (o.step op).run l := rfl

theorem opsOk_append (o : Obj) (a b : List Op) : OpsOk o (a ++ b) ↔ OpsOk o a ∧ OpsOk (o.run a) b := by
  induction a generalizing o with
  | nil => simp [OpsOk, Obj.run]
  | cons op a ih => simp only [List.cons_append, OpsOk, ih, run_cons, and_assoc]

/-- Everything a declaration leaves alone. -/
theorem symbol_keeps (o : Obj) (s : Sym) :
    (o.symbol s).len = o.len ∧ (o.symbol s).items = o.items ∧ (o.symbol s).dataRel = o.dataRel
      ∧ (o.symbol s).noCommon = o.noCommon := by
  unfold Obj.symbol Obj.declare
  split <;> (try split_ifs) <;> exact ⟨rfl, rfl, rfl, rfl⟩

theorem datum_keeps (o : Obj) (d : Datum) :
    (o.datum d).len = o.len ∧ (o.datum d).items = o.items ∧ (o.datum d).decls = o.decls
      ∧ (o.datum d).labels = o.labels ∧ (o.datum d).fn = o.fn ∧ (o.datum d).noCommon = o.noCommon
      ∧ (o.datum d).bss = o.bss := by
  cases d <;> exact ⟨rfl, rfl, rfl, rfl, rfl, rfl, rfl⟩

theorem run_noCommon (o : Obj) (ops : List Op) : (o.run ops).noCommon = o.noCommon := by
  induction ops generalizing o with
  | nil => rfl
  | cons op ops ih =>
    rw [run_cons, ih]
    cases op with
    | symbol s => exact (symbol_keeps o s).2.2.2
    | text c => rfl
    | data d => exact (datum_keeps o d).2.2.2.2.2.1
    | endFunction => rfl

theorem run_len (o : Obj) (ops : List Op) : (o.run ops).len = o.len + codeLen ops := by
  induction ops generalizing o with
  | nil => rfl
  | cons op ops ih =>
    rw [run_cons, ih]
    cases op with
    | symbol s => simp only [Obj.step, (symbol_keeps o s).1, codeLen]
    | text c => simp only [Obj.step, Obj.text, codeLen]; omega
    | data d => simp only [Obj.step, (datum_keeps o d).1, codeLen]
    | endFunction => simp only [Obj.step, codeLen]

/-- An instruction stays where it is; at the end of a function it has its labels. -/
theorem run_item (o : Obj) (ops : List Op) (p : Nat) (c : Code) (ah : Bool) (h : ⟨p, c, ah⟩ ∈ o.items) :
    ∃ ah', ⟨p, c, ah'⟩ ∈ (o.run ops).items ∧ (ah = false ∨ .endFunction ∈ ops → ah' = false) := by
  induction ops generalizing o ah with
  | nil => exact ⟨ah, h, by simp⟩
  | cons op ops ih =>
    cases op with
    | symbol s =>
      have := ih (o.step (.symbol s)) ah (by simp only [Obj.step]; rw [(symbol_keeps o s).2.1]; exact h)
      obtain ⟨ah', g1, g2⟩ := this
      exact ⟨ah', g1, fun q => g2 (by simpa using q)⟩
    | text c' =>
      obtain ⟨ah', g1, g2⟩ := ih (o.step (.text c')) ah (by
        simp only [Obj.step, Obj.text]; exact List.mem_append_left _ h)
      exact ⟨ah', g1, fun q => g2 (by simpa using q)⟩
    | data d =>
      obtain ⟨ah', g1, g2⟩ := ih (o.step (.data d)) ah (by
        simp only [Obj.step]; rw [(datum_keeps o d).2.1]; exact h)
      exact ⟨ah', g1, fun q => g2 (by simpa using q)⟩
    | endFunction =>
      obtain ⟨ah', g1, g2⟩ := ih (o.step .endFunction) false (by
        simp only [Obj.step]
        exact List.mem_map.mpr ⟨⟨p, c, ah⟩, h, rfl⟩)
      exact ⟨ah', g1, fun _ => g2 (.inl rfl)⟩

theorem run_labels (o : Obj) (ops : List Op) (p : Nat × Nat) (h : p ∈ o.labels) : p ∈ (o.run ops).labels := by
  induction ops generalizing o with
  | nil => exact h
  | cons op ops ih =>
    rw [run_cons]
    apply ih
    cases op with
    | symbol s =>
      simp only [Obj.step]
      unfold Obj.symbol Obj.declare
      split <;> (try split_ifs) <;> simp [h]
    | text c => exact h
    | data d => simp only [Obj.step]; rw [(datum_keeps o d).2.2.2.1]; exact h
    | endFunction => exact h

/-- A label is where the code was when it was declared. -/
theorem label_at (o : Obj) (a b : List Op) (s : Sym) (hs : s.kind = .label) :
    (s.id, o.len + codeLen a) ∈ (o.run (a ++ .symbol s :: b)).labels := by
  rw [run_append, run_cons]
  apply run_labels
  simp only [Obj.step, Obj.symbol, hs, run_len]
  simp

/-- An instruction is where the code was when it was emitted. -/
theorem item_at (o : Obj) (a b : List Op) (c : Code) :
    ∃ ah, ⟨o.len + codeLen a, c, ah⟩ ∈ (o.run (a ++ .text c :: b)).items ∧ (.endFunction ∈ b → ah = false) := by
  rw [run_append, run_cons]
  obtain ⟨ah, g1, g2⟩ := run_item ((o.run a).step (.text c)) b (o.len + codeLen a) c
    (match target c with
      | some l => ((o.run a).labelAt l).isNone
      | none => false) (by
      simp only [Obj.step, Obj.text, run_len]
      exact List.mem_append_right _ (List.mem_singleton.mpr rfl))
  exact ⟨ah, g1, fun h => g2 (.inr h)⟩

/-! ### References -/

def Pend.tuple (p : Pend) : Nat × Nat × Nat × Int := (p.type, p.sym, p.offset, p.addend)

theorem relocs_resolved (i : Item) : Item.relocs { i with ahead := false } = i.relocs := rfl

theorem run_refs (o : Obj) (ops : List Op) :
    ((o.run ops).items.flatMap Item.relocs).map Pend.tuple
      = (o.items.flatMap Item.relocs).map Pend.tuple ++ codeRefs o.len ops := by
  induction ops generalizing o with
  | nil => simp [Obj.run, codeRefs]
  | cons op ops ih =>
    rw [run_cons, ih]
    cases op with
    | symbol s =>
      simp only [Obj.step, (symbol_keeps o s).2.1, (symbol_keeps o s).1, codeRefs]
    | text c =>
      simp only [Obj.step, Obj.text, codeRefs, List.flatMap_append, List.map_append, List.append_assoc]
      congr 1
      congr 1
      simp only [List.flatMap_cons, List.flatMap_nil, List.append_nil, Item.relocs]
      split <;> simp_all [Pend.tuple]
    | data d => simp only [Obj.step, (datum_keeps o d).2.1, (datum_keeps o d).1, codeRefs]
    | endFunction =>
      simp only [Obj.step, codeRefs, List.flatMap_map, relocs_resolved]

theorem run_dataRel (o : Obj) (ops : List Op) :
    ∃ x, (o.run ops).dataRel = o.dataRel ++ x ∧ x.length = dataRefs ops ∧ ∀ p ∈ x, p.type = 1 := by
  induction ops generalizing o with
  | nil => exact ⟨[], by simp [Obj.run], rfl, by simp⟩
  | cons op ops ih =>
    rw [run_cons]
    obtain ⟨x, h1, h2, h3⟩ := ih (o.step op)
    cases op with
    | symbol s => exact ⟨x, by rw [h1]; simp only [Obj.step, (symbol_keeps o s).2.2.1], h2, h3⟩
    | text c => exact ⟨x, h1, h2, h3⟩
    | data d =>
      cases d with
      | bytes b => exact ⟨x, h1, h2, h3⟩
      | addr s disp =>
        refine ⟨⟨s, 1, o.data.length, disp⟩ :: x, by rw [h1]; simp [Obj.step, Obj.datum], by simp [dataRefs, h2], ?_⟩
        intro p hp
        rcases List.mem_cons.mp hp with rfl | hp
        · rfl
        · exact h3 p hp
    | endFunction => exact ⟨x, h1, h2, h3⟩

/-! ### Data -/

theorem symbol_data (o : Obj) (s : Sym) (h : ∀ n a, s.kind ≠ .data n a) : (o.symbol s).data = o.data := by
  unfold Obj.symbol Obj.declare
  split <;> (try split_ifs) <;> first | rfl | (rename_i hk; exact absurd hk (h _ _))

theorem symbol_data_grows (o : Obj) (s : Sym) : ∃ x, (o.symbol s).data = o.data ++ x := by
  by_cases h : ∃ n a, s.kind = .data n a
  · obtain ⟨n, a, h⟩ := h
    exact ⟨_, by simp only [Obj.symbol, h, padded]; rfl⟩
  · exact ⟨[], by rw [symbol_data o s (fun n a q => h ⟨n, a, q⟩)]; simp⟩

/-- Data follow one another until the next object. -/
theorem run_data (o : Obj) (ops : List Op) : ∃ x, (o.run ops).data = o.data ++ dataBytes ops ++ x
    ∧ (NoData ops → x = []) := by
  induction ops generalizing o with
  | nil => exact ⟨[], by simp [Obj.run, dataBytes], fun _ => rfl⟩
  | cons op ops ih =>
    rw [run_cons]
    obtain ⟨x, h1, h2⟩ := ih (o.step op)
    have hsub : NoData (op :: ops) → NoData ops := fun h s hs => h s (List.mem_cons_of_mem _ hs)
    cases op with
    | symbol s =>
      by_cases h : ∃ n a, s.kind = .data n a
      · obtain ⟨n, a, h⟩ := h
        refine ⟨List.replicate (padTo a o.data.length) 0 ++ (dataBytes ops ++ x), ?_, ?_⟩
        · rw [h1]
          simp only [Obj.step, Obj.symbol, h, dataBytes, padded, List.append_nil, List.append_assoc]
        · intro q
          exact absurd h (q s (by simp) n a)
      · refine ⟨x, ?_, fun q => h2 (hsub q)⟩
        rw [h1]
        simp only [Obj.step, symbol_data o s (fun n a q => h ⟨n, a, q⟩), dataBytes]
        cases hk : s.kind <;> simp only
        exact absurd hk (fun q => h ⟨_, _, q⟩)
    | text c => exact ⟨x, h1, fun q => h2 (hsub q)⟩
    | data d =>
      cases d with
      | bytes b => exact ⟨x, by rw [h1]; simp [Obj.step, Obj.datum, dataBytes], fun q => h2 (hsub q)⟩
      | addr s disp =>
        exact ⟨x, by rw [h1]; simp only [Obj.step, Obj.datum, dataBytes, List.append_assoc], fun q => h2 (hsub q)⟩
    | endFunction => exact ⟨x, h1, fun q => h2 (hsub q)⟩

/-! ### Declarations -/

theorem symbol_fn (o : Obj) (s : Sym) : (o.symbol s).fn = match s.kind with
    | .func _ => some s.id
    | _ => o.fn := by
  unfold Obj.symbol Obj.declare
  split
  · rename_i hk; rw [hk]
  · rename_i hk; rw [hk]
  · rename_i hk; rw [hk]
  · rename_i hk; rw [hk]
  · rename_i hk; rw [hk]; split_ifs <;> rfl

/-- A declaration keeps all but the size of a function being written. -/
theorem run_decl (o : Obj) (ops : List Op) (h : OpsOk o ops) (d : Decl) (hd : d ∈ o.decls) :
    ∃ d' ∈ (o.run ops).decls, d'.sym = d.sym ∧ d'.name = d.name ∧ d'.value = d.value
      ∧ d'.size = d.size + if o.fn = some d.sym.id then bodyLen ops else 0 := by
  induction ops generalizing o d with
  | nil => exact ⟨d, hd, rfl, rfl, rfl, by simp [bodyLen]⟩
  | cons op ops ih =>
    rw [run_cons]
    obtain ⟨h1, h2⟩ := h
    cases op with
    | symbol s =>
      have hm : d ∈ (o.symbol s).decls := by
        unfold Obj.symbol Obj.declare
        split <;> (try split_ifs) <;> simp [hd]
      obtain ⟨d', g1, g2, g3, g4, g5⟩ := ih _ h2 d hm
      refine ⟨d', g1, g2, g3, g4, ?_⟩
      rw [g5]
      have hfn : (o.step (.symbol s)).fn = _ := symbol_fn o s
      simp only [hfn, bodyLen]
      have hne : s.id ≠ d.sym.id := by
        intro q
        exact h1.1 (List.mem_append_left _ (List.mem_map.mpr ⟨d, hd, q.symm⟩))
      cases hk : s.kind with
      | func df =>
        simp only
        rw [if_neg (by simpa using hne)]
        simp
      | _ => rfl
    | text c =>
      have hm : (if o.fn = some d.sym.id then { d with size := d.size + c.val.length } else d) ∈ (o.text c).decls := by
        simp only [Obj.text, Obj.grow]
        cases hf : o.fn with
        | none => simpa using hd
        | some k =>
          simp only [Option.some.injEq]
          refine List.mem_map.mpr ⟨d, hd, ?_⟩
          by_cases q : d.sym.id = k
          · rw [if_pos q, if_pos q.symm]
          · rw [if_neg q, if_neg (fun e => q e.symm)]
      obtain ⟨d', g1, g2, g3, g4, g5⟩ := ih _ h2 _ hm
      have hfn : (o.step (.text c)).fn = o.fn := rfl
      rw [hfn] at g5
      refine ⟨d', g1, ?_, ?_, ?_, ?_⟩
      · rw [g2]; split_ifs <;> rfl
      · rw [g3]; split_ifs <;> rfl
      · rw [g4]; split_ifs <;> rfl
      · rw [g5]
        by_cases q : o.fn = some d.sym.id
        · simp only [if_pos q, bodyLen]; omega
        · simp only [if_neg q]
    | data dd =>
      obtain ⟨d', g1, g2, g3, g4, g5⟩ := ih _ h2 d (by simp only [Obj.step]; rw [(datum_keeps o dd).2.2.1]; exact hd)
      exact ⟨d', g1, g2, g3, g4, by rw [g5]; simp only [Obj.step, (datum_keeps o dd).2.2.2.2.1, bodyLen]⟩
    | endFunction =>
      obtain ⟨d', g1, g2, g3, g4, g5⟩ := ih _ h2 d hd
      exact ⟨d', g1, g2, g3, g4, g5⟩

theorem run_declared (o : Obj) (ops : List Op) :
    (o.run ops).decls.map (·.sym) = o.decls.map (·.sym) ++ declared ops := by
  induction ops generalizing o with
  | nil => simp [Obj.run, declared]
  | cons op ops ih =>
    rw [run_cons, ih]
    cases op with
    | symbol s =>
      simp only [Obj.step, declared]
      unfold Obj.symbol Obj.declare
      cases hk : s.kind <;> simp <;> (try split_ifs) <;> simp
    | text c =>
      simp only [Obj.step, Obj.text, Obj.grow, declared]
      cases o.fn with
      | none => rfl
      | some k =>
        simp only [List.map_map]
        congr 1
        apply List.map_congr_left
        intro d _
        simp only [Function.comp]
        split_ifs <;> rfl
    | data d => simp only [Obj.step, (datum_keeps o d).2.2.1, declared]
    | endFunction => rfl

theorem run_bss (o : Obj) (ops : List Op) (h : OpsOk o ops) : (o.run ops).bss ≤ o.bss + room ops := by
  induction ops generalizing o with
  | nil => simp [Obj.run]
  | cons op ops ih =>
    rw [run_cons]
    obtain ⟨h1, h2⟩ := h
    have := ih _ h2
    cases op with
    | symbol s =>
      have key : (o.symbol s).bss ≤ o.bss + s.kind.size + 16 := by
        unfold Obj.symbol Obj.declare
        cases hk : s.kind with
        | object t n a =>
          simp only
          have ha : 0 < a ∧ a ≤ 16 := by have := h1.2.2.1; rw [hk] at this; exact this
          have : padTo a o.bss < a := Nat.mod_lt _ ha.1
          split_ifs <;> simp only [Kind.size] <;> omega
        | _ => simp only; omega
      simp only [Obj.step, room] at this ⊢
      omega
    | text c => exact this
    | data d =>
      simp only [Obj.step, (datum_keeps o d).2.2.2.2.2.2, room] at this ⊢
      exact this
    | endFunction => exact this

theorem room_mem (ops : List Op) (s : Sym) (h : .symbol s ∈ ops) : s.kind.size ≤ room ops := by
  induction ops with
  | nil => cases h
  | cons op ops ih =>
    rcases List.mem_cons.mp h with rfl | h
    · simp only [room]; omega
    · have := ih h
      cases op <;> simp only [room] <;> omega

theorem declared_mem (ops : List Op) (s : Sym) : s ∈ declared ops ↔ .symbol s ∈ ops ∧ s.kind ≠ .label := by
  induction ops with
  | nil => simp [declared]
  | cons op ops ih =>
    cases op with
    | symbol t =>
      simp only [declared]
      split_ifs with q
      · rw [ih]
        simp only [List.mem_cons, Op.symbol.injEq]
        constructor
        · rintro ⟨a, b⟩; exact ⟨.inr a, b⟩
        · rintro ⟨rfl | a, b⟩
          · exact absurd q b
          · exact ⟨a, b⟩
      · simp only [List.mem_cons, ih, Op.symbol.injEq]
        constructor
        · rintro (rfl | ⟨a, b⟩)
          · exact ⟨.inl rfl, q⟩
          · exact ⟨.inr a, b⟩
        · rintro ⟨rfl | a, b⟩
          · exact .inl rfl
          · exact .inr ⟨a, b⟩
    | _ => simp [declared, ih]

end Verif.Elf
