import Verif.Elf.Linked

/-!
# Calls that make a file, and the data of a linked file

What is asked of the calls, said of the calls alone; and the image of `.data` once every
relocation has been applied.
-/

namespace Verif.Elf

open Encode (le Code Fix le_length le_lt value_le encode Instr Good refType Links)
open Encode.Intel

/-! ## What is asked of the calls -/

/-- Whether the last function declared is one that is defined. -/
def inFunction (r : Bool) : List Op → Bool
  | [] => r
  | .symbol s :: l =>
    inFunction (match s.kind with
      | .func d => d
      | _ => r) l
  | _ :: l => inFunction r l

/-- A translation unit.  Symbols are declared once, under names without a zero byte,
with alignments up to 16.  A label is never the first thing in the code.  Instructions
come from well-formed requests, or refer to no symbol, within a function that is defined.  What they, or the
data, refer to is declared somewhere; labels that are jumped to are declared by the end
of the function. -/
structure Calls (ops : List Op) : Prop where
  ids : (opIds ops).Nodup
  names : ∀ s, .symbol s ∈ ops → 0 ∉ s.name ∧ alignOk s.kind
  labels : ∀ a s b, ops = a ++ .symbol s :: b → s.kind = .label → codeLen a ≠ 0
  code : ∀ a c b, ops = a ++ .text c :: b → inFunction false a = true ∧ (Plain c ∨ ∃ i, Good i ∧ encode i = some c
    ∧ ∀ ty s disp, i.ref = some (ty, s, disp) → -2 ^ 32 < disp ∧ disp < 2 ^ 32
      ∧ (i.jumps = true → ∃ t, .symbol t ∈ ops ∧ t.kind = .label ∧ t.id = s)
      ∧ (i.jumps = false → ∃ t ∈ declared ops, t.id = s))
  ends : ∀ a b, ops = a ++ .endFunction :: b → ∀ c, .text c ∈ a → ∀ l, target c = some l →
    ∃ s, .symbol s ∈ a ∧ s.kind = .label ∧ s.id = l
  data : ∀ s d, .data (.addr s d) ∈ ops → -2 ^ 63 ≤ d ∧ d < 2 ^ 63 ∧ ∃ t ∈ declared ops, t.id = s

theorem mem_opIds (ops : List Op) (s : Sym) (h : .symbol s ∈ ops) : s.id ∈ opIds ops := by
  induction ops with
  | nil => cases h
  | cons op ops ih =>
    rcases List.mem_cons.mp h with rfl | h'
    · simp [opIds]
    · have := ih h'
      cases op <;> simp only [opIds] <;> first | exact List.mem_cons_of_mem _ this | exact this

theorem ids_inj {ops : List Op} (h : (opIds ops).Nodup) {s t : Sym} (hs : .symbol s ∈ ops) (ht : .symbol t ∈ ops)
    (e : s.id = t.id) : s = t := by
  induction ops with
  | nil => cases hs
  | cons op ops ih =>
    have key : ∀ u, op = .symbol u → u.id ∉ opIds ops := by
      rintro u rfl
      simp only [opIds, List.nodup_cons] at h
      exact h.1
    have hn : (opIds ops).Nodup := by
      cases op with
      | symbol u => simp only [opIds, List.nodup_cons] at h; exact h.2
      | _ => exact h
    rcases List.mem_cons.mp hs with hs | hs
    · rcases List.mem_cons.mp ht with ht | ht
      · rw [← hs] at ht; cases ht; rfl
      · exact absurd (e ▸ mem_opIds ops t ht) (key s hs.symm)
    · rcases List.mem_cons.mp ht with ht | ht
      · exact absurd (e ▸ mem_opIds ops s hs) (key t ht.symm)
      · exact ih hn hs ht

theorem opIds_append (a b : List Op) : opIds (a ++ b) = opIds a ++ opIds b := by
  induction a with
  | nil => rfl
  | cons op a ih => cases op <;> simp only [List.cons_append, opIds, ih]

/-- The labels of the object are those declared. -/
theorem run_label_ids (o : Obj) (ops : List Op) (l : Nat) :
    l ∈ (o.run ops).labels.map (·.1)
      ↔ l ∈ o.labels.map (·.1) ∨ ∃ s, .symbol s ∈ ops ∧ s.kind = .label ∧ s.id = l := by
  induction ops generalizing o with
  | nil => simp [Obj.run]
  | cons op ops ih =>
    rw [run_cons, ih]
    cases op with
    | symbol t =>
      simp only [Obj.step, List.mem_cons, Op.symbol.injEq]
      by_cases hk : t.kind = .label
      · simp only [Obj.symbol, hk, List.map_append, List.mem_append, List.map_cons, List.map_nil, List.mem_singleton]
        constructor
        · rintro ((g | g) | ⟨s, g1, g2⟩)
          · exact .inl g
          · exact .inr ⟨t, .inl rfl, hk, g.symm⟩
          · exact .inr ⟨s, .inr g1, g2⟩
        · rintro (g | ⟨s, rfl | g1, g2⟩)
          · exact .inl (.inl g)
          · exact .inl (.inr g2.2.symm)
          · exact .inr ⟨s, g1, g2⟩
      · have : (o.symbol t).labels = o.labels := by
          unfold Obj.symbol Obj.declare
          split <;> (try split_ifs) <;> first | rfl | (rename_i q; exact absurd q hk)
        rw [this]
        constructor
        · rintro (g | ⟨s, g1, g2⟩)
          · exact .inl g
          · exact .inr ⟨s, .inr g1, g2⟩
        · rintro (g | ⟨s, rfl | g1, g2⟩)
          · exact .inl g
          · exact absurd g2.1 hk
          · exact .inr ⟨s, g1, g2⟩
    | text c => simp only [Obj.step, Obj.text, List.mem_cons, reduceCtorEq, false_or]
    | data d => simp only [Obj.step, (datum_keeps o d).2.2.2.1, List.mem_cons, reduceCtorEq, false_or]
    | endFunction => simp only [Obj.step, List.mem_cons, reduceCtorEq, false_or]

/-- The function being compiled. -/
theorem run_fn (o : Obj) (ops : List Op) (r : Bool)
    (hr : r = true → ∃ s, o.fn = some s.id ∧ s.kind = .func true ∧ s ∈ o.decls.map (·.sym))
    (h : inFunction r ops = true) :
    ∃ s, (o.run ops).fn = some s.id ∧ s.kind = .func true ∧ s ∈ (o.run ops).decls.map (·.sym) := by
  induction ops generalizing o r with
  | nil => exact hr h
  | cons op ops ih =>
    rw [run_cons]
    have hd : ∀ s, s ∈ o.decls.map (·.sym) → s ∈ (o.step op).decls.map (·.sym) := by
      intro s hs
      have := run_declared o [op]
      rw [run_cons, show (o.step op).run [] = o.step op from rfl] at this
      rw [this]
      exact List.mem_append_left _ hs
    cases op with
    | symbol t =>
      simp only [inFunction] at h
      refine ih _ _ ?_ h
      simp only [Obj.step, symbol_fn]
      split
      · rename_i df hk
        rintro rfl
        refine ⟨t, by rw [hk], hk, ?_⟩
        have := run_declared o [.symbol t]
        rw [run_cons, show (o.step (.symbol t)).run [] = o.symbol t from rfl] at this
        rw [this]
        simp [declared, hk]
      · rename_i hn
        intro q
        obtain ⟨s, h1, h2, h3⟩ := hr q
        refine ⟨s, ?_, h2, hd s h3⟩
        rw [← h1]
        split
        · rename_i df hk
          exact absurd hk (hn df)
        · rfl
    | text c =>
      refine ih _ _ ?_ h
      intro q
      obtain ⟨s, h1, h2, h3⟩ := hr q
      exact ⟨s, h1, h2, hd s h3⟩
    | data d =>
      refine ih _ _ ?_ h
      intro q
      obtain ⟨s, h1, h2, h3⟩ := hr q
      exact ⟨s, by simp only [Obj.step, (datum_keeps o d).2.2.2.2.1, h1], h2, hd s h3⟩
    | endFunction =>
      refine ih _ _ ?_ h
      intro q
      obtain ⟨s, h1, h2, h3⟩ := hr q
      exact ⟨s, h1, h2, hd s h3⟩

theorem target_label {i : Instr} {c : Code} {ins : Ins} (h : Links i c ins) {l : Nat} (ht : target c = some l) :
    ∃ ty disp, i.ref = some (ty, l, disp) ∧ i.jumps = true := by
  unfold Links at h
  split at h
  · rw [target, h] at ht; cases ht
  · rename_i t s' disp hr
    obtain ⟨pre, post, _, hv, _, hx⟩ := h
    by_cases hj : i.jumps = true
    · rw [if_pos hj] at hx
      rw [target, hx] at ht
      cases ht
      exact ⟨t, disp, hr, hj⟩
    · rw [if_neg hj] at hx
      rw [target, hx] at ht
      cases ht

theorem Calls.coded {ops : List Op} (h : Calls ops) : Coded ops := by
  intro c hc
  obtain ⟨a, b, hab⟩ := List.append_of_mem hc
  obtain ⟨_, hpl | ⟨i, h1, h2, h3⟩⟩ := h.code a c b hab
  · exact .inl hpl
  exact .inr ⟨i, h1, h2, fun ty s disp hr => ⟨(h3 ty s disp hr).1, (h3 ty s disp hr).2.1, (h3 ty s disp hr).2.2.2⟩⟩

theorem obj_ids (file : List Nat) (nc : Bool) (a : List Op) (k : Nat) :
    k ∈ ((obj0 file nc).run a).ids → k ∈ opIds a := by
  intro h
  rcases List.mem_append.mp h with h | h
  · have h2 := run_declared (obj0 file nc) a
    have h0 : (obj0 file nc).decls.map (·.sym) = [] := rfl
    rw [h0, List.nil_append] at h2
    obtain ⟨d, hd, rfl⟩ := List.mem_map.mp h
    have : d.sym ∈ declared a := by rw [← h2]; exact List.mem_map.mpr ⟨d, hd, rfl⟩
    exact mem_opIds a _ ((declared_mem a d.sym).mp this).1
  · rcases (run_label_ids (obj0 file nc) a k).mp h with g | ⟨s, g1, _, rfl⟩
    · cases g
    · exact mem_opIds a s g1

theorem Calls.ok {ops : List Op} (h : Calls ops) (file : List Nat) (nc : Bool) : OpsOk (obj0 file nc) ops := by
  suffices key : ∀ b a, ops = a ++ b → OpsOk ((obj0 file nc).run a) b from key ops [] rfl
  intro b
  induction b with
  | nil => intro a _; trivial
  | cons op b ih =>
    intro a hab
    have hnext := ih (a ++ [op]) (by rw [hab]; simp)
    rw [run_append, run_cons] at hnext
    refine ⟨?_, hnext⟩
    have hids := h.ids
    rw [hab, opIds_append] at hids
    have h2 := run_declared (obj0 file nc) a
    have h0 : (obj0 file nc).decls.map (·.sym) = [] := rfl
    rw [h0, List.nil_append] at h2
    have hin : ∀ d ∈ ((obj0 file nc).run a).decls, .symbol d.sym ∈ a ∧ d.sym.kind ≠ .label := by
      intro d hd
      have : d.sym ∈ declared a := by rw [← h2]; exact List.mem_map.mpr ⟨d, hd, rfl⟩
      exact (declared_mem a d.sym).mp this
    cases op with
    | symbol s =>
      have hs : .symbol s ∈ ops := by rw [hab]; simp
      refine ⟨?_, (h.names s hs).1, (h.names s hs).2, ?_⟩
      · intro q
        have := obj_ids file nc a s.id q
        simp only [opIds] at hids
        exact (List.nodup_append.mp hids).2.2 _ this _ (List.mem_cons_self ..) rfl
      · intro hk
        have := h.labels a s b hab hk
        rw [run_len]
        show 0 + codeLen a ≠ 0
        omega
    | text c =>
      obtain ⟨hf, hcode⟩ := h.code a c b hab
      have hcur : ∃ d ∈ ((obj0 file nc).run a).decls, ((obj0 file nc).run a).fn = some d.sym.id
          ∧ d.sym.kind = .func true := by
        obtain ⟨s, g1, g2, g3⟩ := run_fn (obj0 file nc) a false (by simp) hf
        obtain ⟨d, hd, rfl⟩ := List.mem_map.mp g3
        exact ⟨d, hd, g1, g2⟩
      rcases hcode with hpl | ⟨i, hi, he, href⟩
      · exact ⟨hpl.code, hcur, fun l hl => by rw [target, hpl.1] at hl; cases hl⟩
      obtain ⟨ins, m1, m2, m3⟩ := good_links hi he
      refine ⟨good_code hi he, hcur, ?_⟩
      · intro l hl q
        obtain ⟨ty, disp, r1, r2⟩ := target_label m3 hl
        obtain ⟨t, t1, t2, t3⟩ := (href _ _ _ r1).2.2.1 r2
        obtain ⟨d, hd, hdl⟩ := List.mem_map.mp q
        obtain ⟨d1, d2⟩ := hin d hd
        have d1 : .symbol d.sym ∈ ops := by rw [hab]; exact List.mem_append_left _ d1
        have := ids_inj h.ids t1 d1 (by rw [t3]; exact hdl.symm)
        rw [this] at t2
        exact d2 t2
    | data d => trivial
    | endFunction =>
      intro i hi _ l hl
      have hit : .text i.code ∈ a := by
        rcases run_items _ _ i hi with ⟨x, hx, _⟩ | g
        · cases hx
        · exact g
      exact (run_label_ids _ _ _).mpr (.inr (h.ends a b hab _ hit l hl))

/-! ## Data -/

/-- The data up to the next object with an initialiser, given the address of every
symbol. -/
def dataImage (loc : Nat → Int) : List Op → List Nat
  | [] => []
  | .data (.bytes b) :: l => b ++ dataImage loc l
  | .data (.addr s d) :: l => Reader.low 8 (loc s + d) ++ dataImage loc l
  | .symbol s :: l =>
    match s.kind with
    | .data _ _ => []
    | _ => dataImage loc l
  | _ :: l => dataImage loc l

/-- The data with every address filled in. -/
def filled (v : Pend → Int) (rs : List Pend) (t : List Nat) : List Nat :=
  rs.foldl (fun t p => poke t p.offset (le 8 (v p))) t

theorem filled_append (v : Pend → Int) (rs : List Pend) (t x : List Nat) (h : ∀ p ∈ rs, p.offset + 8 ≤ t.length) :
    filled v rs (t ++ x) = filled v rs t ++ x ∧ (filled v rs t).length = t.length := by
  induction rs generalizing t with
  | nil => exact ⟨rfl, rfl⟩
  | cons p rs ih =>
    have hp := h p (by simp)
    have e1 : poke (t ++ x) p.offset (le 8 (v p)) = poke t p.offset (le 8 (v p)) ++ x := by
      unfold poke
      rw [List.take_append_of_le_length (by omega), List.drop_append_of_le_length (by rw [le_length]; omega)]
      simp
    have e2 : (poke t p.offset (le 8 (v p))).length = t.length := by
      unfold poke
      simp only [List.length_append, List.length_take, List.length_drop, le_length]
      omega
    unfold filled
    rw [List.foldl_cons, List.foldl_cons, e1]
    have := ih (poke t p.offset (le 8 (v p))) (fun q hq => by rw [e2]; exact h q (by simp [hq]))
    unfold filled at this
    rw [e2] at this
    exact this

def RelIn (o : Obj) : Prop := ∀ p ∈ o.dataRel, p.offset + 8 ≤ o.data.length

theorem step_relIn (o : Obj) (op : Op) (h : RelIn o) : RelIn (o.step op) := by
  intro p hp
  cases op with
  | symbol s =>
    simp only [Obj.step, (symbol_keeps o s).2.2.1] at hp
    obtain ⟨x, hx⟩ := symbol_data_grows o s
    simp only [Obj.step, hx, List.length_append]
    have := h p hp
    omega
  | text c => exact h p hp
  | data d =>
    cases d with
    | bytes b =>
      have := h p hp
      simp only [Obj.step, Obj.datum, List.length_append]
      omega
    | addr s disp =>
      simp only [Obj.step, Obj.datum, List.mem_append, List.mem_singleton] at hp
      simp only [Obj.step, Obj.datum, List.length_append, List.length_replicate]
      rcases hp with hp | rfl
      · have := h p hp
        omega
      · exact Nat.le_refl _
  | endFunction => exact h p hp

theorem run_relIn (o : Obj) (ops : List Op) (h : RelIn o) : RelIn (o.run ops) := by
  induction ops generalizing o with
  | nil => exact h
  | cons op ops ih => rw [run_cons]; exact ih _ (step_relIn o op h)

/-- Data with addresses follow one another until the next object. -/
theorem run_image (v : Pend → Int) (loc : Nat → Int) (hv : ∀ s n d, v ⟨s, 1, n, d⟩ = loc s + d) (o : Obj) (ops : List Op)
    (h : RelIn o) :
    ∃ x, filled v (o.run ops).dataRel (o.run ops).data = filled v o.dataRel o.data ++ dataImage loc ops ++ x := by
  induction ops generalizing o with
  | nil => exact ⟨[], by simp [Obj.run, dataImage]⟩
  | cons op ops ih =>
    rw [run_cons]
    obtain ⟨x, h1⟩ := ih (o.step op) (step_relIn o op h)
    cases op with
    | symbol s =>
      obtain ⟨y, hy⟩ := symbol_data_grows o s
      simp only [Obj.step, (symbol_keeps o s).2.2.1, hy, (filled_append v o.dataRel o.data y h).1] at h1
      simp only [dataImage]
      split
      · exact ⟨y ++ dataImage loc ops ++ x, by simp only [Obj.step, h1, List.append_assoc, List.nil_append]⟩
      · rename_i hk
        have : y = [] := by
          have := symbol_data o s hk
          rw [hy] at this
          simpa using this
        subst this
        exact ⟨x, by simp only [Obj.step, h1, List.append_nil]⟩
    | text c => exact ⟨x, h1⟩
    | data d =>
      cases d with
      | bytes b =>
        refine ⟨x, ?_⟩
        simp only [Obj.step, Obj.datum, dataImage] at h1 ⊢
        rw [h1, (filled_append v o.dataRel o.data b h).1]
        simp
      | addr s disp =>
        refine ⟨x, ?_⟩
        simp only [Obj.step, Obj.datum, dataImage] at h1 ⊢
        rw [h1]
        obtain ⟨g1, g2⟩ := filled_append v o.dataRel o.data (List.replicate 8 0) h
        have e : filled v (o.dataRel ++ [⟨s, 1, o.data.length, disp⟩]) (o.data ++ List.replicate 8 0)
            = filled v o.dataRel o.data ++ Reader.low 8 (loc s + disp) := by
          unfold filled at g1 g2 ⊢
          rw [List.foldl_append, g1, List.foldl_cons, List.foldl_nil, hv, low_le]
          have := poke_mid (filled v o.dataRel o.data) (List.replicate 8 0) (le 8 (loc s + disp)) [] (by
            rw [le_length]; rfl)
          unfold filled at this
          rw [List.append_nil, List.append_nil, g2] at this
          exact this
        rw [e]
        simp
    | endFunction => exact ⟨x, h1⟩

variable {file : List Nat} {pic nc : Bool} {ops : List Op} {f : List Nat}

theorem linked_data (base : Int) (addr : Nat → Nat → Int) (off : Nat → Nat) (l : List Pend) (t : List Nat)
    (h : ∀ p ∈ l, p.type = 1) :
    Reader.linked base addr (l.map fun p => ⟨p.offset, off p.sym, p.type, relaAddend p⟩) t
      = filled (fun p => addr 1 (off p.sym) + p.addend) l t := by
  induction l generalizing t with
  | nil => rfl
  | cons p l ih =>
    have hp := h p (by simp)
    unfold Reader.linked filled at ih ⊢
    rw [List.map_cons, List.foldl_cons, List.foldl_cons, ← ih _ (fun q hq => h q (by simp [hq]))]
    congr 1
    simp only [hp, Reader.link, Reader.width, relaAddend, if_true, store_poke, low_le]
    norm_num

theorem run_dataRel_mem (o : Obj) (ops : List Op) (p : Pend) (h : p ∈ (o.run ops).dataRel) :
    p ∈ o.dataRel ∨ (p.type = 1 ∧ .data (.addr p.sym p.addend) ∈ ops) := by
  induction ops generalizing o with
  | nil => exact .inl h
  | cons op ops ih =>
    rw [run_cons] at h
    rcases ih _ h with g | ⟨g1, g2⟩
    · cases op with
      | symbol s => simp only [Obj.step, (symbol_keeps o s).2.2.1] at g; exact .inl g
      | text c => exact .inl g
      | data d =>
        cases d with
        | bytes b => exact .inl g
        | addr s disp =>
          simp only [Obj.step, Obj.datum, List.mem_append, List.mem_singleton] at g
          rcases g with g | rfl
          · exact .inl g
          · exact .inr ⟨rfl, by simp⟩
      | endFunction => exact .inl g
    · exact .inr ⟨g1, List.mem_cons_of_mem _ g2⟩

theorem order_mem (ops : List Op) (s : Sym) : s ∈ order ops ↔ s ∈ declared ops := by
  unfold order
  rw [List.mem_append, List.mem_filter, List.mem_filter]
  constructor
  · rintro (g | g) <;> exact g.1
  · intro g
    by_cases q : s.intern = true
    · exact .inl ⟨g, q⟩
    · exact .inr ⟨g, by simpa using q⟩

/-- The number of entries is bounded by the size of the file. -/
theorem Made.order_le (h : Made file pic nc ops f) : 8 + (order ops).length < 2 ^ 31 := by
  obtain ⟨off, w, _⟩ := h.written
  have hord : 24 * (8 + (order ops).length) ≤ (Reader.contents f 3).length := by
    rw [w.syms, entries_length, ← order_decls (file := file) (nc := nc)]
    unfold entries
    simp only [List.length_append, List.length_map, show Elf.base.length = 8 from rfl]
    omega
  have := contents_le f 3
  have := h.fit
  omega

theorem Made.off_lt (h : Made file pic nc ops f) {off : Nat → Nat} (w : Written f ((obj0 file nc).run ops) pic off)
    {t : Sym} (ht : t ∈ declared ops) : off t.id < 2 ^ 31 := by
  obtain ⟨j, hj⟩ := List.mem_iff_getElem?.mp ((order_mem ops t).mpr ht)
  obtain ⟨_, _, _, e, _⟩ := h.at w hj
  have := h.order_le
  have hn : j < (order ops).length := by
    rcases Nat.lt_or_ge j (order ops).length with g | g
    · exact g
    · rw [List.getElem?_eq_none g] at hj; cases hj
  omega

/-- The linked data are the data with every address filled in. -/
theorem Made.linkedData (h : Made file pic nc ops f) (hc : Calls ops) {off : Nat → Nat}
    (w : Written f ((obj0 file nc).run ops) pic off) (base : Int) (addr : Nat → Nat → Int) :
    Reader.linked base addr (Reader.relas (Reader.contents f 7)) (Reader.contents f 6)
      = filled (fun p => addr 1 (off p.sym) + p.addend) ((obj0 file nc).run ops).dataRel ((obj0 file nc).run ops).data := by
  have hrel : ∀ p ∈ ((obj0 file nc).run ops).dataRel, p.type = 1 ∧ .data (.addr p.sym p.addend) ∈ ops := by
    intro p hp
    rcases run_dataRel_mem _ _ p hp with g | g
    · cases g
    · exact g
  have hin := run_relIn (obj0 file nc) ops (by intro p hp; cases hp)
  have hl : ((obj0 file nc).run ops).data.length < 2 ^ 31 := by
    rw [← w.data]
    have := contents_le f 6
    have := h.fit
    omega
  rw [w.relData, w.data, relas_eq off _ (fun p hp => by
    obtain ⟨g1, g2⟩ := hrel p hp
    obtain ⟨d1, d2, t, d3, d4⟩ := hc.data _ _ g2
    have ho := h.off_lt w d3
    rw [d4] at ho
    have := hin p hp
    have e : relaAddend p = p.addend := by simp [relaAddend, g1]
    rw [e, g1]
    exact ⟨by omega, by omega, by decide, d1, d2⟩)]
  exact linked_data base addr off _ _ (fun p hp => (hrel p hp).1)

theorem dataImage_congr (l l' : Nat → Int) (ops : List Op) (h : ∀ s d, .data (.addr s d) ∈ ops → l s = l' s) :
    dataImage l ops = dataImage l' ops := by
  induction ops with
  | nil => rfl
  | cons op ops ih =>
    have := ih (fun s d g => h s d (List.mem_cons_of_mem _ g))
    cases op with
    | symbol s => simp only [dataImage, this]
    | text c => exact this
    | data d =>
      cases d with
      | bytes b => simp only [dataImage, this]
      | addr s disp => simp only [dataImage, this, h s disp (by simp)]
    | endFunction => exact this

/-! ## A compiled file -/

/-- A file written for a translation unit, small enough that offsets fit where they are
stored. -/
structure Compiled (file : List Nat) (pic noCommon : Bool) (ops : List Op) (f : List Nat) : Prop where
  calls : Calls ops
  out : assemble file pic noCommon ops = some f
  fit : f.length < 2 ^ 31
  space : room ops < 2 ^ 64

theorem Compiled.made (h : Compiled file pic nc ops f) : Made file pic nc ops f :=
  ⟨h.calls.ok file nc, h.out, h.fit, h.space⟩

/-- The entry of a symbol, the declaration in the object, and the call it comes from. -/
theorem Compiled.entry (h : Compiled file pic nc ops f) {a b : List Op} {s : Sym} (hops : ops = a ++ .symbol s :: b)
    {j : Nat} (hj : (order ops)[j]? = some s) {off : Nat → Nat}
    (w : Written f ((obj0 file nc).run ops) pic off) :
    ∃ d, d ∈ ((obj0 file nc).run ops).decls ∧ d.sym = s
      ∧ Reader.symbol (Reader.contents f 3) (8 + j)
        = ⟨d.name, if s.intern then 0 else 1, symType s, home nc s, d.value, d.size⟩
      ∧ ∀ d0, d0 ∈ (((obj0 file nc).run a).symbol s).decls → d0.sym = s → d.value = d0.value
        ∧ d.size = d0.size + if (((obj0 file nc).run a).symbol s).fn = some s.id then bodyLen b else 0 := by
  obtain ⟨d, h1, h2, h3, h4⟩ := h.made.at w hj
  refine ⟨d, h4, h2, ?_, ?_⟩
  · rw [← h2]; exact h.made.entry w h1
  · intro d0 g1 g2
    exact (h.made.decl hops g1 g2 w h4 h2).2

end Verif.Elf
