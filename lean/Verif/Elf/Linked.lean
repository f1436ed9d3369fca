import Verif.Elf.Out
import Verif.Encode.All

/-! Linking: what becomes of the code and the data when relocations are applied. -/

namespace Verif.Elf

open Encode (le Code Fix le_length le_lt value_le Instr encode Good meaning Links reach distance refType signed_le bmod_self)
open Encode.Intel (decode Ins)
open Reader (num)

theorem low_le (n : Nat) (x : Int) : Reader.low n x = le n x := by
  induction n generalizing x with
  | zero => rfl
  | succ n ih => simp only [Reader.low, le, ih]

theorem store_poke (t : List Nat) (o : Nat) (d : List Nat) : Reader.store t o d = poke t o d := by
  simp [Reader.store, poke]

/-! ## Instructions -/

theorem nop_none (t : List Nat) : decode (0x90 :: t) = none := rfl

theorem good_links {i : Instr} (h : Good i) {c : Code} (hc : encode i = some c) :
    ∃ ins, meaning i = some ins ∧ (∀ t, decode (c.val ++ t) = some (ins, t)) ∧ Links i c ins := by
  obtain ⟨c', ins, h1, h2, h3, h4⟩ := Encode.good_right i h
  rw [hc] at h1
  cases h1
  exact ⟨ins, h2, h3, h4⟩

/-- What the encoder makes of a well-formed request is as the writer wants it. -/
theorem good_code {i : Instr} (h : Good i) {c : Code} (hc : encode i = some c) : CodeOk c := by
  obtain ⟨ins, _, h3, h4⟩ := good_links h hc
  have hne : c.val ≠ [] := by
    intro g
    have := h3 []
    rw [g] at this
    cases this
  have hre : c.val.getD 0 0 ≠ 0x90 := by
    intro g
    have := h3 []
    cases hv : c.val with
    | nil => exact hne hv
    | cons b l =>
      rw [hv] at this g
      have g : b = 0x90 := g
      rw [g, List.cons_append, nop_none] at this
      cases this
  unfold Links at h4
  split at h4
  · exact ⟨.inl h4, (fun l pos a q => by rw [h4] at q; cases q), hne, hre⟩
  · obtain ⟨pre, post, hp, hv, _, hf⟩ := h4
    refine ⟨?_, ?_, hne, hre⟩
    · split_ifs at hf with hj
      · exact .inr (.inr ⟨_, _, _, hf⟩)
      · exact .inr (.inl ⟨_, _, _, _, hf⟩)
    · intro l pos a q
      split_ifs at hf with hj
      · rw [hf] at q
        cases q
        rw [hv]
        have := List.length_pos_iff.mpr hp
        simp only [List.length_append, List.length_cons, List.length_nil]
        omega
      · rw [hf] at q; cases q

/-- Bytes that refer to nothing. -/
def Plain (c : Code) : Prop := c.fix = [] ∧ c.val ≠ [] ∧ c.val.getD 0 0 ≠ 0x90

theorem Plain.code {c : Code} (h : Plain c) : CodeOk c :=
  ⟨.inl h.1, (by intro l pos a q; rw [h.1] at q; cases q), h.2.1, h.2.2⟩

/-- Every instruction comes from a well-formed request, or refers to nothing; what it
refers to, other than by a jump within the function, is declared. -/
def Coded (ops : List Op) : Prop :=
  ∀ c, .text c ∈ ops → Plain c ∨ ∃ i, Good i ∧ encode i = some c
    ∧ ∀ ty s disp, i.ref = some (ty, s, disp) → -2 ^ 32 < disp ∧ disp < 2 ^ 32
      ∧ (i.jumps = false → ∃ t ∈ declared ops, t.id = s)

theorem distance_le {x : Int} (h1 : -2 ^ 31 ≤ x) (h2 : x < 2 ^ 31) : distance (le 4 x) = x := by
  have h := Encode.signed_four (le_length 4 x) []
  rw [signed_le 4 x []] at h
  have e : x.bmod (256 ^ 4) = distance (le 4 x) := by
    simpa using h
  rw [← e]
  exact bmod_self (by omega) (by omega)

/-! ## The code as a sequence of instructions -/

theorem items_split (B : Item → List Nat) (k : Nat) (items : List Item) (hp : Placed k items)
    (hB : ∀ i ∈ items, (B i).length = i.code.val.length) (i : Item) (hi : i ∈ items) :
    k ≤ i.pos ∧ ∃ rest, (items.flatMap B).drop (i.pos - k) = B i ++ rest := by
  induction items generalizing k with
  | nil => cases hi
  | cons x items ih =>
    obtain ⟨h1, h2⟩ := hp
    rcases List.mem_cons.mp hi with rfl | hi'
    · refine ⟨by omega, items.flatMap B, ?_⟩
      rw [show i.pos - k = 0 by omega, List.flatMap_cons, List.drop_zero]
    · obtain ⟨g1, rest, g2⟩ := ih _ h2 (fun i hi => hB i (List.mem_cons_of_mem _ hi)) hi'
      refine ⟨by omega, rest, ?_⟩
      have hl := hB x (by simp)
      rw [List.flatMap_cons, List.drop_append, List.drop_eq_nil_of_le (by omega), List.nil_append, hl, ← g2]
      congr 1
      omega

/-- An instruction with its relocation applied. -/
def Item.linked (v : Pend → Int) (lab : Nat → Nat) (i : Item) : List Nat :=
  match i.code.fix with
  | [.reloc ty s pos a] => poke i.code.val pos (le 4 (v ⟨s, ty, i.pos + pos, a⟩))
  | _ => i.bytes lab

/-- The field of a relocation is within the instruction. -/
def RelocOk (c : Code) : Prop := ∀ ty s pos a, c.fix = [.reloc ty s pos a] → pos + 4 ≤ c.val.length

theorem linked_length (v : Pend → Int) (lab : Nat → Nat) (i : Item) (h : CodeOk i.code) (hr : RelocOk i.code) :
    (i.linked v lab).length = i.code.val.length := by
  unfold Item.linked
  split
  · rename_i ty s pos a hf
    have := hr _ _ _ _ hf
    exact poke_length _ _ _ (by rw [le_length]; omega)
  · exact item_length lab i h

theorem linked_items (v : Pend → Int) (lab : Nat → Nat) (items : List Item) (k : Nat) (hp : Placed k items)
    (hc : ∀ i ∈ items, CodeOk i.code) (hr : ∀ i ∈ items, RelocOk i.code) (pre : List Nat) (hk : pre.length = k) :
    (items.flatMap Item.relocs).foldl (fun t p => poke t p.offset (le 4 (v p))) (pre ++ items.flatMap (Item.bytes lab))
      = pre ++ items.flatMap (Item.linked v lab) := by
  induction items generalizing k pre with
  | nil => rfl
  | cons i items ih =>
    obtain ⟨h1, h2⟩ := hp
    have hci := hc i (by simp)
    have hri := hr i (by simp)
    have hlen : (pre ++ i.linked v lab).length = k + i.code.val.length := by
      rw [List.length_append, linked_length v lab i hci hri, hk]
    have key : (i.relocs).foldl (fun t p => poke t p.offset (le 4 (v p)))
        (pre ++ (i.bytes lab ++ items.flatMap (Item.bytes lab)))
        = pre ++ (i.linked v lab ++ items.flatMap (Item.bytes lab)) := by
      rcases hci.one with hf | ⟨ty, s, pos, a, hf⟩ | ⟨l, pos, a, hf⟩
      · simp only [Item.relocs, Item.linked, hf, List.foldl_nil]
      · have hb : i.bytes lab = i.code.val := by simp only [Item.bytes, hf]
        simp only [Item.relocs, Item.linked, hf, List.foldl_cons, List.foldl_nil, hb]
        rw [h1, ← hk]
        exact poke_append _ _ _ _ _ (by rw [le_length]; exact hri _ _ _ _ hf)
      · simp only [Item.relocs, Item.linked, hf, List.foldl_nil]
    simp only [List.flatMap_cons, List.foldl_append]
    rw [key, ← List.append_assoc]
    rw [ih _ h2 (fun j hj => hc j (List.mem_cons_of_mem _ hj)) (fun j hj => hr j (List.mem_cons_of_mem _ hj)) _ hlen]
    rw [List.append_assoc]

/-! ## Relocations read from the file -/

theorem relas_eq (off : Nat → Nat) (l : List Pend)
    (h : ∀ p ∈ l, p.offset < 2 ^ 64 ∧ off p.sym < 2 ^ 32 ∧ p.type < 2 ^ 32 ∧ -2 ^ 63 ≤ relaAddend p
      ∧ relaAddend p < 2 ^ 63) :
    Reader.relas (l.flatMap (relaBytes off)) = l.map fun p => ⟨p.offset, off p.sym, p.type, relaAddend p⟩ := by
  unfold Reader.relas
  rw [relas_length, Nat.mul_div_cancel_left _ (by decide)]
  apply List.ext_getElem?
  intro j
  rw [List.getElem?_map, List.getElem?_map]
  rcases Nat.lt_or_ge j l.length with g | g
  · rw [List.getElem?_range g]
    have hj : l[j]? = some l[j] := List.getElem?_eq_getElem g
    rw [hj]
    simp only [Option.map_some]
    obtain ⟨h1, h2, h3, h4, h5⟩ := h _ (List.getElem_mem g)
    rw [rela_at off l j _ hj h1 h2 h3 h4 h5]
  · rw [List.getElem?_eq_none (by simpa using g), List.getElem?_eq_none g]
    rfl

/-- Relocations of code: relative ones. -/
theorem linked_code (base : Int) (addr : Nat → Nat → Int) (off : Nat → Nat) (l : List Pend) (t : List Nat)
    (h : ∀ p ∈ l, p.type = 2 ∨ p.type = 4 ∨ p.type = 9) :
    Reader.linked base addr (l.map fun p => ⟨p.offset, off p.sym, p.type, relaAddend p⟩) t
      = l.foldl (fun t p => poke t p.offset
          (le 4 (addr p.type (off p.sym) + (p.addend - 4) - (base + p.offset)))) t := by
  induction l generalizing t with
  | nil => rfl
  | cons p l ih =>
    have hp := h p (by simp)
    unfold Reader.linked at ih ⊢
    simp only [List.map_cons, List.foldl_cons]
    rw [← ih _ (fun q hq => h q (List.mem_cons_of_mem _ hq))]
    congr 1
    have hl : ∀ S A P, Reader.link p.type S A P = some (S + A - P) := by
      intro S A P; rcases hp with g | g | g <;> rw [g] <;> rfl
    have hw : Reader.width p.type = 4 := by
      rcases hp with g | g | g <;> rw [g] <;> rfl
    rw [hl]
    simp only [hw, store_poke, low_le, relaAddend, if_pos hp]

/-! ## A file that was made -/

/-- A file written for a list of calls, small enough that offsets fit where they are
stored. -/
structure Made (file : List Nat) (pic noCommon : Bool) (ops : List Op) (f : List Nat) : Prop where
  ok : OpsOk (obj0 file noCommon) ops
  out : assemble file pic noCommon ops = some f
  fit : f.length < 2 ^ 31
  space : room ops < 2 ^ 64

/-- The symbols in the order of their entries: those local to the file first. -/
def order (ops : List Op) : List Sym :=
  (declared ops).filter (·.intern) ++ (declared ops).filter (fun s => !s.intern)

variable {file : List Nat} {pic nc : Bool} {ops : List Op} {f : List Nat}

theorem Made.written (h : Made file pic nc ops f) :
    ∃ off, Written f ((obj0 file nc).run ops) pic off
      ∧ (PowOps ops → ∀ s, .symbol s ∈ ops → ∀ k, k = 4 ∨ k = 5 ∨ k = 6 → home nc s = k →
          s.kind.align ∣ Reader.shAlign f k) := by
  obtain ⟨f', off, h1, h2⟩ := assemble_written file pic nc ops h.ok
  rw [h.out] at h1
  cases h1
  have := run_bss (obj0 file nc) ops h.ok
  have hb : (obj0 file nc).bss = 0 := rfl
  have := h.space
  obtain ⟨g1, g2⟩ := h2 (by have := h.fit; omega) (by omega)
  exact ⟨off, g1, g2⟩

theorem contents_le (f : List Nat) (k : Nat) : (Reader.contents f k).length ≤ f.length := by
  unfold Reader.contents
  rw [List.length_take, List.length_drop]
  omega

theorem order_decls (ops : List Op) :
    (((obj0 file nc).run ops).locals ++ ((obj0 file nc).run ops).globals).map (·.sym) = order ops := by
  have h := run_declared (obj0 file nc) ops
  have h0 : (obj0 file nc).decls.map (·.sym) = [] := rfl
  rw [h0, List.nil_append] at h
  unfold order Obj.locals Obj.globals
  rw [← h, List.filter_map, List.filter_map, List.map_append]
  rfl

theorem decl_mem {o : Obj} {d : Decl} (h : d ∈ o.locals ++ o.globals) : d ∈ o.decls := by
  rcases List.mem_append.mp h with h | h <;> exact (List.mem_filter.mp h).1

theorem Made.at (h : Made file pic nc ops f) {off : Nat → Nat} (w : Written f ((obj0 file nc).run ops) pic off)
    {j : Nat} {s : Sym} (hj : (order ops)[j]? = some s) :
    ∃ d, (((obj0 file nc).run ops).locals ++ ((obj0 file nc).run ops).globals)[j]? = some d ∧ d.sym = s
      ∧ off s.id = 8 + j ∧ d ∈ ((obj0 file nc).run ops).decls := by
  rw [← order_decls (file := file) (nc := nc), List.getElem?_map] at hj
  obtain ⟨d, hd, rfl⟩ := Option.map_eq_some_iff.mp hj
  exact ⟨d, hd, rfl, w.index j d hd, decl_mem (List.mem_of_getElem? hd)⟩

theorem text_length {o : Obj} {off : Nat → Nat} (w : Written f o pic off) : (Reader.contents f 8).length = o.len := by
  rw [w.text, w.ok.len]
  have := w.ok.items
  generalize o.items = l at this
  unfold total
  induction l with
  | nil => rfl
  | cons i l ih =>
    rw [List.flatMap_cons, List.length_append, item_length off i (this i (by simp)).code,
      ih (fun i hi => this i (List.mem_cons_of_mem _ hi)), List.map_cons, List.sum_cons]

theorem declared_size (hs : s ∈ declared ops) : s.kind.size ≤ room ops :=
  room_mem ops s ((declared_mem ops s).mp hs).1

/-- What a reader finds in the entry of a symbol. -/
theorem Made.entry (h : Made file pic nc ops f) {off : Nat → Nat} (w : Written f ((obj0 file nc).run ops) pic off)
    {j : Nat} {d : Decl}
    (hd : (((obj0 file nc).run ops).locals ++ ((obj0 file nc).run ops).globals)[j]? = some d) :
    Reader.symbol (Reader.contents f 3) (8 + j)
      = ⟨d.name, if d.sym.intern then 0 else 1, symType d.sym, home nc d.sym, d.value, d.size⟩ := by
  have hfit := h.fit
  have hmem := decl_mem (List.mem_of_getElem? hd)
  have hnc : ((obj0 file nc).run ops).noCommon = nc := run_noCommon _ _
  have hin : d.sym ∈ declared ops := by
    have h2 := run_declared (obj0 file nc) ops
    have h0 : (obj0 file nc).decls.map (·.sym) = [] := rfl
    rw [h0, List.nil_append] at h2
    rw [← h2]
    exact List.mem_map.mpr ⟨d, hmem, rfl⟩
  have hsz := declared_size hin
  have hsp := h.space
  have hbss : ((obj0 file nc).run ops).bss < 2 ^ 64 := by
    have := run_bss (obj0 file nc) ops h.ok
    have hb : (obj0 file nc).bss = 0 := rfl
    omega
  have hsit := w.sane.sits d hmem
  have hname := (w.sane.named d hmem).1
  have q2 := contents_le f 2
  have q5 := contents_le f 5
  have q6 := contents_le f 6
  have q8 := contents_le f 8
  rw [w.strs, List.length_append] at q2
  rw [w.rodata] at q5
  rw [w.data] at q6
  rw [text_length w] at q8
  have hal : alignOk d.sym.kind := by
    obtain ⟨a, b, hab⟩ := List.append_of_mem ((declared_mem ops d.sym).mp hin).1
    have := h.ok
    rw [hab, opsOk_append] at this
    exact this.2.1.2.2.1
  have hv : d.value < 2 ^ 64 ∧ d.size < 2 ^ 64 := by
    unfold Sits at hsit
    cases hk : d.sym.kind with
    | label => rw [hk] at hsit; exact absurd hsit id
    | func df =>
      rw [hk] at hsit
      cases df with
      | true => simp only at hsit; omega
      | false => simp only at hsit; omega
    | data n a =>
      rw [hk] at hsit hsz
      simp only [Kind.size] at hsit hsz
      omega
    | const b a =>
      rw [hk] at hsit
      simp only at hsit
      omega
    | object t n a =>
      rw [hk] at hsit hsz hal
      simp only [Kind.size] at hsit hsz
      have hal : 0 < a ∧ a ≤ 16 := hal
      split_ifs at hsit <;> omega
  have hty : symType d.sym < 16 := by
    unfold symType; split <;> (try split_ifs) <;> decide
  have hh : home nc d.sym < 2 ^ 16 := by
    unfold home; split <;> (try split_ifs) <;> decide
  have hget : (entries base ((obj0 file nc).run ops) pic)[8 + j]? = some (d.ent nc) := by
    unfold entries
    rw [List.append_assoc, List.getElem?_append_right (by show 8 ≤ 8 + j; omega)]
    have e : 8 + j - base.length = j := by show 8 + j - 8 = j; omega
    have hj : j < (((obj0 file nc).run ops).locals ++ ((obj0 file nc).run ops).globals).length := by
      rcases Nat.lt_or_ge j (((obj0 file nc).run ops).locals ++ ((obj0 file nc).run ops).globals).length with g | g
      · exact g
      · rw [List.getElem?_eq_none g] at hd; cases hd
    rw [e, List.getElem?_append_left (by rw [List.length_map]; exact hj), List.getElem?_map, hd, hnc]
    rfl
  rw [w.syms, symbol_at _ _ _ hget (by show d.name < _; omega)
    (by show (if d.sym.intern then 0 else 16) + symType d.sym < _; split_ifs <;> omega) hh hv.1 hv.2]
  simp only [Decl.ent]
  have e1 : ((if d.sym.intern = true then 0 else 16) + symType d.sym) / 16 = if d.sym.intern = true then 0 else 1 := by
    split_ifs <;> omega
  have e2 : ((if d.sym.intern = true then 0 else 16) + symType d.sym) % 16 = symType d.sym := by
    split_ifs <;> omega
  rw [e1, e2]

/-- The declaration made by a call. -/
theorem Made.decl (h : Made file pic nc ops f) {a b : List Op} {s : Sym} (hops : ops = a ++ .symbol s :: b)
    {d0 : Decl} (hd : d0 ∈ (((obj0 file nc).run a).symbol s).decls) (hs : d0.sym = s)
    {off : Nat → Nat} (w : Written f ((obj0 file nc).run ops) pic off)
    {d : Decl} (hm : d ∈ ((obj0 file nc).run ops).decls) (hds : d.sym = s) :
    d.name = d0.name ∧ d.value = d0.value
      ∧ d.size = d0.size + if (((obj0 file nc).run a).symbol s).fn = some s.id then bodyLen b else 0 := by
  have hok := h.ok
  rw [hops, opsOk_append] at hok
  obtain ⟨d', g1, g2, g3, g4, g5⟩ := run_decl _ b hok.2.2 d0 hd
  have hrun : (((obj0 file nc).run a).step (.symbol s)).run b = (obj0 file nc).run ops := by
    rw [hops, run_append, run_cons]
  rw [hrun] at g1
  have e : d = d' := by
    have := w.ok.decls
    have he : d.sym.id = d'.sym.id := by rw [hds, g2, hs]
    exact nodup_inj this hm g1 he
  rw [e]
  refine ⟨g3, g4, ?_⟩
  rw [g5, hs]
  rfl

/-! ## The linked code -/

theorem run_items (o : Obj) (ops : List Op) (i : Item) (h : i ∈ (o.run ops).items) :
    (∃ x ∈ o.items, x.code = i.code) ∨ .text i.code ∈ ops := by
  induction ops generalizing o with
  | nil => exact .inl ⟨i, h, rfl⟩
  | cons op ops ih =>
    rw [run_cons] at h
    rcases ih _ h with ⟨x, hx, e⟩ | g
    · cases op with
      | symbol s => simp only [Obj.step, (symbol_keeps o s).2.1] at hx; exact .inl ⟨x, hx, e⟩
      | text c =>
        simp only [Obj.step, Obj.text, List.mem_append, List.mem_singleton] at hx
        rcases hx with hx | rfl
        · exact .inl ⟨x, hx, e⟩
        · exact .inr (by rw [← e]; simp)
      | data d => simp only [Obj.step, (datum_keeps o d).2.1] at hx; exact .inl ⟨x, hx, e⟩
      | endFunction =>
        simp only [Obj.step, List.mem_map] at hx
        obtain ⟨y, hy, rfl⟩ := hx
        exact .inl ⟨y, hy, e⟩
    · exact .inr (List.mem_cons_of_mem _ g)

/-- The relocation of a request. -/
theorem ref_fix {i : Instr} {c : Code} {ins : Ins} (h : Links i c ins) {ty : Nat} {s pos : Nat} {a : Int}
    (hf : c.fix = [.reloc ty s pos a]) :
    ∃ t disp, i.ref = some (t, s, disp) ∧ i.jumps = false ∧ ty = refType t ∧ pos + 4 ≤ c.val.length
      ∧ a = disp - (c.val.length - (pos + 4) : Nat) := by
  unfold Links at h
  split at h
  · rw [h] at hf; cases hf
  · rename_i t s' disp hr
    obtain ⟨pre, post, _, hv, _, hx⟩ := h
    rw [hf] at hx
    injection hx with hx _
    split_ifs at hx with hj
    injection hx with x1 x2 x3 x4
    subst x1 x2 x3 x4
    have hl : c.val.length = pre.length + (4 + post.length) := by rw [hv]; simp; omega
    exact ⟨t, disp, hr, by simpa using hj, rfl, by omega, by rw [show c.val.length - (pre.length + 4) = post.length by omega]⟩

theorem refType_cases (t : Encode.AType) : refType t = 2 ∨ refType t = 4 ∨ refType t = 9 := by
  cases t <;> simp [refType]

theorem poke_mid (pre z w post : List Nat) (h : z.length = w.length) :
    poke (pre ++ (z ++ post)) pre.length w = pre ++ (w ++ post) := by
  unfold poke
  rw [List.take_left' rfl, ← List.drop_drop, List.drop_left' rfl, List.drop_left' h, List.append_assoc]

/-- The linked code is the sequence of linked instructions. -/
theorem Made.linked (h : Made file pic nc ops f) (hc : Coded ops) {off : Nat → Nat}
    (w : Written f ((obj0 file nc).run ops) pic off) (base : Int) (addr : Nat → Nat → Int) :
    Reader.linked base addr (Reader.relas (Reader.contents f 9)) (Reader.contents f 8)
      = ((obj0 file nc).run ops).items.flatMap (Item.linked
        (fun p => addr p.type (off p.sym) + (p.addend - 4) - (base + p.offset)) off) := by
  have hfit := h.fit
  have hitem : ∀ i ∈ ((obj0 file nc).run ops).items, .text i.code ∈ ops := by
    intro i hi
    rcases run_items _ _ i hi with ⟨x, hx, _⟩ | g
    · cases hx
    · exact g
  have hrel : ∀ i ∈ ((obj0 file nc).run ops).items, RelocOk i.code := by
    intro i hi ty s pos a hf
    rcases hc _ (hitem i hi) with hpl | ⟨r, hr1, hr2, _⟩
    · rw [hpl.1] at hf; cases hf
    obtain ⟨ins, _, _, hl⟩ := good_links hr1 hr2
    obtain ⟨_, _, _, _, _, g, _⟩ := ref_fix hl hf
    exact g
  have hcode : ∀ i ∈ ((obj0 file nc).run ops).items, CodeOk i.code := fun i hi => (w.ok.items i hi).code
  have hpend : ∀ p ∈ ((obj0 file nc).run ops).items.flatMap Item.relocs,
      (p.type = 2 ∨ p.type = 4 ∨ p.type = 9) ∧ p.offset < 2 ^ 64 ∧ off p.sym < 2 ^ 32
      ∧ -2 ^ 63 ≤ relaAddend p ∧ relaAddend p < 2 ^ 63 := by
    intro p hp
    obtain ⟨i, hi, hp⟩ := List.mem_flatMap.mp hp
    unfold Item.relocs at hp
    split at hp
    · rename_i ty s pos a hf
      rw [List.mem_singleton] at hp
      rcases hc _ (hitem i hi) with hpl | ⟨r, hr1, hr2, hr3⟩
      · rw [hpl.1] at hf; cases hf
      obtain ⟨ins, _, _, hl⟩ := good_links hr1 hr2
      obtain ⟨t, disp, g1, g2, g3, g4, g5⟩ := ref_fix hl hf
      obtain ⟨k1, k2, k3⟩ := hr3 _ _ _ g1
      obtain ⟨t', ht', k4⟩ := k3 g2
      have hj : ∃ j : Nat, (order ops)[j]? = some t' := by
        apply List.mem_iff_getElem?.mp
        unfold order
        rw [List.mem_append, List.mem_filter, List.mem_filter]
        by_cases q : t'.intern = true
        · exact .inl ⟨ht', q⟩
        · exact .inr ⟨ht', by simpa using q⟩
      obtain ⟨j, hj⟩ := hj
      obtain ⟨d, d1, d2, d3, d4⟩ := h.at w hj
      have hpos : i.pos + i.code.val.length ≤ (Reader.contents f 8).length := by
        obtain ⟨_, rest, e⟩ := items_split (Item.bytes off) 0 _ w.ok.placed (fun i hi => item_length off i (hcode i hi)) i hi
        have hl := congrArg List.length e
        rw [← w.text, List.length_drop, List.length_append, item_length off i (hcode i hi)] at hl
        have := List.length_pos_iff.mpr (hcode i hi).some
        omega
      have hle := contents_le f 8
      have hn : j < (order ops).length := by
        rcases Nat.lt_or_ge j (order ops).length with g | g
        · exact g
        · rw [List.getElem?_eq_none g] at hj; cases hj
      have hord : 24 * (8 + (order ops).length) ≤ (Reader.contents f 3).length := by
        rw [w.syms, entries_length, ← order_decls (file := file) (nc := nc)]
        unfold entries
        simp only [List.length_append, List.length_map, show Elf.base.length = 8 from rfl]
        omega
      have hle3 := contents_le f 3
      have hlen : i.code.val.length ≤ f.length := by omega
      subst hp
      have ht : ty = 2 ∨ ty = 4 ∨ ty = 9 := by rw [g3]; exact refType_cases t
      refine ⟨ht, by show i.pos + pos < _; omega, ?_, ?_, ?_⟩
      · show off s < _
        rw [← k4, d3]
        omega
      · simp only [relaAddend, if_pos ht, g5]
        omega
      · simp only [relaAddend, if_pos ht, g5]
        omega
    · cases hp
  rw [w.relText, w.text, relas_eq off _ (fun p hp => by
    obtain ⟨a1, a2, a3, a4, a5⟩ := hpend p hp
    refine ⟨a2, a3, ?_, a4, a5⟩
    rcases a1 with g | g | g <;> rw [g] <;> decide)]
  rw [linked_code base addr off _ _ (fun p hp => (hpend p hp).1)]
  exact linked_items _ off _ 0 w.ok.placed hcode hrel [] rfl

theorem item_label (v : Pend → Int) (lab : Nat → Nat) {p l : Nat} {c : Code} {pre post : List Nat} {x : Int}
    (hv : c.val = pre ++ ([0, 0, 0, 0] ++ post)) (hf : c.fix = [.label l pre.length (0 - post.length - 4)])
    (hx : x = (lab l : Int) - (p + c.val.length : Nat)) :
    Item.linked v lab ⟨p, c, false⟩ = pre ++ (le 4 x ++ post) := by
  have hL : c.val.length = pre.length + (4 + post.length) := by rw [hv]; simp; omega
  have e : (0 - post.length - 4 : Int) + ((lab l : Int) - (p + pre.length : Nat)) = x := by omega
  simp only [Item.linked, Item.bytes, hf, Bool.false_eq_true, if_false, e]
  rw [hv, poke_mid _ _ _ _ (by rw [le_length]; rfl)]

theorem item_reloc (v : Pend → Int) (lab : Nat → Nat) {p ty s : Nat} {a : Int} {c : Code} {pre post : List Nat} {x : Int}
    (hv : c.val = pre ++ ([0, 0, 0, 0] ++ post)) (hf : c.fix = [.reloc ty s pre.length a])
    (hx : v ⟨s, ty, p + pre.length, a⟩ = x) :
    Item.linked v lab ⟨p, c, false⟩ = pre ++ (le 4 x ++ post) := by
  simp only [Item.linked, hf, hx]
  rw [hv, poke_mid _ _ _ _ (by rw [le_length]; rfl)]

theorem codeLen_append (a b : List Op) : codeLen (a ++ b) = codeLen a + codeLen b := by
  induction a with
  | nil => simp [codeLen]
  | cons x a ih => cases x <;> simp only [List.cons_append, codeLen, ih] <;> omega

theorem codeLen_le_left (a b : List Op) : codeLen a ≤ codeLen (a ++ b) := by
  rw [codeLen_append]; omega

theorem codeLen_text (a b : List Op) (c : Code) : codeLen a + c.val.length ≤ codeLen (a ++ .text c :: b) := by
  rw [codeLen_append]; simp only [codeLen]; omega

/-- **The linked code, instruction by instruction.** -/
theorem Made.walk (h : Made file pic nc ops f) (hc : Coded ops) {a b : List Op} {c : Code}
    (hops : ops = a ++ .text c :: b) (hend : .endFunction ∈ b) {i : Instr} (hi : Good i) (he : encode i = some c)
    {ins : Ins} (hm : meaning i = some ins) (base : Int) (addr : Nat → Nat → Int) :
    let t := Reader.linked base addr (Reader.relas (Reader.contents f 9)) (Reader.contents f 8)
    (i.ref = none → decode (t.drop (codeLen a)) = some (ins, t.drop (codeLen a + c.val.length)))
    ∧ (∀ l a' b' s, i.jumps = true → i.ref = some (.normal, l, 0) → ops = a' ++ .symbol s :: b' → s.kind = .label →
      s.id = l → decode (t.drop (codeLen a))
        = some (reach ins ((codeLen a' : Int) - (codeLen a + c.val.length : Nat)), t.drop (codeLen a + c.val.length)))
    ∧ (∀ ty s disp j, i.jumps = false → i.ref = some (ty, s.id, disp) → (order ops)[j]? = some s →
      -2 ^ 31 ≤ addr (refType ty) (8 + j) + disp - (base + (codeLen a + c.val.length : Nat)) →
      addr (refType ty) (8 + j) + disp - (base + (codeLen a + c.val.length : Nat)) < 2 ^ 31 →
      decode (t.drop (codeLen a))
        = some (reach ins (addr (refType ty) (8 + j) + disp - (base + (codeLen a + c.val.length : Nat))),
          t.drop (codeLen a + c.val.length))) := by
  intro t
  obtain ⟨off, w, _⟩ := h.written
  have hfit := h.fit
  have hcode : ∀ i ∈ ((obj0 file nc).run ops).items, CodeOk i.code := fun i hi => (w.ok.items i hi).code
  have hitem : ∀ i ∈ ((obj0 file nc).run ops).items, .text i.code ∈ ops := by
    intro i hi
    rcases run_items _ _ i hi with ⟨x, hx, _⟩ | g
    · cases hx
    · exact g
  have hrel : ∀ i ∈ ((obj0 file nc).run ops).items, RelocOk i.code := by
    intro i hi ty s pos a hf
    rcases hc _ (hitem i hi) with hpl | ⟨r, hr1, hr2, _⟩
    · rw [hpl.1] at hf; cases hf
    obtain ⟨ins, _, _, hl⟩ := good_links hr1 hr2
    obtain ⟨_, _, _, _, _, g, _⟩ := ref_fix hl hf
    exact g
  obtain ⟨v, hv⟩ : ∃ v : Pend → Int, v = fun p => addr p.type (off p.sym) + (p.addend - 4) - (base + p.offset) := ⟨_, rfl⟩
  have ht : t = ((obj0 file nc).run ops).items.flatMap (Item.linked v off) := by
    rw [hv]; exact h.linked hc w base addr
  obtain ⟨ah, hin, hah⟩ := item_at (obj0 file nc) a b c
  rw [← hops] at hin
  have hah := hah hend
  subst hah
  have h0 : (obj0 file nc).len = 0 := rfl
  rw [h0, Nat.zero_add] at hin
  obtain ⟨_, rest, hsplit⟩ := items_split (Item.linked v off) 0 _ w.ok.placed
    (fun i hi => linked_length v off i (hcode i hi) (hrel i hi)) _ hin
  rw [← ht, Nat.sub_zero] at hsplit
  simp only at hsplit
  have hlen := linked_length v off _ (hcode _ hin) (hrel _ hin)
  simp only at hlen
  have hrest : t.drop (codeLen a + c.val.length) = rest := by
    rw [← List.drop_drop, hsplit, List.drop_left' hlen]
  obtain ⟨ins', m1, m2, m3⟩ := good_links hi he
  rw [hm] at m1
  cases m1
  rw [hrest, hsplit]
  have htl : (Reader.contents f 8).length = codeLen ops := by
    rw [text_length w, run_len, h0, Nat.zero_add]
  have hle := contents_le f 8
  refine ⟨?_, ?_, ?_⟩
  · intro hr
    unfold Links at m3
    rw [hr] at m3
    have m3 : c.fix = [] := m3
    have : Item.linked v off ⟨codeLen a, c, false⟩ = c.val := by
      simp only [Item.linked, Item.bytes, m3]
    rw [this]
    exact m2 rest
  · intro l a' b' s hj hr hops' hk hid
    unfold Links at m3
    rw [hr] at m3
    obtain ⟨pre, post, hp, hval, hd, hf⟩ := m3
    rw [if_pos hj] at hf
    have hlab := w.labels _ (by
      have := label_at (obj0 file nc) a' b' s hk
      rw [← hops'] at this
      exact this)
    simp only [h0, Nat.zero_add] at hlab
    rw [hid] at hlab
    rw [item_label v off hval hf (by rw [hlab]), List.append_assoc, List.append_assoc, hd _ _ (le_length 4 _)]
    have c1 := codeLen_text a b c
    have c2 := codeLen_le_left a' (.symbol s :: b')
    rw [← hops] at c1
    rw [← hops'] at c2
    rw [distance_le (by omega) (by omega)]
  · intro ty s disp j hj hr ho b1 b2
    unfold Links at m3
    rw [hr] at m3
    obtain ⟨pre, post, hp, hval, hd, hf⟩ := m3
    rw [hj] at hf
    obtain ⟨_, _, _, hoff, _⟩ := h.at w ho
    have hL : c.val.length = pre.length + (4 + post.length) := by rw [hval]; simp; omega
    rw [item_reloc v off hval hf (x := addr (refType ty) (8 + j) + disp - (base + (codeLen a + c.val.length : Nat)))
      (by rw [hv]; simp only [hoff]; omega), List.append_assoc, List.append_assoc, hd _ _ (le_length 4 _),
      distance_le b1 b2]

/-- Bytes that refer to nothing are there unchanged. -/
theorem Made.plain (h : Made file pic nc ops f) (hc : Coded ops) {a b : List Op} {c : Code}
    (hops : ops = a ++ .text c :: b) (hend : .endFunction ∈ b) (hf : c.fix = []) (base : Int) (addr : Nat → Nat → Int) :
    let t := Reader.linked base addr (Reader.relas (Reader.contents f 9)) (Reader.contents f 8)
    t.drop (codeLen a) = c.val ++ t.drop (codeLen a + c.val.length) := by
  intro t
  obtain ⟨off, w, _⟩ := h.written
  have hfit := h.fit
  have hcode : ∀ i ∈ ((obj0 file nc).run ops).items, CodeOk i.code := fun i hi => (w.ok.items i hi).code
  have hitem : ∀ i ∈ ((obj0 file nc).run ops).items, .text i.code ∈ ops := by
    intro i hi
    rcases run_items _ _ i hi with ⟨x, hx, _⟩ | g
    · cases hx
    · exact g
  have hrel : ∀ i ∈ ((obj0 file nc).run ops).items, RelocOk i.code := by
    intro i hi ty s pos a hf
    rcases hc _ (hitem i hi) with hpl | ⟨r, hr1, hr2, _⟩
    · rw [hpl.1] at hf; cases hf
    obtain ⟨ins, _, _, hl⟩ := good_links hr1 hr2
    obtain ⟨_, _, _, _, _, g, _⟩ := ref_fix hl hf
    exact g
  obtain ⟨v, hv⟩ : ∃ v : Pend → Int, v = fun p => addr p.type (off p.sym) + (p.addend - 4) - (base + p.offset) := ⟨_, rfl⟩
  have ht : t = ((obj0 file nc).run ops).items.flatMap (Item.linked v off) := by
    rw [hv]; exact h.linked hc w base addr
  obtain ⟨ah, hin, hah⟩ := item_at (obj0 file nc) a b c
  rw [← hops] at hin
  have hah := hah hend
  subst hah
  have h0 : (obj0 file nc).len = 0 := rfl
  rw [h0, Nat.zero_add] at hin
  obtain ⟨_, rest, hsplit⟩ := items_split (Item.linked v off) 0 _ w.ok.placed
    (fun i hi => linked_length v off i (hcode i hi) (hrel i hi)) _ hin
  rw [← ht, Nat.sub_zero] at hsplit
  simp only at hsplit
  have hlen := linked_length v off _ (hcode _ hin) (hrel _ hin)
  simp only at hlen
  have hrest : t.drop (codeLen a + c.val.length) = rest := by
    rw [← List.drop_drop, hsplit, List.drop_left' hlen]
  have : Item.linked v off ⟨codeLen a, c, false⟩ = c.val := by
    simp only [Item.linked, Item.bytes, hf]
  rw [hrest, hsplit, this]

end Verif.Elf
