import Verif.Listing.Main
import Verif.Listing.Code
import Verif.Props.C83

/-!
# Symbols, and whole files
-/

namespace Verif.Listing

open Gas
open Encode (le)
open Asm (natText intText stored)
open Asm.Printed (Named IntRange)

def Sym.elf (name : Nat → Bytes) (s : Sym) : Elf.Sym := ⟨s.id, toNats (name s.id), s.intern, s.kind.elf⟩

theorem entries_declare (o : Elf.Obj) (s : Elf.Sym) (v n : Nat) : entries (o.declare s v n) = entries o ++ [(s, v)] := by
  simp [entries, Elf.Obj.declare]

theorem Same.declare {a : Image} {o : Elf.Obj} (h : Same a o) (s : Elf.Sym) (v n : Nat) {b : Image}
    (h1 : b.data = a.data) (h2 : b.rodata = a.rodata) (h3 : b.rel = a.rel)
    (h4 : b.defs = a.defs ++ (defOf (s, v)).toList) (h5 : b.globals = a.globals ++ (globalOf (s, v)).toList)
    (h6 : b.commons.map (fun c => (c.1, c.2.1)) = a.commons.map (fun c => (c.1, c.2.1)) ++ (commonOf (s, v)).toList)
    (h7 : b.locals = a.locals ++ (localOf (s, v)).toList)
    (h8 : b.code = a.code := by rfl)
    (h9 : (b.labels.map fun l => (l.1, startOf o.items l.2))
      = (a.labels.map fun l => (l.1, startOf o.items l.2)) ++ (funcOf (s, v)).toList := by simp [funcOf]) :
    Same b (o.declare s v n) := by
  have key : ∀ {β : Type} (f : Elf.Sym × Nat → Option β),
      (entries (o.declare s v n)).filterMap f = (entries o).filterMap f ++ (f (s, v)).toList := by
    intro β f
    rw [entries_declare, List.filterMap_append]
    congr 1
  refine ⟨by rw [h1, h.data]; rfl, by rw [h2, h.rodata]; rfl, by rw [h3, h.rel]; rfl, ?_, ?_, ?_, ?_, by rw [h8]; exact h.code, ?_⟩
  · rw [key, h4, h.defs]
  · rw [key, h5, h.globals]
  · rw [key, h6, h.commons]
  · rw [key, h7, h.locals]
  · rw [key, ← List.append_assoc]
    show (b.labels.map fun l => (l.1, startOf o.items l.2)).Perm _
    rw [h9]
    exact h.labels.append_right _

theorem does_globals {syms name a} {s : Sym} (h : Named syms name s.id) :
    Does syms a (globl name s) { a with globals := a.globals ++ if s.intern then [] else [s.id] } := by
  unfold globl
  split_ifs
  · have : ({ a with globals := a.globals ++ [] } : Image) = a := by rw [List.append_nil]
    rw [this]
    exact Does.nil
  · exact does_globl h

theorem does_object {syms name a} {s : Sym} (h : Named syms name s.id) (size : Nat) {align : Nat} (ha : 0 < align) :
    Does syms a (objectText name s size align)
      { a with
        sec := .data
        globals := a.globals ++ if s.intern then [] else [s.id]
        data := Elf.padded align a.data
        types := a.types ++ [(s.id, false)]
        sizes := a.sizes ++ [(s.id, size)]
        defs := a.defs ++ [(s.id, .data, (Elf.padded align a.data).length)] } := by
  unfold objectText
  refine (does_section .data).trans ((does_globals h).trans ((does_align ha rfl).trans
    ((does_type h false).trans ((does_size h size).trans ?_))))
  exact does_label h

theorem does_const {syms name a} {s : Sym} (h : Named syms name s.id) {align : Nat} (ha : 0 < align) :
    Does syms a (constText name s align)
      { a with
        sec := .rodata
        rodata := Elf.padded align a.rodata
        defs := a.defs ++ [(s.id, .rodata, (Elf.padded align a.rodata).length)] } := by
  unfold constText
  refine (does_section .rodata).trans ((does_align ha rfl).trans ?_)
  exact does_label h

/-- What is known of the code. -/
structure Fit (a : Image) (o : Elf.Obj) : Prop where
  len : o.len = startOf o.items o.items.length
  bound : ∀ l ∈ a.labels, l.2 ≤ a.code.length

theorem Fit.of {a b : Image} {o o' : Elf.Obj} (h : Fit a o) (h1 : o'.len = o.len) (h2 : o'.items = o.items)
    (h3 : b.labels = a.labels) (h4 : b.code = a.code) : Fit b o' :=
  ⟨by rw [h1, h2, h.len], by rw [h3, h4]; exact h.bound⟩

theorem symbol_len (o : Elf.Obj) (s : Elf.Sym) : (o.symbol s).len = o.len ∧ (o.symbol s).items = o.items := by
  unfold Elf.Obj.symbol Elf.Obj.declare
  cases s.kind <;> dsimp only <;> (try split_ifs) <;> exact ⟨rfl, rfl⟩

theorem Fit.symbol {a b : Image} {o : Elf.Obj} {s : Elf.Sym} (h : Fit a o)
    (h3 : ∀ l ∈ b.labels, l ∈ a.labels ∨ l.2 = a.code.length) (h4 : b.code = a.code) : Fit b (o.symbol s) := by
  refine ⟨by rw [(symbol_len o s).1, (symbol_len o s).2, h.len], fun l hl => ?_⟩
  rw [h4]
  rcases h3 l hl with h3 | h3
  · exact h.bound l h3
  · omega

/-- What is known of the state between calls. -/
structure Inv (syms : Bytes → Option Nat) (name : Nat → Bytes) (p : Place) (cur : Option Nat) (a : Image) : Prop where
  text : p = .text → a.sec = .text
  data : p = .data → a.sec = .data
  cur : ∀ f, cur = some f → a.sec = .text ∧ Named syms name f

theorem flush_does {syms name p cur a} (h : Inv syms name p cur a) : Does syms a (flushText name cur) a := by
  cases cur with
  | none => exact Does.nil
  | some f => exact does_flush (h.cur f rfl).2 (h.cur f rfl).1

theorem nat_int (n : Nat) : natText n = intText n := by
  unfold intText
  rw [if_neg (by omega)]
  rfl

theorem symbol_does {syms name} {p p' : Place} {cur : Option Nat} {a : Image} {s : Sym} {o : Elf.Obj}
    (hok : OpOk syms name (.symbol s)) (hp : place p (.symbol s) = some p') (hi : Inv syms name p cur a)
    (h : Same a o) (hf : Fit a o) (hc : o.noCommon = false) :
    ∃ b, Does syms a (symbolText false name s) b ∧ Same b (o.symbol (s.elf name)) ∧
      Inv syms name p' (current cur s) b ∧ b.sizes = a.sizes ++ (sizeOf (.symbol s)).toList ∧
      b.types = a.types ++ (typeOf (.symbol s)).toList ∧ b.commons = a.commons ++ (alignOf (.symbol s)).toList ∧
      Fit b (o.symbol (s.elf name)) := by
  obtain ⟨hn, hk⟩ := hok
  obtain ⟨id, intern, kind⟩ := s
  simp only at hn hk
  have const : ∀ {b : Image} (bytes : List Nat) (align : Nat), 
      b.data = a.data → b.rodata = Elf.padded align a.rodata ++ bytes → b.rel = a.rel →
      b.defs = a.defs ++ [(id, .rodata, (Elf.padded align a.rodata).length)] → b.globals = a.globals →
      b.commons = a.commons → b.locals = a.locals → b.code = a.code → b.labels = a.labels →
      Same b (o.symbol ⟨id, toNats (name id), intern, .const bytes align⟩) := by
    intro b bytes align h1 h2 h3 h4 h5 h6 h7 h8 h9
    have := h.declare ⟨id, toNats (name id), intern, .const bytes align⟩ (Elf.padded align o.rodata).length bytes.length
      (b := { b with rodata := a.rodata }) h1 rfl h3 (by rw [← h.rodata]; exact h4) (by rw [h5]; simp [globalOf])
      (by rw [h6]; simp [commonOf]) (by rw [h7]; simp [localOf]) h8 (by simp [funcOf, h9])
    exact ⟨this.data, by rw [h2, h.rodata]; rfl, this.rel, this.defs, this.globals, this.commons, this.locals, this.code, this.labels⟩
  cases kind with
  | label =>
    simp only [place] at hp
    split_ifs at hp with hpt
    simp only [Option.some.injEq] at hp
    subst hp hpt
    have hs := hi.text rfl
    refine ⟨_, does_label hn, ?_, ?_, ?_, ?_, ?_, ?_⟩
    · simp only [Image.label, hs]
      refine ⟨h.data, h.rodata, h.rel, h.defs, h.globals, h.commons, h.locals, h.code, ?_⟩
      rw [List.map_append]
      refine (h.labels.append_right _).trans ?_
      show ((o.labels ++ List.filterMap funcOf (entries o)) ++ [(id, startOf o.items a.code.length)]).Perm
        ((o.labels ++ [(id, o.len)]) ++ List.filterMap funcOf (entries o))
      rw [h.code.length_eq, ← hf.len, List.append_assoc, List.append_assoc]
      exact List.Perm.append_left _ List.perm_append_comm
    · simp only [Image.label, hs, current]
      exact ⟨fun _ => rfl, fun e => (Place.noConfusion e), fun f hk' => ⟨rfl, (hi.cur f hk').2⟩⟩
    · simp [Image.label, hs, sizeOf]
    · simp [Image.label, hs, typeOf]
    · simp [Image.label, hs, alignOf]
    · simp only [Image.label, hs]
      refine hf.symbol (fun l hl => ?_) rfl
      rcases List.mem_append.mp hl with hl | hl
      · exact .inl hl
      · simp only [List.mem_singleton] at hl
        rw [hl]; exact .inr rfl
  | func d =>
    cases d with
    | false =>
      simp only [place, Option.some.injEq] at hp
      subst hp
      refine ⟨a, Does.nil, ?_, ⟨fun e => (Place.noConfusion e), fun e => (Place.noConfusion e), fun f hk' => by
        simp [current] at hk'⟩, by simp [sizeOf], by simp [typeOf], by simp [alignOf], hf.symbol (fun _ h => .inl h) rfl⟩
      have := h.declare ⟨id, toNats (name id), intern, .func false⟩ 0 0 (b := a) rfl rfl rfl (by simp [defOf])
        (by simp [globalOf]) (by simp [commonOf]) (by simp [localOf])
      exact ⟨this.data, this.rodata, this.rel, this.defs, this.globals, this.commons, this.locals, this.code, this.labels⟩
    | true =>
      simp only [place, Option.some.injEq] at hp
      subst hp
      refine ⟨_, (does_section .text).trans ((does_globals hn).trans ((does_type hn true).trans (does_label hn))), ?_, ?_, ?_, ?_, ?_, ?_⟩
      · have := h.declare ⟨id, toNats (name id), intern, .func true⟩ o.len 0
          (b := { a with sec := .text, globals := a.globals ++ if intern then [] else [id], types := a.types ++ [(id, true)],
                         labels := a.labels ++ [(id, a.code.length)] }) rfl rfl rfl (by simp [defOf])
          (by cases intern <;> simp [globalOf]) (by simp [commonOf]) (by simp [localOf]) rfl
          (by simp [funcOf, h.code.length_eq, ← hf.len])
        exact ⟨this.data, this.rodata, this.rel, this.defs, this.globals, this.commons, this.locals, this.code, this.labels⟩
      · exact ⟨fun _ => rfl, fun e => (Place.noConfusion e), fun f hk' => ⟨rfl, by
          simp only [current, Option.some.injEq] at hk'; rw [← hk']; exact hn⟩⟩
      · simp [Image.label, sizeOf]
      · simp [Image.label, typeOf]
      · simp [Image.label, alignOf]
      · refine hf.symbol (fun l hl => ?_) rfl
        rcases List.mem_append.mp hl with hl | hl
        · exact .inl hl
        · simp only [List.mem_singleton] at hl
          rw [hl]; exact .inr rfl
  | data size align =>
    simp only [place, Option.some.injEq] at hp
    subst hp
    refine ⟨_, does_object hn size hk, ?_, ⟨fun e => (Place.noConfusion e), fun _ => rfl, fun f hk' => by
      simp [current] at hk'⟩, by simp [sizeOf], by simp [typeOf], by simp [alignOf], hf.symbol (fun _ h => .inl h) rfl⟩
    have := h.declare ⟨id, toNats (name id), intern, .data size align⟩ (Elf.padded align o.data).length size
      (b := { a with globals := a.globals ++ if intern then [] else [id]
                     defs := a.defs ++ [(id, .data, (Elf.padded align a.data).length)] }) rfl rfl rfl
      (by simp [defOf, h.data]) (by cases intern <;> simp [globalOf]) (by simp [commonOf]) (by simp [localOf])
    exact ⟨by show Elf.padded align a.data = Elf.padded align o.data; rw [h.data], this.rodata, this.rel, this.defs,
      this.globals, this.commons, this.locals, this.code, this.labels⟩
  | literal t align =>
    simp only [place, Option.some.injEq] at hp
    subst hp
    refine ⟨_, (does_section .rodata).trans ((does_align hk rfl).trans ((does_type hn false).trans
      ((does_size hn (t.length + 1)).trans ((does_label hn).trans (does_string true rfl))))), ?_,
      ⟨fun e => (Place.noConfusion e), fun e => (Place.noConfusion e), fun f hk' => by simp [current] at hk'⟩, ?_, ?_, ?_, hf.symbol (fun _ h => .inl h) rfl⟩
    · exact const (toNats t ++ [0]) align rfl rfl rfl rfl rfl rfl rfl rfl rfl
    · simp [Image.label, sizeOf]
    · simp [Image.label, typeOf]
    · simp [Image.label, alignOf]
  | float u =>
    simp only [place, Option.some.injEq] at hp
    subst hp
    refine ⟨{ a with
        sec := .rodata
        rodata := Elf.padded 4 a.rodata ++ le 4 u
        defs := a.defs ++ [(id, .rodata, (Elf.padded 4 a.rodata).length)] }, (does_const hn (by omega)).trans ?_, const (le 4 u) 4 rfl rfl rfl rfl rfl rfl rfl rfl rfl,
      ⟨fun e => (Place.noConfusion e), fun e => (Place.noConfusion e), fun f hk' => by simp [current] at hk'⟩,
      by simp [sizeOf], by simp [typeOf], by simp [alignOf], hf.symbol (fun _ h => .inl h) rfl⟩
    simp only [nat_int]
    refine does_long (by push_cast; omega) ?_
    rw [← le_low, Elf.le_congr 4 _ (u : Int) (by push_cast; omega)]
    rfl
  | double i =>
    simp only [place, Option.some.injEq] at hp
    subst hp
    refine ⟨{ a with
        sec := .rodata
        rodata := Elf.padded 8 a.rodata ++ le 8 i
        defs := a.defs ++ [(id, .rodata, (Elf.padded 8 a.rodata).length)] }, (does_const hn (by omega)).trans ?_, const (le 8 i) 8 rfl rfl rfl rfl rfl rfl rfl rfl rfl,
      ⟨fun e => (Place.noConfusion e), fun e => (Place.noConfusion e), fun f hk' => by simp [current] at hk'⟩,
      by simp [sizeOf], by simp [typeOf], by simp [alignOf], hf.symbol (fun _ h => .inl h) rfl⟩
    refine does_quad (bmod_range (by omega) i) ?_
    rw [low_bmod]
    rfl
  | ldouble lo hi =>
    simp only [place, Option.some.injEq] at hp
    subst hp
    refine ⟨{ a with
        sec := .rodata
        rodata := Elf.padded 16 a.rodata ++ (le 8 lo ++ le 8 (hi % 65536))
        defs := a.defs ++ [(id, .rodata, (Elf.padded 16 a.rodata).length)] }, (does_const hn (by omega)).trans ?_, const (le 8 lo ++ le 8 (hi % 65536)) 16 rfl rfl rfl rfl rfl rfl rfl rfl rfl,
      ⟨fun e => (Place.noConfusion e), fun e => (Place.noConfusion e), fun f hk' => by simp [current] at hk'⟩,
      by simp [sizeOf], by simp [typeOf], by simp [alignOf], hf.symbol (fun _ h => .inl h) rfl⟩
    refine (does_quad (bmod_range (by omega) lo) (by rw [low_bmod]; rfl)).trans (does_quad (by omega) ?_)
    rw [← le_low]
    simp only [Image.emit, List.append_assoc]
  | tentative size talign salign =>
    simp only [place, Option.some.injEq] at hp
    subst hp
    have hd : Does syms a (symbolText false name ⟨id, intern, .tentative size talign salign⟩)
        { a with locals := a.locals ++ (if intern then [id] else []), commons := a.commons ++ [(id, size, talign)] } := by
      simp only [symbolText]
      cases intern with
      | true => exact (does_local hn).trans (does_comm hn size talign)
      | false =>
        have e : a.locals ++ (if false = true then [id] else []) = a.locals := by simp
        rw [e]
        exact does_comm hn size talign
    refine ⟨_, hd, ?_,
      ⟨fun e => (Place.noConfusion e), fun e => (Place.noConfusion e), fun f hk' => by simp [current] at hk'⟩,
      by simp [sizeOf], by simp [typeOf], by simp [alignOf], hf.symbol (fun _ h => .inl h) rfl⟩
    have key : ∀ v n, Same { a with locals := a.locals ++ (if intern then [id] else []), commons := a.commons ++ [(id, size, talign)] }
        (o.declare ⟨id, toNats (name id), intern, .object true size salign⟩ v n) := fun v n =>
      h.declare _ v n rfl rfl rfl (by simp [defOf]) (by simp [globalOf]) (by simp [commonOf])
        (by cases intern <;> simp [localOf])
    cases intern with
    | true =>
      have := key (o.bss + Elf.padTo salign o.bss) size
      exact ⟨this.data, this.rodata, this.rel, this.defs, this.globals, this.commons, this.locals, this.code, this.labels⟩
    | false =>
      have : o.symbol (Sym.elf name ⟨id, false, .tentative size talign salign⟩)
          = o.declare ⟨id, toNats (name id), false, .object true size salign⟩ salign size := by
        simp [Elf.Obj.symbol, Sym.elf, Kind.elf, hc]
      rw [this]
      exact key _ _
  | object =>
    simp only [place, Option.some.injEq] at hp
    subst hp
    subst hk
    refine ⟨a, Does.nil, ?_, ⟨fun e => (Place.noConfusion e), fun e => (Place.noConfusion e), fun f hk' => by
      simp [current] at hk'⟩, by simp [sizeOf], by simp [typeOf], by simp [alignOf], hf.symbol (fun _ h => .inl h) rfl⟩
    have : o.symbol (Sym.elf name ⟨id, false, .object⟩) = o.declare ⟨id, toNats (name id), false, .object false 0 1⟩ 0 0 := by
      simp [Elf.Obj.symbol, Sym.elf, Kind.elf]
    rw [this]
    exact h.declare _ 0 0 rfl rfl rfl (by simp [defOf]) (by simp [globalOf]) (by simp [commonOf]) (by simp [localOf])

theorem symbol_noCommon (o : Elf.Obj) (op : Elf.Op) : (o.step op).noCommon = o.noCommon := by
  cases op with
  | symbol s =>
    simp only [Elf.Obj.step, Elf.Obj.symbol]
    cases s.kind <;> simp only [Elf.Obj.declare]
    split_ifs <;> rfl
  | text c => rfl
  | data d => cases d <;> rfl
  | endFunction => rfl

theorem entries_grow (o : Elf.Obj) (c : Encode.Code) : entries (o.text c) = entries o := by
  simp only [entries, Elf.Obj.text, Elf.Obj.grow]
  cases o.fn with
  | none => rfl
  | some k =>
    simp only [List.map_map]
    apply List.map_congr_left
    intro d _
    simp only [Function.comp]
    split_ifs <;> rfl

theorem instruction_does {syms a l x} (h : Instruction l) (ha : a.sec = .text)
    (hx : Asm.Gas.instruction syms (ln l) = some x) : Does syms a (ln l) { a with code := a.code ++ [x] } := by
  obtain ⟨hf, w, r, rfl, hw, hne, hl, hr⟩ := h
  refine Does.line hf ?_
  unfold ln at hx
  rcases hr with rfl | ⟨c, y, rfl, hc⟩
  · rw [List.append_nil] at hx ⊢
    rw [line_bare hw hne]
    simp only [Image.statement, hl, ha, if_true, hx, Option.map_some]
  · rw [line_arg hw hne hc]
    simp only [Image.statement, hl, ha, if_true, hx, Option.map_some]

theorem startOf_append {items : List Elf.Item} (x : List Elf.Item) {k : Nat} (h : k ≤ items.length) :
    startOf (items ++ x) k = startOf items k := by
  unfold startOf
  rw [List.take_append_of_le_length h]

/-- An instruction. -/
theorem code_does {syms name} {a : Image} {i : Encode.Instr} {o : Elf.Obj} (hn : ∀ s, Flat (name s))
    (hg : Encode.Good i) (hp : Asm.Printed.Printable syms name i) (ha : a.sec = .text) (h : Same a o) (hf : Fit a o) :
    ∃ t c x, Asm.asmText name i = some t ∧ Encode.encode i = some c ∧ Does syms a t { a with code := a.code ++ [x] } ∧
      Same { a with code := a.code ++ [x] } (o.text c) ∧ Fit { a with code := a.code ++ [x] } (o.text c) := by
  obtain ⟨t, c, ins, h1, h2, h3, h4, h5⟩ := Asm.C83_instruction_partial syms name i hg hp
  obtain ⟨l, rfl, hl⟩ := asm_instruction hn h1
  have hlen := h.code.length_eq
  refine ⟨_, c, (ins, i.ref), h1, h2, instruction_does hl ha h3, ?_, ?_⟩
  · refine ⟨h.data, h.rodata, h.rel, by rw [entries_grow]; exact h.defs, by rw [entries_grow]; exact h.globals,
      by rw [entries_grow]; exact h.commons, by rw [entries_grow]; exact h.locals, ?_, ?_⟩
    · have := h4 []
      rw [List.append_nil] at this
      exact List.rel_append h.code (.cons ⟨this, i, h2, rfl, h5⟩ .nil)
    · rw [entries_grow]
      refine List.Perm.trans (List.Perm.of_eq ?_) h.labels
      apply List.map_congr_left
      intro m hm
      have := hf.bound m hm
      show (m.1, startOf (o.items ++ _) m.2) = _
      rw [startOf_append _ (by omega)]
  · refine ⟨?_, fun m hm => ?_⟩
    · show o.len + c.val.length = startOf (o.items ++ [_]) (o.items ++ [_]).length
      rw [hf.len]
      simp [startOf]
    · have := hf.bound m hm
      simp only [List.length_append]
      omega

/-- One call. -/
theorem step_does {syms name} {p p' : Place} {cur : Option Nat} {a : Image} {op : Op} {o : Elf.Obj}
    (hn : ∀ s, Flat (name s))
    (hok : OpOk syms name op) (hp : place p op = some p') (hi : Inv syms name p cur a)
    (h : Same a o) (hf : Fit a o) (hc : o.noCommon = false) :
    ∃ t cur' b e, step false name cur op = some (t, cur') ∧ op.elf name = some e ∧ Does syms a t b ∧ Same b (o.step e) ∧
      Inv syms name p' cur' b ∧ b.sizes = a.sizes ++ (sizeOf op).toList ∧ b.types = a.types ++ (typeOf op).toList ∧
      b.commons = a.commons ++ (alignOf op).toList ∧ Fit b (o.step e) := by
  cases op with
  | symbol s =>
    obtain ⟨b, h1, h2, h3, h4⟩ := symbol_does hok hp hi h hf hc
    refine ⟨_, _, b, _, rfl, rfl, ?_, h2, h3, h4⟩
    refine Does.trans ?_ h1
    split_ifs
    · exact Does.nil
    · exact flush_does hi
  | datum d =>
    simp only [place] at hp
    split_ifs at hp with hpd
    simp only [Option.some.injEq] at hp
    subst hp hpd
    have hs := hi.data rfl
    obtain ⟨t, b, h1, h2, h3, h4, h5, h6, h7, h8, h9⟩ := datum_does hok hs h
    refine ⟨t, cur, b, _, by simp [step, h1], rfl, h2, h3, ⟨fun e => (Place.noConfusion e), fun _ => h4, fun f hk' => ?_⟩,
      by simp [sizeOf, h5], by simp [typeOf, h6], by simp [alignOf, h7], hf.of ?_ ?_ h8 h9⟩
    · have := (hi.cur f hk').1
      rw [hs] at this
      cases this
    · cases d <;> rfl
    · cases d <;> rfl
  | code i =>
    simp only [place] at hp
    split_ifs at hp with hpd
    simp only [Option.some.injEq] at hp
    subst hp hpd
    obtain ⟨t, c, x, h1, h2, h3, h4, h5⟩ := code_does hn hok.1 hok.2 (hi.text rfl) h hf
    exact ⟨t, cur, _, .text c, by simp [step, h1], by simp [Op.elf, h2], h3, h4, ⟨hi.text, hi.data, hi.cur⟩,
      by simp [sizeOf], by simp [typeOf], by simp [alignOf], h5⟩
  | endFunction =>
    simp only [place, Option.some.injEq] at hp
    subst hp
    have hs : ∀ k, startOf (o.items.map fun i => { i with ahead := false }) k = startOf o.items k := by
      intro k
      simp only [startOf, ← List.map_take, List.map_map]
      rfl
    refine ⟨_, _, a, _, rfl, rfl, Does.nil, ⟨h.data, h.rodata, h.rel, h.defs, h.globals, h.commons, h.locals, ?_, ?_⟩, hi,
      by simp [sizeOf], by simp [typeOf], by simp [alignOf], ⟨?_, hf.bound⟩⟩
    · show List.Forall₂ Agrees a.code (o.items.map fun i => { i with ahead := false })
      rw [List.forall₂_map_right_iff]
      exact h.code
    · show (a.labels.map fun l => (l.1, startOf (o.items.map fun i => { i with ahead := false }) l.2)).Perm _
      simp only [hs]
      exact h.labels
    · show o.len = startOf (o.items.map fun i => { i with ahead := false }) (o.items.map fun i => { i with ahead := false }).length
      rw [hs, List.length_map]
      exact hf.len

theorem text_does {syms name} (hn : ∀ s, Flat (name s)) (ops : List Op) :
    ∀ {p : Place} {cur : Option Nat} {a : Image} {o : Elf.Obj},
    Ok syms name p ops → Inv syms name p cur a → Same a o → Fit a o → o.noCommon = false →
    ∃ t b es, text false name cur ops = some t ∧ ops.mapM (Op.elf name) = some es ∧ Does syms a t b ∧ Same b (o.run es) ∧
      b.sizes = a.sizes ++ ops.filterMap sizeOf ∧ b.types = a.types ++ ops.filterMap typeOf ∧
      b.commons = a.commons ++ ops.filterMap alignOf := by
  induction ops with
  | nil =>
    intro p cur a o _ hi h _ _
    exact ⟨_, a, [], rfl, rfl, flush_does hi, h, by simp, by simp, by simp⟩
  | cons op ops ih =>
    intro p cur a o hok hi h hf hc
    obtain ⟨h1, p', hp, hok⟩ := hok
    obtain ⟨t, cur', b, e, h2, h2', h3, h4, h5, h6, h7, h8, h9⟩ := step_does hn h1 hp hi h hf hc
    obtain ⟨u, d, es, k1, k1', k2, k3, k4, k5, k6⟩ := ih hok h5 h4 h9 (by rw [symbol_noCommon, hc])
    have fm : ∀ {β : Type} (f : Op → Option β), (op :: ops).filterMap f = (f op).toList ++ ops.filterMap f := by
      intro β f
      cases e : f op <;> simp [e]
    refine ⟨t ++ u, d, e :: es, ?_, ?_, h3.trans k2, k3, ?_, ?_, ?_⟩
    · simp [text, h2, k1]
    · rw [List.mapM_cons, h2', k1']; rfl
    · rw [k4, h6, fm, List.append_assoc]
    · rw [k5, h7, fm, List.append_assoc]
    · rw [k6, h8, fm, List.append_assoc]

end Verif.Listing
