import Verif.Abi.Assign
import Verif.Abi.VaLemmas
import Verif.Abi.CallLemmas

namespace Verif.Abi

theorem isTempInt.lt {r : Nat} (h : isTempInt r) : r < 17 := by
  rcases h with h | h | h | h | h <;> subst h <;> decide

/-- No memory is written, and no register except those for scratch. -/
abbrev Src.At (s : M) (O : Int) (src : Src) : Prop := src.Fixed (fun _ => False) (fun _ => False) s O

/-- The variable with the pointer, if the operand is behind one. -/
def Src.cell (s : M) : Src → Int → Prop
  | .deref (.temp _) _, _ => False
  | .deref p _, x => p.address s ≤ x ∧ x < p.address s + 8
  | _, _ => False

theorem At.congr {s u : M} {O : Int} {src : Src} (h : src.At s O) (hm : u.mem = s.mem) (hb : u.reg BP = s.reg BP)
    (ht : ∀ r, isTempInt r → u.reg r = s.reg r) : src.At u O ∧ ∀ x, src.cell u x ↔ src.cell s x := by
  have ha : ∀ p : Place, p.address u = p.address s := by
    intro p
    cases p with
    | frame o => simp only [Place.address]; rw [hb]
    | global a => rfl
    | temp r => rfl
  have hw : ∀ p : Place, p.Steady (fun _ => False) (fun _ => False) s → p.word u = p.word s := by
    intro p hp
    cases p with
    | temp r =>
      simp only [Place.Steady] at hp
      simp only [Place.word, Place.byte]
      rw [ht r hp.1]
    | frame o => rw [word_place (a := .base BP o) rfl, word_place (a := .base BP o) rfl, hm, ha]
    | global a => rw [word_place (a := .abs a) rfl, word_place (a := .abs a) rfl, hm, ha]
  have hst : ∀ p : Place, p.Steady (fun _ => False) (fun _ => False) s → p.Steady (fun _ => False) (fun _ => False) u := by
    intro p hp
    cases p with
    | temp r =>
      simp only [Place.Steady] at hp ⊢
      rw [ht r hp.1]; exact hp
    | frame o => intro j _ hf; exact hf
    | global a => intro j _ hf; exact hf
  cases src with
  | imm _ => exact h.elim
  | addr _ => exact h.elim
  | place p => exact ⟨⟨h.1, by rw [ha]; exact h.2⟩, fun x => Iff.rfl⟩
  | deref p o =>
    refine ⟨⟨hst p h.1, by rw [hw p h.1]; exact h.2⟩, fun x => ?_⟩
    cases p with
    | temp r => exact Iff.rfl
    | frame o => simp only [Src.cell]; rw [ha]
    | global a => exact Iff.rfl

theorem At.sound {s : M} {O : Int} {src : Src} (h : src.At s O) (real : Bool) : src.Sound s real := by
  cases src with
  | imm _ => trivial
  | addr _ => exact h.elim
  | place p =>
    cases p with
    | temp r => exact absurd rfl (h.1 r)
    | _ => trivial
  | deref p o =>
    cases p with
    | temp r => exact ⟨h.1.2.2.1, h.1.2.2.2⟩
    | _ => trivial

theorem At.pointer {s : M} {O : Int} {src : Src} (h : src.At s O) : ∀ p o, src = .deref p o → (∃ x, p = .temp x) →
    ∃ x, p = .temp x ∧ x < 17 ∧ 0 ≤ s.reg x ∧ s.reg x < 256 ^ 8 := by
  rintro p o rfl ⟨x, rfl⟩
  refine ⟨x, rfl, ?_, h.1.2.2.1, h.1.2.2.2⟩
  have := h.1.1
  rcases this with h | h | h | h | h <;> subst h <;> decide

theorem At.object {s : M} {O : Int} {src : Src} (h : src.At s O) : src.object s = O := Fixed.object h

/-! ## What is touched -/

theorem touches_append (s : M) : ∀ (a b : List Ins), touches s (a ++ b) = touches s a ++ touches (run s a) b
  | [], b => rfl
  | i :: a, b => by
    simp only [List.cons_append, touches, run_cons, touches_append (step s i) a b, List.append_assoc]

/-- The width of the access of an opcode. -/
def Op.access : Op → Nat
  | .mov w | .movs w => w
  | .movx _ w _ => w

theorem fromMem_touches (op : Op) (s : M) (d : Nat) (a : Ea) : (op.fromMem d a).touches s = [(s.ea a, (op.access : Int))] := by
  cases op <;> rfl

theorem emitLoad_touches {op : Op} {src : Src} {r : Nat} {code : List Ins} {s : M} {O : Int}
    (h : emitLoad op src r = some code) (hs : src.At s O) :
    ∀ y ∈ touches s code, y = (O, (op.access : Int)) ∨ ∀ x, y.1 ≤ x → x < y.1 + y.2 → src.cell s x := by
  cases src with
  | imm _ => exact hs.elim
  | addr _ => exact hs.elim
  | place p =>
    obtain ⟨a, ha⟩ := ea_of_not_temp hs.1
    have h' : some [op.fromMem r a] = some code := by
      rw [← h]
      cases p <;> simp_all [emitLoad, Place.ea]
    simp only [Option.some.injEq] at h'
    subst h'
    intro y hy
    simp only [touches, fromMem_touches, List.append_nil, List.mem_singleton] at hy
    rw [hy, ea_place ha, hs.2]
    exact .inl rfl
  | deref p o =>
    by_cases ht : ∃ x, p = .temp x
    · obtain ⟨x, rfl⟩ := ht
      simp only [emitLoad, Option.some.injEq] at h
      subst h
      intro y hy
      simp only [touches, fromMem_touches, List.append_nil, List.mem_singleton] at hy
      have := hs.2
      rw [word_temp hs.1.2.2.1 hs.1.2.2.2] at this
      rw [hy, ← this]
      exact .inl rfl
    · obtain ⟨a, ha⟩ := ea_of_not_temp (p := p) (fun r e => ht ⟨r, e⟩)
      have h' : some [.ld 8 R11 a, op.fromMem r (.base R11 o)] = some code := by
        rw [← h]
        cases p <;> simp_all [emitLoad, Place.ea]
      simp only [Option.some.injEq] at h'
      subst h'
      intro y hy
      have e : (step s (.ld 8 R11 a)).ea (.base R11 o) = O := by
        show (step s (.ld 8 R11 a)).reg R11 + o = O
        rw [ld_full (by omega), set_reg, if_pos rfl, ea_place ha, ← word_place ha, hs.2]
      rw [touches, touches, touches, fromMem_touches, e] at hy
      simp only [List.append_nil, List.mem_append, List.mem_singleton, Ins.touches] at hy
      rcases hy with hy | hy
      · right
        intro x h1 h2
        rw [hy, ea_place ha] at h1 h2
        simp only at h1 h2
        cases p with
        | temp r => exact absurd ⟨r, rfl⟩ ht
        | frame o => exact ⟨h1, by simpa using h2⟩
        | global a => exact ⟨h1, by simpa using h2⟩
      · exact .inl hy

theorem load_touches {sz : Nat} {k : Kind} (hz : sz = 1 ∨ sz = 2 ∨ sz = 4 ∨ sz = 8) (hk : k ≠ .signed)
    (hr : k = .real → 4 ≤ sz) {src : Src} {r : Nat} {code : List Ins} {s : M} {O : Int} (h : load sz k src r = some code) (hs : src.At s O) :
    ∀ y ∈ touches s code, y = (O, (sz : Int)) ∨ ∀ x, y.1 ≤ x → x < y.1 + y.2 → src.cell s x := by
  have key : ∀ op : Op, op.access = sz → emitLoad op src r = some code →
      ∀ y ∈ touches s code, y = (O, (sz : Int)) ∨ ∀ x, y.1 ≤ x → x < y.1 + y.2 → src.cell s x := by
    intro op ho he
    have := emitLoad_touches he hs
    rw [ho] at this
    exact this
  cases k with
  | signed => exact absurd rfl hk
  | real =>
    simp only [load] at h
    have := hr rfl
    rw [if_neg (by omega : ¬ sz < 4)] at h
    split_ifs at h with h1
    exact key _ rfl h
  | unsigned =>
    have h' : loadInt sz false src r (if sz < 4 then 4 else sz) = some code := h
    have hi : loadInt sz false src r (if sz < 4 then 4 else sz) =
        emitLoad (if sz < 4 then .movx false sz 4 else .mov sz) src r := by
      rcases hz with rfl | rfl | rfl | rfl <;> cases src <;>
        first
        | exact hs.elim
        | simp [loadInt]
    rw [hi] at h'
    refine key _ ?_ h'
    split_ifs <;> rfl

theorem loadAddress_touches {src : Src} {r : Nat} {code : List Ins} {s : M} {O : Int}
    (h : loadAddress src r = some code) (hs : src.At s O) :
    ∀ y ∈ touches s code, ∀ x, y.1 ≤ x → x < y.1 + y.2 → src.cell s x := by
  cases src with
  | imm _ => exact hs.elim
  | addr _ => exact hs.elim
  | place p =>
    simp only [loadAddress] at h
    obtain ⟨a, ha, h⟩ := Option.bind_eq_some_iff.mp h
    simp only [Option.some.injEq] at h
    subst h
    intro y hy
    simp [touches, Ins.touches] at hy
  | deref p o =>
    simp only [loadAddress] at h
    obtain ⟨c, hc, h⟩ := Option.bind_eq_some_iff.mp h
    simp only [Option.some.injEq] at h
    subst h
    intro y hy
    rw [touches_append] at hy
    have hrest : touches (run s c) (if o = 0 then [] else [.addi r o]) = [] := by split_ifs <;> rfl
    rw [hrest, List.append_nil] at hy
    by_cases ht : ∃ x, p = .temp x
    · obtain ⟨x, rfl⟩ := ht
      have hx := hs.1.1.lt
      have hc' : some [Ins.mov 8 r x] = some c := by
        rw [← hc]; simp [load, loadInt, emitLoad, Op.fromReg]; omega
      simp only [Option.some.injEq] at hc'
      subst hc'
      simp [touches, Ins.touches] at hy
    · have hp : (Src.place p).At s (p.address s) := ⟨fun r e => ht ⟨r, e⟩, rfl⟩
      rcases load_touches (.inr (.inr (.inr rfl))) (by decide) (by decide) hc hp y hy with rfl | hf
      · intro x h1 h2
        simp only at h1 h2
        cases p with
        | temp r => exact absurd ⟨r, rfl⟩ ht
        | frame o => exact ⟨h1, by simpa using h2⟩
        | global a => exact ⟨h1, by simpa using h2⟩
      · intro x h1 h2
        exact (hf x h1 h2).elim

theorem store_touches {w r : Nat} {real : Bool} {dst : Src} {code : List Ins} {s : M} {O : Int}
    (h : store w real r dst = some code) (hs : dst.At s O) :
    ∀ y ∈ touches s code, y = (O, (w : Int)) ∨ ∀ x, y.1 ≤ x → x < y.1 + y.2 → dst.cell s x := by
  cases dst with
  | imm _ => exact hs.elim
  | addr _ => exact hs.elim
  | place p =>
    obtain ⟨a, ha⟩ := ea_of_not_temp hs.1
    have h' : some [.st w r a] = some code := by
      rw [← h]
      cases p <;> simp_all [store, Place.ea]
    simp only [Option.some.injEq] at h'
    subst h'
    intro y hy
    simp only [touches, Ins.touches, List.append_nil, List.mem_singleton] at hy
    rw [hy, ea_place ha, hs.2]
    exact .inl rfl
  | deref p o =>
    simp only [store] at h
    obtain ⟨c, hc, h⟩ := Option.bind_eq_some_iff.mp h
    simp only [Option.some.injEq] at h
    subst h
    obtain ⟨h1, h2, h3⟩ := pointer_load hs.1 hc (by decide)
    intro y hy
    rw [touches_append] at hy
    have e : (run s c).ea (.base R11 o) = O := by
      show (run s c).reg R11 + o = O
      rw [h3, hs.2]
    simp only [touches, Ins.touches, List.append_nil, List.mem_append, List.mem_singleton, e] at hy
    rcases hy with hy | hy
    · right
      by_cases ht : ∃ x, p = .temp x
      · obtain ⟨x, rfl⟩ := ht
        have hx := hs.1.1.lt
        have hc' : some [Ins.mov 8 R11 x] = some c := by
          rw [← hc]; simp [loadInt, emitLoad, Op.fromReg]; omega
        simp only [Option.some.injEq] at hc'
        subst hc'
        simp [touches, Ins.touches] at hy
      · have hp : (Src.place p).At s (p.address s) := ⟨fun r e => ht ⟨r, e⟩, rfl⟩
        rcases load_touches (k := .unsigned) (.inr (.inr (.inr rfl))) (by decide) (by decide) (by exact hc) hp y hy with rfl | hf
        · intro x h1 h2
          simp only at h1 h2
          cases p with
          | temp r => exact absurd ⟨r, rfl⟩ ht
          | frame o => exact ⟨h1, by simpa using h2⟩
          | global a => exact ⟨h1, by simpa using h2⟩
        · intro x h1 h2
          exact (hf x h1 h2).elim
    · exact .inl hy

theorem copyLoop_touches (n : Nat) : ∀ (fuel i : Nat) (t : M),
    ∀ y ∈ touches t (copyLoop n fuel i), (t.reg SI ≤ y.1 ∧ y.1 + y.2 ≤ t.reg SI + n) ∨
      (t.reg DI ≤ y.1 ∧ y.1 + y.2 ≤ t.reg DI + n)
  | 0, i, t, y, hy => by simp [copyLoop, touches] at hy
  | fuel + 1, i, t, y, hy => by
    simp only [copyLoop] at hy
    split_ifs at hy with hi
    · obtain ⟨c1, c2, c3⟩ := chunk_le (n - i) (by omega)
      generalize chunk (n - i) = w at *
      simp only [touches, Ins.touches, List.mem_append, List.mem_singleton] at hy
      rcases hy with hy | hy | hy
      · left
        rw [hy]
        show t.reg SI ≤ t.reg SI + i ∧ t.reg SI + i + w ≤ t.reg SI + n
        omega
      · right
        rw [hy]
        show t.reg DI ≤ t.reg DI + i ∧ t.reg DI + i + w ≤ t.reg DI + n
        omega
      · have := copyLoop_touches n fuel (i + w) _ y hy
        have h1 : SI ≠ AX := by decide
        have h2 : DI ≠ AX := by decide
        simpa [step, h1, h2] using this
    · simp [touches] at hy

end Verif.Abi
