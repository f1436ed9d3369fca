import Verif.Encode.Lemmas

namespace Verif.Encode

open Intel

/-! ## Reading one part does not look at the rest -/

theorem opcodeOf_append {p66 rep rex} {l r : List Nat} {h : Head} (t : List Nat)
    (g : opcodeOf p66 rep rex l = some (h, r)) :
    opcodeOf p66 rep rex (l ++ t) = some (h, r ++ t) := by
  cases l with
  | nil => cases g
  | cons b l =>
    simp only [opcodeOf, List.cons_append] at g ⊢
    by_cases hb : b = 0x0F
    · rw [if_pos hb] at g ⊢
      cases l with
      | nil => cases g
      | cons c l =>
        cases g
        rfl
    · rw [if_neg hb] at g ⊢
      cases g
      rfl

theorem decodeHead_append {l r : List Nat} {h : Head} (t : List Nat) {p66 rep}
    (g : decodeHead p66 rep l = some (h, r)) :
    decodeHead p66 rep (l ++ t) = some (h, r ++ t) := by
  induction l generalizing p66 rep with
  | nil => cases g
  | cons b l ih =>
    simp only [decodeHead, List.cons_append] at g ⊢
    split_ifs at g ⊢ with h1 h2 h3
    · exact ih g
    · exact ih g
    · exact opcodeOf_append t g
    · exact opcodeOf_append t g

/-- Nothing but the head, then an address, then an immediate. -/
theorem decode_mem {hd : List Nat} {h : Head} (e1 : decodeHead false 0 hd = some (h, []))
    {f} (e2 : info h = some (.modrm f)) {bs l t u : List Nat} {m : ModRm} {a : Option Mem}
    (e3 : modrmHead h (bs ++ t) = some (m, l)) (e4 : address m.rm l = some (a, t))
    {mn s} (e5 : f (m.reg % 8) a.isSome = some (mn, s)) {v}
    (e6 : immediate (immBytes h s) t = some (v, u)) :
    decode (hd ++ (bs ++ t)) = some (⟨mn, s.map (Slot.operand h m), a, v⟩, u) := by
  have := decodeHead_append (bs ++ t) e1
  unfold decode
  rw [this, List.nil_append]
  simp only [e2, e3, e4, e5, e6]

theorem decode_plain {hd : List Nat} {h : Head} (e1 : decodeHead false 0 hd = some (h, []))
    {mn s} (e2 : info h = some (.plain (mn, s))) {t u : List Nat} {v}
    (e6 : immediate (immBytes h s) t = some (v, u)) :
    decode (hd ++ t) = some (⟨mn, s.map (Slot.operand h ⟨0, .reg 0⟩), none, v⟩, u) := by
  have := decodeHead_append t e1
  unfold decode
  rw [this, List.nil_append]
  simp only [e2, e6]

theorem modrmHead_append {h : Head} {l r : List Nat} {m : ModRm} (t : List Nat)
    (g : modrmHead h l = some (m, r)) : modrmHead h (l ++ t) = some (m, r ++ t) := by
  cases l with
  | nil => cases g
  | cons b l =>
    simp only [modrmHead, List.cons_append] at g ⊢
    by_cases h1 : b / 64 = 3
    · rw [if_pos h1] at g ⊢
      cases g; rfl
    rw [if_neg h1] at g ⊢
    by_cases h2 : b % 8 = 4
    · rw [if_pos h2] at g ⊢
      cases l with
      | nil => cases g
      | cons s l =>
        simp only [List.cons_append] at g ⊢
        by_cases h3 : s % 8 = 5 ∧ b / 64 = 0
        · rw [if_pos h3] at g ⊢
          cases g; rfl
        · rw [if_neg h3] at g ⊢
          cases g; rfl
    rw [if_neg h2] at g ⊢
    by_cases h3 : b % 8 = 5 ∧ b / 64 = 0
    · rw [if_pos h3] at g ⊢
      cases g; rfl
    · rw [if_neg h3] at g ⊢
      cases g; rfl

/-- An instruction without memory operand, up to its immediate: what it does, its
operands, and the size of the immediate. -/
def parseReg (l : List Nat) : Option (Mn × List Opnd × Nat) :=
  match decodeHead false 0 l with
  | none => none
  | some (h, r) =>
    match info h with
    | none => none
    | some (.plain (mn, s)) =>
      if r = [] then some (mn, s.map (Slot.operand h ⟨0, .reg 0⟩), immBytes h s) else none
    | some (.modrm f) =>
      match modrmHead h r with
      | some (⟨g, .reg k⟩, []) =>
        match f (g % 8) false with
        | none => none
        | some (mn, s) => some (mn, s.map (Slot.operand h ⟨g, .reg k⟩), immBytes h s)
      | _ => none

theorem parseReg_decode {l : List Nat} {mn ops n} (g : parseReg l = some (mn, ops, n))
    {t u : List Nat} {v} (e : immediate n t = some (v, u)) :
    decode (l ++ t) = some (⟨mn, ops, none, v⟩, u) := by
  unfold parseReg at g
  rcases h1 : decodeHead false 0 l with _ | ⟨h, r⟩
  · rw [h1] at g; cases g
  rw [h1] at g
  simp only at g
  rcases h2 : info h with _ | i
  · rw [h2] at g; cases g
  rw [h2] at g
  rcases i with ⟨mn', s⟩ | f
  · simp only at g
    split_ifs at g with hr
    cases g
    subst hr
    exact decode_plain h1 h2 e
  · simp only at g
    split at g
    · rename_i g' k hm
      split at g
      · cases g
      · rename_i mn' s hf
        cases g
        have hh := decodeHead_append t h1
        have hm' := modrmHead_append t hm
        unfold decode
        rw [hh]
        simp only [h2, hm', List.nil_append, address, Option.isSome, hf, e]
    · cases g

/-- An instruction with a memory operand, up to its address; `reg` is the register
field, `x` and `b` say whether index and base are extended. -/
def parseMem (l : List Nat) (reg : Nat) (x b : Bool) : Option (Mn × List Opnd × Nat) :=
  match decodeHead false 0 l with
  | some (h, []) =>
    match info h with
    | some (.modrm f) =>
      if h.x = (if x then 8 else 0) ∧ h.b = (if b then 8 else 0) then
        match f (reg % 8) true with
        | none => none
        | some (mn, s) => some (mn, s.map (Slot.operand h ⟨reg % 8 + h.r, .rip⟩), immBytes h s)
      else none
    | _ => none
  | _ => none

theorem operand_mem (h : Head) (m : ModRm) (hm : ∀ n, m.rm ≠ .reg n) (s : Slot) :
    s.operand h m = s.operand h ⟨m.reg, .rip⟩ := by
  obtain ⟨g, r⟩ := m
  cases r with
  | reg n => exact absurd rfl (hm n)
  | sib b i n => cases s <;> rfl
  | rip => rfl

theorem head_r_mod (h : Head) (k : Nat) : (k % 8 + h.r) % 8 = k % 8 := by
  unfold Head.r; split_ifs <;> omega

/-! ## Addresses of both kinds -/

theorem rip_fields : ∀ reg < 8,
    let m := reg * 8 ||| 5
    m / 64 = 0 ∧ m / 8 % 8 = reg ∧ m % 8 = 5 ∧ m < 256 := by decide +kernel

/-- The relocation of an address, as the encoder reports it. -/
def addrFix (a : Addr) (pos : Nat) (addend : Nat) : List Fix :=
  match a.sym with
  | none => []
  | some (t, s) => [.reloc (if t = .got then relGOTPCREL else relPC32) s pos (a.disp - addend)]

/-- An address is encoded so that it is read back, whatever follows it. -/
theorem address_decode (c : Code) (reg : Nat) (a : Addr) (addend : Nat) (h : Head) (ok : a.Ok)
    (hr : RexOk h a) :
    ∃ bs, encodeAddress c reg a addend
        = some (⟨c.val ++ bs, c.fix ++ addrFix a (c.val.length + 1) addend⟩, bs.length)
      ∧ (∀ b ∈ bs, b < 256) ∧ bs.length ≤ 6
      ∧ (a.sym.isSome → ∃ m, bs = [m, 0, 0, 0, 0]
        ∧ ∀ l, modrmHead h (m :: l) = some (⟨reg % 8 + h.r, .rip⟩, l)) ∧
      ∀ t, ∃ m l, modrmHead h (bs ++ t) = some (m, l) ∧ m.reg = reg % 8 + h.r
        ∧ (∀ n, m.rm ≠ .reg n)
        ∧ address m.rm l = some (some (memOf a), t) := by
  have hreg : reg % 8 < 8 := Nat.mod_lt _ (by decide)
  rcases hsym : a.sym with _ | ⟨ty, sy⟩
  · obtain ⟨bs, e, hby, hlen, _⟩ := modrm_decode reg a h hsym ok hr []
    refine ⟨bs, ?_, hby, hlen, (fun g => nomatch g), ?_⟩
    · simp only [encodeAddress, hsym, e, addrFix, Code.push, List.append_nil]
    · intro t
      obtain ⟨bs', e', _, _, r⟩ := modrm_decode reg a h hsym ok hr t
      rw [e] at e'
      cases e'
      exact r
  · have okk := ok
    simp only [Addr.Ok, hsym] at ok
    obtain ⟨f1, f2, f3, f4⟩ := rip_fields (reg % 8) hreg
    have e (l : List Nat) : modrmHead h ((reg % 8 * 8 ||| 5) :: l)
        = some (⟨reg % 8 + h.r, .rip⟩, l) := by
      simp only [modrmHead, f1, f2, f3]
      rfl
    refine ⟨[reg % 8 * 8 ||| 5, 0, 0, 0, 0], ?_, ?_, by simp, (fun _ => ⟨_, rfl, e⟩), ?_⟩
    · cases ty with
      | plt => exact absurd rfl ok.1
      | normal => simp [encodeAddress, hsym, addrFix, Code.push]
      | got => simp [encodeAddress, hsym, addrFix, Code.push]
    · intro b hb
      simp only [List.mem_cons, List.not_mem_nil, or_false] at hb
      rcases hb with rfl | rfl | rfl | rfl | rfl
      · exact f4
      all_goals decide
    · intro t
      refine ⟨⟨reg % 8 + h.r, .rip⟩, [0, 0, 0, 0] ++ t, (List.cons_append ▸ e ([0, 0, 0, 0] ++ t)), rfl, (fun n g => nomatch g), ?_⟩
      have : signed 4 ([0, 0, 0, 0] ++ t) = some (0, t) := signed_le 4 0 t
      simp only [address, this, memOf, hsym]
      rfl

theorem signed_four {z : List Nat} (h : z.length = 4) (t : List Nat) :
    signed 4 (z ++ t) = some (distance z, t) := by
  unfold signed distance
  rw [if_neg (by simp [h])]
  simp only [List.take_left' h, List.drop_left' h]

theorem parseMem_decode {c : Code} {reg : Nat} {a : Addr} {mn ops n}
    (g : parseMem c.val reg (is64 a.index) (is64 a.base) = some (mn, ops, n)) (ok : a.Ok)
    (addend : Nat) :
    ∃ bs, encodeAddress c reg a addend
        = some (⟨c.val ++ bs, c.fix ++ addrFix a (c.val.length + 1) addend⟩, bs.length)
      ∧ (∀ b ∈ bs, b < 256) ∧ bs.length ≤ 6
      ∧ (a.sym.isSome → ∃ m, bs = [m, 0, 0, 0, 0] ∧ ∀ z t u v, z.length = 4 →
        immediate n t = some (v, u) →
          decode (c.val ++ (m :: (z ++ t))) = some (⟨mn, ops, some (.rip (distance z)), v⟩, u)) ∧
      ∀ t u v, immediate n t = some (v, u) →
        decode (c.val ++ (bs ++ t)) = some (⟨mn, ops, some (memOf a), v⟩, u) := by
  unfold parseMem at g
  split at g
  · rename_i h h1
    split at g
    · rename_i f h2
      by_cases hr : h.x = (if is64 a.index then 8 else 0) ∧ h.b = (if is64 a.base then 8 else 0)
      case neg => rw [if_neg hr] at g; cases g
      rw [if_pos hr] at g
      split at g
      · cases g
      · rename_i mn' s hf
        cases g
        obtain ⟨bs, e, hby, hlen, h5, hd⟩ := address_decode c reg a addend h ok ⟨hr.1, hr.2⟩
        refine ⟨bs, e, hby, hlen, ?_, ?_⟩
        · intro hs
          obtain ⟨m, hbs, e3⟩ := h5 hs
          refine ⟨m, hbs, ?_⟩
          intro z t u v hz hi
          have e4 : address .rip (z ++ t) = some (some (.rip (distance z)), t) := by
            simp only [address, signed_four hz]; rfl
          have e5 : f ((⟨reg % 8 + h.r, .rip⟩ : ModRm).reg % 8) (some (Mem.rip (distance z))).isSome
              = some (mn, s) := by
            show f ((reg % 8 + h.r) % 8) true = _
            rw [head_r_mod]; exact hf
          exact decode_mem (bs := m :: z) (m := ⟨reg % 8 + h.r, .rip⟩) h1 h2 (e3 (z ++ t)) e4 e5 hi
        intro t u v hi
        obtain ⟨m, l, e3, hreg, hm, e4⟩ := hd t
        have := decode_mem h1 h2 e3 e4 (mn := mn) (s := s) (by rw [hreg, head_r_mod]; exact hf) hi
        rw [this]
        congr 3
        apply List.map_congr_left
        intro s _
        rw [operand_mem h m hm s, hreg]
    · cases g
  · cases g

end Verif.Encode
