import Verif.Elf.Sections

/-! The writer against the object as plain data: every call keeps the two in step. -/

namespace Verif.Elf

open Encode (le Code Fix le_length le_lt value_le)
open Encode.Intel (value)
open Reader (num)

/-! ## Overwriting -/

theorem poke_length (b d : List Nat) (o : Nat) (h : o + d.length ≤ b.length) : (poke b o d).length = b.length := by
  simp only [poke, List.length_append, List.length_take, List.length_drop]
  omega

theorem poke_append (a x b d : List Nat) (o : Nat) (h : o + d.length ≤ x.length) :
    poke (a ++ (x ++ b)) (a.length + o) d = a ++ (poke x o d ++ b) := by
  unfold poke
  rw [List.take_append, List.drop_append, List.take_of_length_le (by omega), List.drop_eq_nil_of_le (by omega)]
  rw [show a.length + o - a.length = o by omega, show a.length + o + d.length - a.length = o + d.length by omega]
  rw [List.take_append_of_le_length (by omega), List.drop_append_of_le_length (by omega)]
  simp only [List.append_assoc, List.nil_append]

theorem peek_append (a x b : List Nat) (o n : Nat) (h : o + n ≤ x.length) :
    peek (a ++ (x ++ b)) (a.length + o) n = peek x o n := by
  rw [peek_eq, peek_eq, num_append _ _ _ _ (by omega), show a.length + o - a.length = o by omega, num_left _ _ _ _ h]

theorem peek_poke (b d : List Nat) (o n : Nat) (hd : d.length = n) (h : o + n ≤ b.length) :
    peek (poke b o d) o n = value d := by
  subst hd
  rw [peek_eq]
  unfold poke num
  rw [List.append_assoc, List.drop_append, List.drop_eq_nil_of_le (by simp), List.length_take,
    Nat.min_eq_left (by omega), Nat.sub_self, List.drop_zero, List.nil_append,
    List.take_append_of_le_length (by omega), List.take_of_length_le (by omega)]

theorem poke_poke (b d e : List Nat) (o : Nat) (hd : d.length = e.length) (h : o + d.length ≤ b.length) :
    poke (poke b o d) o e = poke b o e := by
  have h1 : (poke b o d).take o = b.take o := by
    unfold poke
    rw [List.append_assoc, List.take_append_of_le_length (by simp; omega)]
    rw [List.take_take, Nat.min_self]
  have h2 : (poke b o d).drop (o + e.length) = b.drop (o + e.length) := by
    unfold poke
    rw [List.drop_append, List.drop_eq_nil_of_le (by simp; omega), ← hd, List.nil_append, List.length_append,
      List.length_take, Nat.min_eq_left (by omega), Nat.sub_self, List.drop_zero]
  show (poke b o d).take o ++ e ++ (poke b o d).drop (o + e.length) = _
  rw [h1, h2]
  rfl

theorem poke_head (b d : List Nat) (o : Nat) (ho : 0 < o) (hb : b ≠ []) : (poke b o d).getD 0 0 = b.getD 0 0 := by
  cases b with
  | nil => exact absurd rfl hb
  | cons x b =>
    obtain ⟨k, rfl⟩ : ∃ k, o = k + 1 := ⟨o - 1, by omega⟩
    unfold poke
    rw [List.take_succ_cons]
    rfl

/-! ## Instructions -/

/-- Instructions follow one another. -/
def Placed : Nat → List Item → Prop
  | _, [] => True
  | k, i :: is => i.pos = k ∧ Placed (k + i.code.val.length) is

def total (is : List Item) : Nat := (is.map (·.code.val.length)).sum

theorem total_append (a b : List Item) : total (a ++ b) = total a + total b := by
  simp [total]

theorem placed_append (k : Nat) (a b : List Item) : Placed k (a ++ b) ↔ Placed k a ∧ Placed (k + total a) b := by
  induction a generalizing k with
  | nil => simp [Placed, total]
  | cons i a ih =>
    simp only [List.cons_append, Placed, ih, total, List.map_cons, List.sum_cons, and_assoc, Nat.add_assoc]

/-- The label of an instruction is known unless it is still to come. -/
structure ItemOk (labels : List Nat) (i : Item) : Prop where
  code : CodeOk i.code
  known : i.ahead = false → ∀ l, target i.code = some l → l ∈ labels

theorem item_length (lab : Nat → Nat) (i : Item) (h : CodeOk i.code) : (i.bytes lab).length = i.code.val.length := by
  unfold Item.bytes
  split
  · next l pos a hf =>
    have := (h.room l pos a hf).2
    exact poke_length _ _ _ (by rw [le_length]; exact this)
  · rfl

theorem items_length (lab : Nat → Nat) (is : List Item) (h : ∀ i ∈ is, CodeOk i.code) :
    (is.flatMap (Item.bytes lab)).length = total is := by
  induction is with
  | nil => rfl
  | cons i is ih =>
    simp only [List.flatMap_cons, List.length_append, item_length lab i (h i (by simp)),
      ih (fun j hj => h j (List.mem_cons_of_mem _ hj)), total, List.map_cons, List.sum_cons]

theorem target_eq {c : Code} {l : Nat} {pos : Nat} {a : Int} (h : c.fix = [.label l pos a]) : target c = some l := by
  unfold target
  rw [h]

theorem item_congr (f g : Nat → Nat) (i : Item) (h : i.ahead = false → ∀ l, target i.code = some l → f l = g l) :
    i.bytes f = i.bytes g := by
  unfold Item.bytes
  split
  · next l pos a hf =>
    cases hi : i.ahead with
    | true => rfl
    | false => simp only [h hi l (target_eq hf), Bool.false_eq_true, if_false]
  · rfl

theorem items_congr (f g : Nat → Nat) (is : List Item)
    (h : ∀ i ∈ is, i.ahead = false → ∀ l, target i.code = some l → f l = g l) :
    is.flatMap (Item.bytes f) = is.flatMap (Item.bytes g) := by
  induction is with
  | nil => rfl
  | cons i is ih =>
    simp only [List.flatMap_cons]
    rw [item_congr f g i (h i (by simp)), ih (fun j hj => h j (List.mem_cons_of_mem _ hj))]

def resolved (i : Item) : Item := { i with ahead := false }

/-- Filling in what was left open. -/
theorem patch_items (off : Nat → Nat) (is : List Item) (A : List Nat) (hp : Placed A.length is)
    (hc : ∀ i ∈ is, CodeOk i.code)
    (hz : ∀ i ∈ is, i.ahead = true → ∀ l, target i.code = some l → off l ≠ 0) :
    patch off (A ++ is.flatMap (Item.bytes off)) (is.flatMap Item.waiting)
      = some (A ++ (is.map resolved).flatMap (Item.bytes off)) := by
  induction is generalizing A with
  | nil => rfl
  | cons i is ih =>
    simp only [Placed] at hp
    have hci := hc i (by simp)
    have hlen := item_length off i hci
    have hlen2 := item_length off (resolved i) hci
    have hc' : ∀ j ∈ is, CodeOk j.code := fun j hj => hc j (List.mem_cons_of_mem _ hj)
    have hz' : ∀ j ∈ is, j.ahead = true → ∀ l, target j.code = some l → off l ≠ 0 :=
      fun j hj => hz j (List.mem_cons_of_mem _ hj)
    have next : ∀ x : List Nat, x.length = i.code.val.length →
        patch off (A ++ (x ++ is.flatMap (Item.bytes off))) (is.flatMap Item.waiting)
          = some (A ++ (x ++ (is.map resolved).flatMap (Item.bytes off))) := by
      intro x hx
      have := ih (A ++ x) (by rw [List.length_append, hx]; exact hp.2) hc' hz'
      simpa only [List.append_assoc] using this
    simp only [List.flatMap_cons, List.map_cons]
    rcases hci.one with hf | ⟨ty, s, pos, a, hf⟩ | ⟨l, pos, a, hf⟩
    · have hw : i.waiting = [] := by unfold Item.waiting; rw [hf]
      have hb : (resolved i).bytes off = i.bytes off := by unfold Item.bytes resolved; simp only [hf]
      rw [hw, hb, List.nil_append]
      exact next _ hlen
    · have hw : i.waiting = [] := by unfold Item.waiting; rw [hf]
      have hb : (resolved i).bytes off = i.bytes off := by unfold Item.bytes resolved; simp only [hf]
      rw [hw, hb, List.nil_append]
      exact next _ hlen
    · have hr := (hci.room l pos a hf).2
      cases ha : i.ahead with
      | false =>
        have hw : i.waiting = [] := by unfold Item.waiting; rw [hf]; simp [ha]
        have hb : (resolved i).bytes off = i.bytes off := by unfold Item.bytes resolved; simp only [hf, ha]
        rw [hw, hb, List.nil_append]
        exact next _ hlen
      | true =>
        have hw : i.waiting = [(l, A.length + pos)] := by
          unfold Item.waiting; rw [hf]; simp [ha, hp.1]
        have hb : i.bytes off = poke i.code.val pos (le 4 a) := by
          unfold Item.bytes; simp only [hf, ha, if_true, Int.add_zero]
        have hb2 : (resolved i).bytes off
            = poke i.code.val pos (le 4 (a + ((off l : Int) - (A.length + pos : Nat)))) := by
          unfold Item.bytes resolved
          simp only [hf, hp.1, Bool.false_eq_true, if_false]
        rw [hw]
        simp only [List.cons_append, List.nil_append, patch]
        rw [if_neg (hz i (by simp) ha l (target_eq hf))]
        have hlb : pos + 4 ≤ (i.bytes off).length := by rw [hlen]; exact hr
        rw [peek_append _ _ _ _ _ hlb, poke_append _ _ _ _ _ (by rw [le_length]; exact hlb)]
        have hv : ((peek (i.bytes off) pos 4 : Nat) : Int) = a % (256 ^ 4 : Nat) := by
          rw [hb, peek_poke _ _ _ _ (le_length _ _) hr]
          exact value_le 4 a
        have hl : le 4 (((peek (i.bytes off) pos 4 : Nat) : Int) + off l - (A.length + pos : Nat))
            = le 4 (a + ((off l : Int) - (A.length + pos : Nat))) := by
          apply le_congr
          rw [hv]
          omega
        rw [hl]
        have e : poke (i.bytes off) pos (le 4 (a + ((off l : Int) - (A.length + pos : Nat)))) = (resolved i).bytes off := by
          rw [hb2, hb]
          exact poke_poke _ _ _ _ (by simp [le_length]) (by rw [le_length]; exact hr)
        rw [e]
        exact next _ hlen2

theorem total_resolved (is : List Item) : total (is.map resolved) = total is := by
  simp [total, resolved, Function.comp_def]

theorem placed_resolved (k : Nat) (is : List Item) : Placed k (is.map resolved) ↔ Placed k is := by
  induction is generalizing k with
  | nil => rfl
  | cons i is ih => simp only [List.map_cons, Placed, ih, resolved]

/-! ## Function sizes -/

def bump (k n : Nat) (d : Decl) : Decl := if d.sym.id = k then { d with size := d.size + n } else d

theorem bump_id (k n : Nat) (l : List Decl) (h : ∀ d ∈ l, d.sym.id ≠ k) : l.map (bump k n) = l := by
  induction l with
  | nil => rfl
  | cons d l ih =>
    rw [List.map_cons, ih (fun x hx => h x (List.mem_cons_of_mem _ hx))]
    unfold bump
    rw [if_neg (h d (by simp))]

theorem bump_sym (k n : Nat) (d : Decl) : (bump k n d).sym = d.sym := by
  unfold bump; split_ifs <;> rfl

theorem bump_set (k n : Nat) (l : List Decl) (hn : (l.map (·.sym.id)).Nodup) (j : Nat) (d : Decl)
    (hj : l[j]? = some d) (hd : d.sym.id = k) : l.map (bump k n) = l.set j { d with size := d.size + n } := by
  induction l generalizing j with
  | nil => simp at hj
  | cons x l ih =>
    simp only [List.map_cons, List.nodup_cons] at hn
    cases j with
    | zero =>
      simp only [List.getElem?_cons_zero, Option.some.injEq] at hj
      subst hj
      rw [List.map_cons, bump_id k n l, List.set_cons_zero]
      · unfold bump; rw [if_pos hd]
      · intro y hy g
        exact hn.1 (by rw [hd, ← g]; exact List.mem_map.mpr ⟨y, hy, rfl⟩)
    | succ j =>
      simp only [List.getElem?_cons_succ] at hj
      rw [List.map_cons, ih hn.2 j hj, List.set_cons_succ]
      have : x.sym.id ≠ k := by
        intro g
        apply hn.1
        rw [g, ← hd]
        exact List.mem_map.mpr ⟨d, List.mem_of_getElem? hj, rfl⟩
      unfold bump
      rw [if_neg this]

theorem poke_entry (L : List Ent) (i n : Nat) (e : Ent) (h : L[i]? = some e) :
    poke (L.flatMap Ent.bytes) (24 * i + 16) (le 8 (peek (L.flatMap Ent.bytes) (24 * i + 16) 8 + n : Nat))
      = (L.set i { e with size := e.size + n }).flatMap Ent.bytes := by
  obtain ⟨a, b, rfl, rfl⟩ := entries_split L i e h
  have hl := entries_length a
  simp only [List.flatMap_append, List.flatMap_cons]
  have hset : (a ++ e :: b).set a.length { e with size := e.size + n } = a ++ { e with size := e.size + n } :: b := by
    rw [List.set_append_right _ _ (Nat.le_refl _), Nat.sub_self]
    rfl
  rw [hset]
  simp only [List.flatMap_append, List.flatMap_cons]
  rw [← hl, peek_append _ _ _ _ _ (by rw [bytes_length]), poke_append _ _ _ _ _ (by rw [bytes_length, le_length])]
  congr 2
  have hsplit : ∀ k : Nat, ({ e with size := k } : Ent).bytes
      = (le 4 e.name ++ [e.info % 256, 0] ++ le 2 e.shndx ++ le 8 e.value) ++ (le 8 k ++ []) := by
    intro k; simp [Ent.bytes, List.append_assoc]
  have hpl : (le 4 e.name ++ [e.info % 256, 0] ++ le 2 e.shndx ++ le 8 e.value).length = 16 := by
    simp [le_length]
  have he : e.bytes = (le 4 e.name ++ [e.info % 256, 0] ++ le 2 e.shndx ++ le 8 e.value) ++ (le 8 (e.size : Int) ++ []) :=
    hsplit e.size
  rw [hsplit (e.size + n), he]
  generalize hP : (le 4 (e.name : Int) ++ [e.info % 256, 0] ++ le 2 (e.shndx : Int) ++ le 8 (e.value : Int)) = P at *
  have h16 : (16 : Nat) = P.length + 0 := by omega
  rw [h16, peek_append _ _ _ _ _ (by rw [le_length]), poke_append _ _ _ _ _ (by simp [le_length])]
  have hv : ((peek (le 8 (e.size : Int)) 0 8 : Nat) : Int) = (e.size : Int) % (256 ^ 8 : Nat) := by
    rw [peek_eq]
    have := num_le_mod 8 (e.size : Int) []
    rwa [List.append_nil] at this
  have key : poke (le 8 (e.size : Int)) 0 (le 8 ((peek (le 8 (e.size : Int)) 0 8 + n : Nat) : Int))
      = le 8 ((e.size + n : Nat) : Int) := by
    unfold poke
    rw [List.take_zero, List.nil_append, List.drop_eq_nil_of_le (by rw [le_length, le_length]), List.append_nil]
    apply le_congr
    rw [Int.natCast_add, hv, Int.natCast_add]
    exact Int.emod_add_emod _ _ _
  rw [key]

end Verif.Elf
