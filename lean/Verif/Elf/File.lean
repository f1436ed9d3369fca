import Verif.Elf.Lemmas

/-! The object file as a whole: headers and sections are found where they are said to be. -/

namespace Verif.Elf

open Encode (le le_length le_lt value_le)
open Encode.Intel (value)
open Reader (num)

/-! ## Section headers -/

theorem header_length (n k : Nat) : (header n k).length = 64 := by
  simp [header, le_length]

theorem secHeader_length (s : Sec) : s.header.length = 64 := by
  simp [Sec.header, le_length]

/-- Sizes and offsets that fit their members. -/
structure Small (s : Sec) : Prop where
  name : s.name < 256 ^ 4
  flags : s.flags < 256 ^ 8
  offset : s.offset < 256 ^ 8
  size : s.size < 256 ^ 8
  link : s.link < 256 ^ 4
  info : s.info < 256 ^ 4
  align : s.align < 256 ^ 8

theorem code_lt (t : SType) : t.code < 256 ^ 4 := by cases t <;> decide

/-- The members of a section header in memory. -/
theorem secHeader_read (s : Sec) (t : List Nat) (h : Small s) :
    num (s.header ++ t) 0 4 = s.name ∧ num (s.header ++ t) 4 4 = s.type.code
      ∧ num (s.header ++ t) 8 8 = s.flags ∧ num (s.header ++ t) 24 8 = s.offset
      ∧ num (s.header ++ t) 32 8 = s.size ∧ num (s.header ++ t) 40 4 = s.link
      ∧ num (s.header ++ t) 44 4 = s.info ∧ num (s.header ++ t) 48 8 = s.align := by
  have L := fun n (x : Nat) => le_length n x
  simp only [Sec.header, List.append_assoc]
  refine ⟨num_le _ _ _ h.name, ?_, ?_, ?_, ?_, ?_, ?_, ?_⟩
  · rw [num_skip _ _ 0 _ 4 (L _ _)]
    exact num_le _ _ _ (code_lt _)
  · rw [num_skip _ _ 4 _ 4 (L _ _), num_skip _ _ 0 _ 4 (L _ _)]
    exact num_le _ _ _ h.flags
  · rw [num_skip _ _ 20 _ 4 (L _ _), num_skip _ _ 16 _ 4 (L _ _), num_skip _ _ 8 _ 8 (L _ _),
      num_skip _ _ 0 _ 8 (le_length _ _)]
    exact num_le _ _ _ h.offset
  · rw [num_skip _ _ 28 _ 4 (L _ _), num_skip _ _ 24 _ 4 (L _ _), num_skip _ _ 16 _ 8 (L _ _),
      num_skip _ _ 8 _ 8 (le_length _ _), num_skip _ _ 0 _ 8 (L _ _)]
    exact num_le _ _ _ h.size
  · rw [num_skip _ _ 36 _ 4 (L _ _), num_skip _ _ 32 _ 4 (L _ _), num_skip _ _ 24 _ 8 (L _ _),
      num_skip _ _ 16 _ 8 (le_length _ _), num_skip _ _ 8 _ 8 (L _ _), num_skip _ _ 0 _ 8 (L _ _)]
    exact num_le _ _ _ h.link
  · rw [num_skip _ _ 40 _ 4 (L _ _), num_skip _ _ 36 _ 4 (L _ _), num_skip _ _ 28 _ 8 (L _ _),
      num_skip _ _ 20 _ 8 (le_length _ _), num_skip _ _ 12 _ 8 (L _ _), num_skip _ _ 4 _ 8 (L _ _),
      num_skip _ _ 0 _ 4 (L _ _)]
    exact num_le _ _ _ h.info
  · rw [num_skip _ _ 44 _ 4 (L _ _), num_skip _ _ 40 _ 4 (L _ _), num_skip _ _ 32 _ 8 (L _ _),
      num_skip _ _ 24 _ 8 (le_length _ _), num_skip _ _ 16 _ 8 (L _ _), num_skip _ _ 8 _ 8 (L _ _),
      num_skip _ _ 4 _ 4 (L _ _), num_skip _ _ 0 _ 4 (L _ _)]
    exact num_le _ _ _ h.align

/-- Where the header of section `i` starts in the list of headers. -/
theorem headers_split (tab : List Sec) (i : Nat) (s : Sec) (h : tab[i]? = some s) :
    ∃ a b, tab.flatMap Sec.header = a ++ (s.header ++ b) ∧ a.length = i * 64 := by
  induction tab generalizing i with
  | nil => simp at h
  | cons t tab ih =>
    cases i with
    | zero =>
      simp only [List.getElem?_cons_zero, Option.some.injEq] at h
      subst h
      exact ⟨[], tab.flatMap Sec.header, by simp, by simp⟩
    | succ i =>
      simp only [List.getElem?_cons_succ] at h
      obtain ⟨a, b, e, l⟩ := ih i h
      refine ⟨t.header ++ a, b, ?_, ?_⟩
      · simp only [List.flatMap_cons, e, List.append_assoc]
      · simp only [List.length_append, secHeader_length, l]
        omega

theorem headers_length (tab : List Sec) : (tab.flatMap Sec.header).length = tab.length * 64 := by
  induction tab with
  | nil => rfl
  | cons t tab ih =>
    simp only [List.flatMap_cons, List.length_append, secHeader_length, ih, List.length_cons]
    omega

theorem fileHeader_read (n k : Nat) (t : List Nat) (hn : n < 65536) (hk : k < 65536) :
    num (header n k ++ t) 40 8 = 64 ∧ num (header n k ++ t) 58 2 = 64
      ∧ num (header n k ++ t) 60 2 = n ∧ num (header n k ++ t) 62 2 = k := by
  have hL : ∀ m (x : Int), (le m x).length = m := le_length
  have e1 : header n k ++ t
      = ([0x7f, 69, 76, 70, 2, 1, 1, 0, 0, 0, 16, 0, 0, 0, 0, 0] ++ le 2 1 ++ le 2 0x3E ++ le 4 1
          ++ le 8 0 ++ le 8 0) ++ (le 8 ((64 : Nat) : Int) ++ ((le 4 0 ++ le 2 64 ++ le 2 0 ++ le 2 0)
          ++ (le 2 ((64 : Nat) : Int) ++ (le 2 (n : Int) ++ (le 2 (k : Int) ++ t))))) := by
    simp only [header, List.append_assoc]
    rfl
  rw [e1]
  have l1 : ([0x7f, 69, 76, 70, 2, 1, 1, 0, 0, 0, 16, 0, 0, 0, 0, 0] ++ le 2 1 ++ le 2 0x3E ++ le 4 1
          ++ le 8 0 ++ le 8 0).length = 40 := by simp [hL]
  have l2 : (le 4 0 ++ le 2 64 ++ le 2 0 ++ le 2 0).length = 10 := by simp [hL]
  refine ⟨?_, ?_, ?_, ?_⟩
  · rw [num_skip _ _ 0 _ 40 l1]
    exact num_le _ _ _ (by decide)
  · rw [num_skip _ _ 18 _ 40 l1, num_skip _ _ 10 _ 8 (hL _ _), num_skip _ _ 0 _ 10 l2]
    exact num_le _ _ _ (by decide)
  · rw [num_skip _ _ 20 _ 40 l1, num_skip _ _ 12 _ 8 (hL _ _), num_skip _ _ 2 _ 10 l2,
      num_skip _ _ 0 _ 2 (hL _ _)]
    exact num_le _ _ _ hn
  · rw [num_skip _ _ 22 _ 40 l1, num_skip _ _ 14 _ 8 (hL _ _), num_skip _ _ 4 _ 10 l2,
      num_skip _ _ 2 _ 2 (hL _ _), num_skip _ _ 0 _ 2 (hL _ _)]
    exact num_le _ _ _ hk

/-- A member of section header `i`, in the whole file. -/
theorem shMember_read (tab : List Sec) (k : Nat) (body : List Nat) (i : Nat) (s : Sec)
    (h : tab[i]? = some s) (hn : tab.length < 65536) (hk : k < 65536) (o m : Nat) (hm : o + m ≤ 64) :
    Reader.shMember (header tab.length k ++ tab.flatMap Sec.header ++ body) i o m = num s.header o m := by
  obtain ⟨a, b, e, l⟩ := headers_split tab i s h
  have f := fileHeader_read tab.length k (tab.flatMap Sec.header ++ body) hn hk
  unfold Reader.shMember
  rw [List.append_assoc, f.1, f.2.1, e]
  have l1 : (header tab.length k ++ a).length = 64 + i * 64 := by
    rw [List.length_append, header_length, l]
  have e2 : header tab.length k ++ (a ++ (s.header ++ b) ++ body)
      = (header tab.length k ++ a) ++ (s.header ++ (b ++ body)) := by simp only [List.append_assoc]
  rw [e2, show 64 + i * 64 + o = (64 + i * 64) + o from rfl, num_skip _ _ _ _ _ l1,
    num_left _ _ _ _ (by rw [secHeader_length]; exact hm)]

/-! ## Placing sections -/

/-- Two lists of sections that differ in the offsets only. -/
def SameTable (a b : List Sec) : Prop := a.map (fun s => { s with offset := 0 }) = b.map (fun s => { s with offset := 0 })

/-- Sections with contents, in order: each ends before the next begins; the first begins
at or after `e`. -/
def Apart : Nat → List Sec → Prop
  | _, [] => True
  | e, s :: ss => if s.type = .nobits then Apart e ss else e ≤ s.offset ∧ Apart (s.offset + s.size) ss

theorem chain_spec (ss : List Sec) (e : Nat) (hal : ∀ s ∈ ss, s.align ≤ 16) :
    ∃ tab, chain e ss = some tab ∧ SameTable ss tab ∧ Apart e tab
      ∧ ∀ s ∈ tab, s.align ≤ 16 := by
  induction ss generalizing e with
  | nil => exact ⟨[], rfl, rfl, trivial, fun s h => by cases h⟩
  | cons s ss ih =>
    have ha := hal s (by simp)
    have hs := fun s h => hal s (List.mem_cons_of_mem _ h)
    unfold chain
    by_cases ht : s.type = .nobits
    · rw [if_pos ht]
      obtain ⟨tab, h1, h2, h3, h4⟩ := ih e hs
      refine ⟨s :: tab, by rw [h1]; rfl, ?_, ?_, ?_⟩
      · simp only [SameTable, List.map_cons] at h2 ⊢
        rw [h2]
      · simp only [Apart, if_pos ht]
        exact h3
      · intro x hx
        rcases List.mem_cons.mp hx with rfl | hx
        · exact ha
        · exact h4 x hx
    · rw [if_neg ht]
      simp only
      have hp : ¬ (s.align > 1 ∧ ¬ (if s.align > 1 then e % s.align else 0) < 16) := by
        rintro ⟨g1, g2⟩
        rw [if_pos g1] at g2
        have := Nat.mod_lt e (show s.align > 0 by omega)
        omega
      rw [if_neg hp]
      obtain ⟨tab, h1, h2, h3, h4⟩ := ih (e + (if s.align > 1 then e % s.align else 0) + s.size) hs
      refine ⟨_, by rw [h1]; rfl, ?_, ?_, ?_⟩
      · simp only [SameTable, List.map_cons] at h2 ⊢
        rw [h2]
      · simp only [Apart, if_neg ht]
        exact ⟨by omega, h3⟩
      · intro x hx
        rcases List.mem_cons.mp hx with rfl | hx
        · exact ha
        · exact h4 x hx

/-- Padding is at most fifteen bytes. -/
def Close : Nat → List Sec → Prop
  | _, [] => True
  | e, s :: ss => if s.type = .nobits then Close e ss else s.offset - e ≤ 16 ∧ Close (s.offset + s.size) ss

theorem chain_close (ss : List Sec) (e : Nat) (hal : ∀ s ∈ ss, s.align ≤ 16) (tab : List Sec)
    (h : chain e ss = some tab) : Close e tab := by
  induction ss generalizing e tab with
  | nil => cases h; trivial
  | cons s ss ih =>
    have ha := hal s (by simp)
    have hs := fun s h => hal s (List.mem_cons_of_mem _ h)
    unfold chain at h
    by_cases ht : s.type = .nobits
    · rw [if_pos ht] at h
      obtain ⟨t, h1, rfl⟩ := Option.map_eq_some_iff.mp h
      simp only [Close, if_pos ht]
      exact ih e hs t h1
    · rw [if_neg ht] at h
      simp only at h
      split_ifs at h with hp hq
      all_goals
        obtain ⟨t, h1, rfl⟩ := Option.map_eq_some_iff.mp h
        simp only [Close, if_neg ht]
        refine ⟨?_, ih _ hs t h1⟩
      · have := Nat.mod_lt e (show s.align > 0 by omega)
        omega
      · omega

theorem writeSections_some (w : Nat) (tab : List Sec) (ha : Apart w tab) (hc : Close w tab) :
    ∃ body, writeSections (some w) tab = some body := by
  induction tab generalizing w with
  | nil => exact ⟨[], rfl⟩
  | cons s ss ih =>
    unfold writeSections
    by_cases ht : s.type = .nobits
    · simp only [Apart, Close, if_pos ht] at ha hc
      rw [if_pos ht]
      exact ih w ha hc
    · simp only [Apart, Close, if_neg ht] at ha hc
      rw [if_neg ht]
      obtain ⟨b, hb⟩ := ih _ ha.2 hc.2
      simp only [hb, if_neg (show ¬ ¬ w ≤ s.offset by omega), if_pos hc.1]
      exact ⟨_, rfl⟩

/-- Contents are written where the headers say. -/
theorem writeSections_read (w : Nat) (tab : List Sec) (body pre : List Nat) (ha : Apart w tab)
    (hw : pre.length = w) (h : writeSections (some w) tab = some body)
    (hl : ∀ s ∈ tab, s.type ≠ .nobits → s.buf.length = s.size) :
    ∀ s ∈ tab, s.type ≠ .nobits → w ≤ s.offset
      ∧ ((pre ++ body).drop s.offset).take s.size = s.buf ∧ s.offset + s.size ≤ (pre ++ body).length := by
  induction tab generalizing w body pre with
  | nil => intro s hs; cases hs
  | cons s ss ih =>
    unfold writeSections at h
    by_cases ht : s.type = .nobits
    · simp only [Apart, if_pos ht] at ha
      rw [if_pos ht] at h
      intro x hx hn
      rcases List.mem_cons.mp hx with rfl | hx
      · exact absurd ht hn
      · exact ih w body pre ha hw h (fun s hs => hl s (List.mem_cons_of_mem _ hs)) x hx hn
    · simp only [Apart, if_neg ht] at ha
      rw [if_neg ht] at h
      simp only [if_neg (show ¬ ¬ w ≤ s.offset by omega)] at h
      by_cases hp : s.offset - w ≤ 16
      · rw [if_pos hp] at h
        cases hb : writeSections (some (s.offset + s.size)) ss with
        | none => rw [hb] at h; cases h
        | some b =>
          rw [hb] at h
          cases h
          have hs := hl s (by simp) ht
          have ht' : s.buf.take s.size = s.buf := List.take_of_length_le (by omega)
          rw [ht']
          have hpre : (pre ++ List.replicate (s.offset - w) 0).length = s.offset := by
            simp only [List.length_append, List.length_replicate]
            omega
          have hpre2 : (pre ++ (List.replicate (s.offset - w) 0 ++ s.buf)).length = s.offset + s.size := by
            rw [← List.append_assoc, List.length_append, hpre, hs]
          intro x hx hn
          rcases List.mem_cons.mp hx with rfl | hx
          · refine ⟨ha.1, ?_, by
              simp only [List.length_append, List.length_replicate]
              omega⟩
            rw [show pre ++ (List.replicate (x.offset - w) 0 ++ x.buf ++ b)
              = (pre ++ List.replicate (x.offset - w) 0) ++ (x.buf ++ b) by simp only [List.append_assoc]]
            rw [List.drop_append, List.drop_eq_nil_of_le (by omega), hpre, Nat.sub_self, List.drop_zero,
              List.nil_append, List.take_append_of_le_length (by omega), List.take_of_length_le (by omega)]
          · obtain ⟨g1, g2, g3⟩ := ih _ b _ ha.2 hpre2 hb (fun s hs => hl s (List.mem_cons_of_mem _ hs)) x hx hn
            refine ⟨by omega, ?_, ?_⟩
            · rw [← g2]
              simp only [List.append_assoc]
            · simpa only [List.append_assoc] using g3
      · rw [if_neg hp] at h
        cases h

/-- The first section, and the rest. -/
theorem chainOffsets_eq (z s : Sec) (ss : List Sec) (hs : s.type ≠ .nobits) :
    chainOffsets (z :: s :: ss)
      = (chain (64 + (ss.length + 2) * 64 + s.size) ss).map
          fun t => z :: { s with offset := 64 + (ss.length + 2) * 64 } :: t := by
  unfold chainOffsets
  simp only [List.length_cons]
  unfold chainOffsets.first
  rw [if_neg hs]
  simp only [Option.map_map]
  rfl

/-- The sections of the file: all is in place. -/
theorem layout (z s : Sec) (ss : List Sec) (hs : s.type ≠ .nobits)
    (hal : ∀ x ∈ ss, x.align ≤ 16)
    (hl : ∀ x ∈ s :: ss, x.type ≠ .nobits → x.buf.length = x.size) :
    ∃ tab body, chainOffsets (z :: s :: ss) = some (z :: tab) ∧ writeSections none tab = some body
      ∧ SameTable (s :: ss) tab ∧ Apart (64 + (ss.length + 2) * 64) tab
      ∧ ∀ pre : List Nat, pre.length = 64 + (ss.length + 2) * 64 →
        ∀ x ∈ tab, x.type ≠ .nobits → ((pre ++ body).drop x.offset).take x.size = x.buf
          ∧ x.offset + x.size ≤ (pre ++ body).length := by
  obtain ⟨t, h1, h2, h3, h4⟩ := chain_spec ss (64 + (ss.length + 2) * 64 + s.size) hal
  have hc := chain_close ss _ hal t h1
  obtain ⟨b, hb⟩ := writeSections_some _ t h3 hc
  have hsz : s.buf.take s.size = s.buf := List.take_of_length_le (by
    rw [hl s (by simp) hs])
  refine ⟨{ s with offset := 64 + (ss.length + 2) * 64 } :: t, s.buf ++ b, ?_, ?_, ?_, ?_, ?_⟩
  · rw [chainOffsets_eq z s ss hs, h1]
    rfl
  · unfold writeSections
    rw [if_neg hs]
    simp only [hb, hsz, List.nil_append]
  · simp only [SameTable, List.map_cons] at h2 ⊢
    rw [h2]
  · simp only [Apart, if_neg hs]
    exact ⟨Nat.le_refl _, h3⟩
  · intro pre hp x hx hn
    have hls := hl s (by simp) hs
    have hlt : ∀ x ∈ t, x.type ≠ .nobits → x.buf.length = x.size := by
      intro x hx hn
      have : ({ x with offset := 0 } : Sec) ∈ t.map (fun s => { s with offset := 0 }) :=
        List.mem_map.mpr ⟨x, hx, rfl⟩
      rw [← h2] at this
      obtain ⟨y, hy, e⟩ := List.mem_map.mp this
      have k := hl y (List.mem_cons_of_mem _ hy)
      simp only [Sec.mk.injEq] at e
      obtain ⟨_, e2, _, _, e5, _, _, _, _, e10, _⟩ := e
      rw [← e2] at hn
      rw [← e10, ← e5]
      exact k hn
    rcases List.mem_cons.mp hx with rfl | hx
    · refine ⟨?_, by simp only [List.length_append]; omega⟩
      simp only
      rw [List.drop_append, List.drop_eq_nil_of_le (by omega), hp, Nat.sub_self, List.drop_zero,
        List.nil_append, List.take_append_of_le_length (by omega), List.take_of_length_le (by omega)]
    · have := writeSections_read _ t b (pre ++ s.buf) h3 (by rw [List.length_append, hp, hls]) hb hlt x hx hn
      refine ⟨?_, by simpa only [List.append_assoc] using this.2.2⟩
      rw [← this.2.1]
      simp only [List.append_assoc]

end Verif.Elf
