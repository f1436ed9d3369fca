import Verif.Asm.Out
import Verif.Asm.Gas
import Verif.Tac
import Verif.Asm.TextLemmas

/-! The text of numbers, registers and addresses is read as what was printed. -/

namespace Verif.Asm.Printed

open Gas

/-! ## Numbers -/

theorem value_append (a b : Bytes) : value (a ++ b) = b.foldl (fun n c => 10 * n + (c.toNat - 48)) (value a) := by
  unfold value; rw [List.foldl_append]

theorem digit_val {k : Nat} (h : k < 10) : (48 + UInt8.ofNat k : UInt8).toNat - 48 = k := by
  have : ∀ k : Fin 10, (48 + UInt8.ofNat k.val : UInt8).toNat - 48 = k.val := by decide
  exact this ⟨k, h⟩

theorem digit_is {k : Nat} (h : k < 10) : Gas.isDigit (48 + UInt8.ofNat k) = true := by
  have : ∀ k : Fin 10, Gas.isDigit (48 + UInt8.ofNat k.val) = true := by decide
  exact this ⟨k, h⟩

theorem digit_zero {k : Nat} (h : k < 10) : (48 + UInt8.ofNat k : UInt8) = chr% '0' → k = 0 := by
  have : ∀ k : Fin 10, (48 + UInt8.ofNat k.val : UInt8) = chr% '0' → k.val = 0 := by decide
  exact this ⟨k, h⟩

theorem natText_value (n : Nat) : value (natText n) = n := by
  induction n using Nat.strongRecOn with
  | _ n ih =>
    rw [natText]
    split_ifs with h
    · simp only [value, List.foldl_cons, List.foldl_nil]
      rw [digit_val h]; omega
    · rw [value_append, ih (n / 10) (by omega)]
      simp only [List.foldl_cons, List.foldl_nil]
      rw [digit_val (Nat.mod_lt _ (by decide))]
      omega

theorem natText_digits (n : Nat) : ∀ c ∈ natText n, Gas.isDigit c = true := by
  induction n using Nat.strongRecOn with
  | _ n ih =>
    rw [natText]
    split_ifs with h
    · intro c hc
      rw [List.mem_singleton] at hc
      subst hc; exact digit_is h
    · intro c hc
      rw [List.mem_append, List.mem_singleton] at hc
      rcases hc with hc | rfl
      · exact ih _ (by omega) c hc
      · exact digit_is (Nat.mod_lt _ (by decide))

/-- No zero in front. -/
theorem natText_head (n : Nat) : ∃ c r, natText n = c :: r ∧ (c = chr% '0' → n = 0 ∧ r = []) := by
  induction n using Nat.strongRecOn with
  | _ n ih =>
    rw [natText]
    split_ifs with h
    · exact ⟨_, _, rfl, fun hc => ⟨digit_zero h hc, rfl⟩⟩
    · obtain ⟨c, r, hr, hz⟩ := ih (n / 10) (by omega)
      refine ⟨c, r ++ [48 + UInt8.ofNat (n % 10)], by rw [hr]; rfl, fun hc => ?_⟩
      have := (hz hc).1
      omega

theorem natText_length (k : Nat) : ∀ n, n < 10 ^ (k + 1) → (natText n).length ≤ k + 1 := by
  induction k with
  | zero =>
    intro n h
    rw [natText, if_pos (by simpa using h)]
    simp
  | succ k ih =>
    intro n h
    rw [natText]
    split_ifs with g
    · simp
    · have : n / 10 < 10 ^ (k + 1) := by
        rw [Nat.pow_succ] at h
        omega
      have := ih _ this
      simp only [List.length_append, List.length_singleton]
      omega

theorem readNat_text (n : Nat) : readNat (natText n) = some n := by
  obtain ⟨c, r, hr, hz⟩ := natText_head n
  have hd := natText_digits n
  have hv := natText_value n
  rw [hr] at hd hv ⊢
  unfold readNat
  simp only
  rw [if_pos, hv]
  rw [Bool.and_eq_true, List.all_eq_true]
  refine ⟨hd, ?_⟩
  by_cases h : c = chr% '0'
  · rw [(hz h).2]; simp
  · simp [h]

theorem readInt_text (x : Int) : readInt (intText x) = some x := by
  unfold intText
  split_ifs with h
  · rw [readInt, if_pos rfl, readNat_text]
    show some (-(x.natAbs : Int)) = some x
    rw [Option.some.injEq]
    omega
  · obtain ⟨c, r, hr, _⟩ := natText_head x.natAbs
    have hd := natText_digits x.natAbs c (by rw [hr]; simp)
    have : c ≠ chr% '-' := by rintro rfl; revert hd; decide
    have hn := readNat_text x.natAbs
    rw [hr] at hn ⊢
    rw [readInt, if_neg this, hn]
    show some (x.natAbs : Int) = some x
    rw [Option.some.injEq]
    omega

/-- Characters that separate nothing. -/
def inertC (c : UInt8) : Bool :=
  c != chr% ',' && c != chr% '(' && c != chr% ')' && c != chr% ' ' && c != chr% '\t'

def Inert (t : Bytes) : Prop := ∀ c ∈ t, inertC c = true

theorem Inert.append {a b : Bytes} (ha : Inert a) (hb : Inert b) : Inert (a ++ b) := by
  intro c hc
  rcases List.mem_append.mp hc with h | h
  · exact ha c h
  · exact hb c h

theorem digit_inert : ∀ c, Gas.isDigit c = true → inertC c = true := by
  apply forall_byte; decide +kernel

theorem word_inert : ∀ c, isWord c = true → inertC c = true := by
  apply forall_byte; decide +kernel

theorem natText_inert (n : Nat) : Inert (natText n) := fun c hc => digit_inert c (natText_digits n c hc)

theorem intText_inert (x : Int) : Inert (intText x) := by
  unfold intText
  split_ifs
  · intro c hc
    rcases List.mem_cons.mp hc with rfl | hc
    · decide
    · exact natText_inert _ c hc
  · exact natText_inert _

theorem intText_length {x : Int} (h : x.natAbs < 10 ^ 10) : (intText x).length ≤ 11 := by
  have := natText_length 9 x.natAbs h
  unfold intText
  split_ifs
  · simp only [List.length_cons]; omega
  · omega

/-- A number starts with a digit or a sign. -/
theorem intText_head (x : Int) : ∃ c r, intText x = c :: r ∧ (Gas.isDigit c || c == chr% '-') = true := by
  unfold intText
  split_ifs
  · exact ⟨_, _, rfl, by decide⟩
  · obtain ⟨c, r, hr, _⟩ := natText_head x.natAbs
    exact ⟨c, r, hr, by rw [natText_digits _ c (by rw [hr]; simp)]; rfl⟩

/-! ## Splitting -/

def glue (t : Bytes) : List Bytes → List Bytes
  | p :: ps => (t ++ p) :: ps
  | [] => [t]

theorem onto_ne (c : UInt8) (l : List Bytes) : onto c l ≠ [] := by
  cases l <;> exact List.cons_ne_nil _ _

theorem onto_glue (c : UInt8) {l : List Bytes} (h : l ≠ []) : onto c l = glue [c] l := by
  cases l with
  | nil => exact absurd rfl h
  | cons p ps => rfl

theorem splitArgs_ne (d : Nat) (t : Bytes) : splitArgs d t ≠ [] := by
  cases t with
  | nil => simp [splitArgs]
  | cons c t =>
    unfold splitArgs
    split_ifs <;> first | exact List.cons_ne_nil _ _ | exact onto_ne _ _

theorem splitComma_ne (t : Bytes) : splitComma t ≠ [] := by
  cases t with
  | nil => simp [splitComma]
  | cons c t =>
    unfold splitComma
    split_ifs <;> first | exact List.cons_ne_nil _ _ | exact onto_ne _ _

theorem glue_glue (a b : Bytes) {l : List Bytes} (h : l ≠ []) : glue a (glue b l) = glue (a ++ b) l := by
  cases l with
  | nil => exact absurd rfl h
  | cons p ps => simp [glue]

/-- Text without a comma outside of parentheses. -/
def Solid (d : Nat) (t : Bytes) : Prop := ∀ rest, splitArgs d (t ++ rest) = glue t (splitArgs d rest)

theorem Solid.append {d : Nat} {a b : Bytes} (ha : Solid d a) (hb : Solid d b) : Solid d (a ++ b) := by
  intro rest
  rw [List.append_assoc, ha, hb, glue_glue _ _ (splitArgs_ne _ _)]

theorem Solid.nil {d : Nat} : Solid d [] := by
  intro rest
  have := splitArgs_ne d rest
  rw [List.nil_append]
  cases h : splitArgs d rest with
  | nil => exact absurd h this
  | cons p ps => rfl

theorem Inert.solid {d : Nat} {t : Bytes} (h : Inert t) : Solid d t := by
  induction t with
  | nil => exact Solid.nil
  | cons c t ih =>
    intro rest
    have hc := h c (by simp)
    have h1 : c ≠ chr% ',' := by rintro rfl; revert hc; decide
    have h2 : c ≠ chr% '(' := by rintro rfl; revert hc; decide
    have h3 : c ≠ chr% ')' := by rintro rfl; revert hc; decide
    rw [List.cons_append, splitArgs, if_neg (fun h => h1 h.1), if_neg h2, if_neg h3,
      ih (fun x hx => h x (by simp [hx])) rest, onto_glue]
    · exact glue_glue [c] t (splitArgs_ne _ _)
    · cases h : splitArgs d rest <;> simp [glue]

theorem comma_solid : Solid 1 (str% ",") := by
  intro rest
  show splitArgs 1 (chr% ',' :: rest) = _
  rw [splitArgs, if_neg (by simp), if_neg (by decide), if_neg (by decide), onto_glue _ (splitArgs_ne _ _)]

theorem parens_solid {t : Bytes} (h : Solid 1 t) : Solid 0 (str% "(" ++ (t ++ str% ")")) := by
  intro rest
  rw [show (str% "(" ++ (t ++ str% ")")) ++ rest = chr% '(' :: (t ++ (chr% ')' :: rest)) by simp]
  rw [splitArgs, if_neg (by decide), if_pos rfl, h, splitArgs, if_neg (by decide), if_neg (by decide),
    if_pos rfl, onto_glue _ (splitArgs_ne _ _)]
  show onto (chr% '(') (glue t (glue (str% ")") (splitArgs 0 rest))) = _
  have := splitArgs_ne 0 rest
  cases hs : splitArgs 0 rest with
  | nil => exact absurd hs this
  | cons p ps => simp [glue, onto]

/-- The parts between commas. -/
theorem splitComma_inert {t : Bytes} (h : Inert t) (rest : Bytes) :
    splitComma (t ++ (chr% ',' :: rest)) = t :: splitComma rest := by
  induction t with
  | nil => rw [List.nil_append, splitComma, if_pos rfl]
  | cons c t ih =>
    have hc := h c (by simp)
    have h1 : c ≠ chr% ',' := by rintro rfl; revert hc; decide
    rw [List.cons_append, splitComma, if_neg h1, ih (fun x hx => h x (by simp [hx]))]
    rfl

theorem splitComma_last {t : Bytes} (h : Inert t) : splitComma t = [t] := by
  induction t with
  | nil => rfl
  | cons c t ih =>
    have hc := h c (by simp)
    have h1 : c ≠ chr% ',' := by rintro rfl; revert hc; decide
    rw [splitComma, if_neg h1, ih (fun x hx => h x (by simp [hx]))]
    rfl

/-! ## Registers -/

theorem gprText : ∀ r ∈ Encode.gprs, ∀ w ∈ Encode.widths,
    ∃ s, regname w r = some (chr% '%' :: s) ∧ readReg (chr% '%' :: s) = some (.gpr (r - 1) w)
      ∧ s.all inertC = true ∧ s.length ≤ 4 := by
  have h : ∀ r ∈ Encode.gprs, ∀ w ∈ Encode.widths,
      (match regname w r with
        | some (c :: s) => c == chr% '%' && readReg (chr% '%' :: s) == some (.gpr (r - 1) w)
            && s.all inertC && decide (s.length ≤ 4)
        | _ => false) = true := by decide +kernel
  intro r hr w hw
  have := h r hr w hw
  split at this
  · rename_i c s e
    simp only [Bool.and_eq_true, beq_iff_eq, decide_eq_true_eq] at this
    obtain ⟨⟨⟨rfl, h2⟩, h3⟩, h4⟩ := this
    exact ⟨s, e, h2, h3, h4⟩
  · cases this

theorem regname_xmm {w r : Nat} (h : r ∈ Encode.xmms) : regname w r = regname 4 r := by
  have h1 : r ≠ 33 ∧ ¬ r < 17 := (show ∀ r ∈ Encode.xmms, r ≠ 33 ∧ ¬ r < 17 by decide) r h
  unfold regname
  rw [if_neg h1.1, if_neg h1.1, if_neg h1.2, if_neg h1.2]

theorem xmmText : ∀ r ∈ Encode.xmms, ∀ w,
    ∃ s, regname w r = some (chr% '%' :: s) ∧ readReg (chr% '%' :: s) = some (.xmm (r - 17))
      ∧ s.all inertC = true ∧ s.length ≤ 5 := by
  have h : ∀ r ∈ Encode.xmms,
      (match regname 4 r with
        | some (c :: s) => c == chr% '%' && readReg (chr% '%' :: s) == some (.xmm (r - 17))
            && s.all inertC && decide (s.length ≤ 5)
        | _ => false) = true := by decide +kernel
  intro r hr w
  rw [regname_xmm hr]
  have := h r hr
  split at this
  · rename_i c s e
    simp only [Bool.and_eq_true, beq_iff_eq, decide_eq_true_eq] at this
    obtain ⟨⟨⟨rfl, h2⟩, h3⟩, h4⟩ := this
    exact ⟨s, e, h2, h3, h4⟩
  · cases this

end Verif.Asm.Printed
