import Verif.Encode.CheckMem

/-! Instructions with an immediate number.  What precedes the number depends on it only
through the smallest of three ranges containing it. -/

namespace Verif.Encode

open Intel

/-! ## The number -/

/-- A number of each range. -/
def rep (q : Int) : Int :=
  if inByteRange q then 0 else if in32BitRange q then 1000 else 1099511627776

theorem byte_in32 {q : Int} (h : inByteRange q = true) : in32BitRange q = true := by
  simp [inByteRange, in32BitRange] at *; omega

theorem rep_byte (q : Int) : inByteRange (rep q) = inByteRange q := by
  unfold rep
  by_cases h : inByteRange q = true
  · rw [if_pos h, h]; rfl
  · rw [if_neg h]
    simp only [Bool.not_eq_true] at h
    rw [h]
    split_ifs <;> rfl

theorem rep_32 (q : Int) : in32BitRange (rep q) = in32BitRange q := by
  unfold rep
  by_cases h : inByteRange q = true
  · rw [if_pos h, byte_in32 h]; rfl
  · rw [if_neg h]
    by_cases g : in32BitRange q = true
    · rw [if_pos g, g]; rfl
    · rw [if_neg g]
      simp only [Bool.not_eq_true] at g
      rw [g]; rfl

def immShort (wi : Nat) (s : Bool) (q : Int) : Bool := wi == 1 || (s && inByteRange q)

/-- The number of bytes written. -/
def immLen (wi : Nat) (s dword : Bool) (q : Int) : Option Nat :=
  if immShort wi s q then some 1
  else if wi = 2 then some 2
  else if wi = 4 ∨ dword = true then
    if wi = 4 ∨ in32BitRange q = true then some 4 else none
  else if wi = 8 then some 8
  else none

theorem immShort_rep (wi : Nat) (s : Bool) (q : Int) : immShort wi s (rep q) = immShort wi s q := by
  simp only [immShort, rep_byte]

theorem immLen_rep (wi : Nat) (s d : Bool) (q : Int) : immLen wi s d (rep q) = immLen wi s d q := by
  simp only [immLen, immShort_rep, rep_32]

/-- The bit saying that a byte is sign extended. -/
def signBit (c : Code) (wi sx : Nat) (q : Int) : Code :=
  if immShort wi (sx != 0) q && sx != 0 then c.orBack sx 2 else c

theorem encodeImmediate_int (c : Code) (wi sx : Nat) (d : Bool) (q : Int) :
    encodeImmediate c ⟨wi, .int q⟩ sx d
      = (immLen wi (sx != 0) d q).map fun n => ((signBit c wi sx q).push (le n q), n) := by
  simp only [encodeImmediate, immLen, signBit, immShort]
  by_cases h1 : wi = 1
  · by_cases h2 : sx = 0 <;> simp [h1, h2]
  · by_cases h2 : sx = 0
    · simp [h1, h2]
      split_ifs <;> rfl
    · by_cases h3 : inByteRange q = true
      · simp [h1, h2, h3]
      · simp [h1, h2, h3]
        split_ifs <;> rfl

theorem immLen_width {wi : Nat} {s d : Bool} {q : Int} {n : Nat} (h : immLen wi s d q = some n) :
    immEncodingWidth ⟨wi, .int q⟩ s d = n := by
  simp only [immLen, immShort, immEncodingWidth] at *
  by_cases h1 : wi = 1
  · simp [h1] at h ⊢; exact h
  · by_cases h2 : s = true ∧ inByteRange q = true
    · simp [h1, h2.1, h2.2] at h ⊢; exact h
    · have h2' : (s && inByteRange q) = false := by
        cases s <;> cases hb : inByteRange q <;> simp_all
      simp [h1, h2'] at h
      rw [if_neg (by simp [h1]; exact fun a => by simpa [a] using h2)]
      split_ifs at h ⊢ <;> first | (cases h; rfl) | cases h

/-- A value of `k` bytes may be written in `n`. -/
def fits (n k : Nat) (q : Int) : Bool :=
  n != 0 && (n == k || (n == 1 && k ∈ widths && inByteRange q) || (n == 4 && k == 8 && in32BitRange q))

theorem fits_rep (n k : Nat) (q : Int) : fits n k (rep q) = fits n k q := by
  simp only [fits, rep_byte, rep_32]

theorem fits_bmod {n k : Nat} {q : Int} (h : fits n k q = true) : q.bmod (256 ^ n) = immOf k q := by
  unfold immOf
  simp only [fits, Bool.and_eq_true, Bool.or_eq_true, beq_iff_eq, decide_eq_true_eq] at h
  rcases h.2 with (rfl | ⟨⟨rfl, hk⟩, hq⟩) | ⟨⟨rfl, rfl⟩, hq⟩
  · rfl
  · simp [inByteRange] at hq
    have e1 : q.bmod (256 ^ 1) = q := by
      apply bmod_self
      · show -((256 : Nat) : Int) ≤ _; omega
      · show _ < ((256 : Nat) : Int); omega
    rw [e1, bmod_self]
    · simp only [widths, List.mem_cons, List.not_mem_nil, or_false] at hk
      rcases hk with rfl | rfl | rfl | rfl
      · show -((256 : Nat) : Int) ≤ _; omega
      · show -((65536 : Nat) : Int) ≤ _; omega
      · show -((4294967296 : Nat) : Int) ≤ _; omega
      · show -((18446744073709551616 : Nat) : Int) ≤ _; omega
    · simp only [widths, List.mem_cons, List.not_mem_nil, or_false] at hk
      rcases hk with rfl | rfl | rfl | rfl
      · show _ < ((256 : Nat) : Int); omega
      · show _ < ((65536 : Nat) : Int); omega
      · show _ < ((4294967296 : Nat) : Int); omega
      · show _ < ((18446744073709551616 : Nat) : Int); omega
  · simp [in32BitRange] at hq
    rw [bmod_self, bmod_self]
    · show -((18446744073709551616 : Nat) : Int) ≤ _; omega
    · show _ < ((18446744073709551616 : Nat) : Int); omega
    · show -((4294967296 : Nat) : Int) ≤ _; omega
    · show _ < ((4294967296 : Nat) : Int); omega

theorem immediate_le {n k : Nat} {q : Int} (h : fits n k q = true) (t : List Nat) :
    immediate n (le n q ++ t) = some (some (immOf k q), t) := by
  have h0 : n ≠ 0 := by
    simp only [fits, Bool.and_eq_true, bne_iff_ne] at h
    exact h.1
  unfold immediate
  rw [if_neg h0, signed_le, fits_bmod h]
  rfl

theorem is32_rep (wi : Nat) (q : Int) : is32BitImm ⟨wi, .int (rep q)⟩ = is32BitImm ⟨wi, .int q⟩ := by
  simp only [is32BitImm, rep_32]

theorem find_congr (op : Nat) {o o' : Ops} (h : ∀ e, matchesRow o e = matchesRow o' e) (c c' p p' : Nat) :
    findEncoding ⟨op, c, p, o⟩ = findEncoding ⟨op, c', p', o'⟩ := by
  unfold findEncoding
  rw [show matchesRow o = matchesRow o' from funext h]

/-! ## Immediate and register -/

/-- What `encodeImmReg` writes before the number, and the distance back to the byte
with the sign extension bit. -/
def irHead (c : Code) (e : Enc) (w b : Nat) : Option (Code × Nat) :=
  let rex := REX ||| rexW w ||| rexB b
  let c := pushRex c rex ((b == SI || b == DI) && w == 1)
  let c := encodeOpcode c e
  let w' := if e.opxW then (if e.opxReg then flag (w != 1) 8 else flag (w != 1) 1) else w
  let c := if e.opxW then c.orBack 1 w' else c
  if e.opxReg ∧ (e.modrm ≠ 0 ∨ e.impl1 ≠ 0) then none
  else
    let c :=
      if e.opxReg then c.orBack 1 (reg3 b)
      else if e.impl1 = 0 then c.push [0xC0 ||| e.modrm ||| reg3 b]
      else c
    let d := if e.opxReg then 1 else if e.impl1 = 0 then 2 else 0
    some (c, if e.opxS = false ∨ w' = 0 then 0 else d)

theorem encodeImmReg_eq (c : Code) (e : Enc) (w : Nat) (i : Imm) (b : Nat) :
    encodeImmReg c e w i b
      = match irHead c e w b with
        | none => none
        | some (c, d) => (encodeImmediate c i d e.dword).map (·.1) := by
  unfold encodeImmReg irHead
  simp only
  by_cases h : e.opxReg = true ∧ (e.modrm ≠ 0 ∨ e.impl1 ≠ 0)
  · rw [if_pos h, if_pos h]
  · rw [if_neg h, if_neg h]

def checkIR (op wi w r : Nat) (q : Int) : Bool :=
  match findEncoding ⟨op, 0, 0, .immReg ⟨wi, .int q⟩ w r⟩,
      meaning ⟨op, 0, 0, .immReg ⟨wi, .int q⟩ w r⟩ with
  | some e, some ⟨mn, [o, .imm k], none, some _⟩ =>
    let sz := operandSize ⟨op, 0, 0, .immReg ⟨wi, .int q⟩ w r⟩
    match irHead (start e 0 sz) e sz r with
    | none => false
    | some (c, d) =>
      match immLen wi (d != 0) e.dword q with
      | none => false
      | some n => fits n k q && c.fix == [] &&
        forceList (signBit c wi d q).val fun v => parseReg v == some (mn, [o, .imm k], n)
  | _, _ => false

theorem meaning_immReg {op cc p wi : Nat} {q q' : Int} {w r : Nat} {mn o k mm v}
    (h : meaning ⟨op, 0, 0, .immReg ⟨wi, .int q'⟩ w r⟩ = some ⟨mn, [o, .imm k], mm, some v⟩) :
    meaning ⟨op, cc, p, .immReg ⟨wi, .int q⟩ w r⟩ = some ⟨mn, [o, .imm k], mm, some (immOf k q)⟩ := by
  simp only [meaning] at h ⊢
  split at h
  · cases h; rfl
  · cases h; rfl
  · cases h

theorem signBit_rep (c : Code) (wi sx : Nat) (q : Int) : signBit c wi sx (rep q) = signBit c wi sx q := by
  simp only [signBit, immShort_rep]

theorem signBit_fix (c : Code) (wi sx : Nat) (q : Int) : (signBit c wi sx q).fix = c.fix := by
  unfold signBit; split_ifs <;> rfl

theorem operandSize_ir (op cc p wi : Nat) (q q' : Int) (w r : Nat) :
    operandSize ⟨op, cc, p, .immReg ⟨wi, .int q⟩ w r⟩
      = operandSize ⟨op, 0, 0, .immReg ⟨wi, .int q'⟩ w r⟩ := rfl

theorem right_immReg {op cc wi w r : Nat} {q : Int} (h : checkIR op wi w r (rep q) = true) :
    Right ⟨op, cc, 0, .immReg ⟨wi, .int q⟩ w r⟩ := by
  unfold checkIR at h
  split at h
  · rename_i e mn o k v he hm
    simp only at h
    split at h
    · cases h
    · rename_i c d hi
      split at h
      · cases h
      · rename_i n hn
        simp only [Bool.and_eq_true, beq_iff_eq, forceList_eq] at h
        obtain ⟨⟨hf, hx⟩, hp⟩ := h
        rw [immLen_rep] at hn
        rw [fits_rep] at hf
        rw [signBit_rep] at hp
        have fe : findEncoding ⟨op, cc, 0, .immReg ⟨wi, .int q⟩ w r⟩ = some e := by
          rw [← he]
          apply find_congr
          intro e
          simp only [matchesRow, Ops.theImm, Ops.mask, is32_rep]
          rfl
        have key : encode ⟨op, cc, 0, .immReg ⟨wi, .int q⟩ w r⟩
            = some ((signBit c wi d q).push (le n q)) := by
          unfold encode
          rw [fe]
          simp only [encodeImmReg_eq]
          rw [operandSize_ir op cc 0 wi q (rep q) w r, hi]
          simp only [encodeImmediate_int, hn]
          rfl
        refine ⟨_, _, key, meaning_immReg hm, ?_, ?_⟩
        · intro t
          simp only [Code.push, List.append_assoc]
          exact parseReg_decode hp (immediate_le hf t)
        · show (signBit c wi d q).fix = []
          rw [signBit_fix, hx]
  · cases h

theorem arith_ir : ∀ op ∈ [oADD, oAND, oCMP, oMOV, oOR, oSUB, oTEST, oXOR], ∀ w ∈ widths,
    ∀ r ∈ regsB w, ∀ q ∈ [0, 1000, 1099511627776],
      immRegOk op w q = true → checkIR op w w r q = true := by decide +kernel

theorem shift_ir : ∀ op ∈ [oSAR, oSHL, oSHR], ∀ w ∈ widths, ∀ r ∈ regsB w,
    ∀ q ∈ [0, 1000, 1099511627776], checkIR op 1 w r q = true := by decide +kernel

theorem immRegOk_rep (op w : Nat) (q : Int) : immRegOk op w (rep q) = immRegOk op w q := by
  unfold immRegOk; split <;> simp only [rep_byte, rep_32]

theorem immMemOk_rep (op w : Nat) (q : Int) : immMemOk op w (rep q) = immMemOk op w q := by
  unfold immMemOk; split <;> simp only [rep_byte, rep_32]

theorem rep_mem (q : Int) : rep q ∈ [0, 1000, 1099511627776] := by
  unfold rep; split_ifs <;> decide

/-! ## Immediate and memory -/

/-- The bytes of an address. -/
def addrBytes (reg : Nat) (a : Addr) : Option (List Nat) :=
  match a.sym with
  | none => modrmSibDisp reg a
  | some (.plt, _) => none
  | some _ => some [(reg % 8) * 8 ||| 5, 0, 0, 0, 0]

theorem encodeAddress_eq (c : Code) (reg : Nat) (a : Addr) (k : Nat) :
    encodeAddress c reg a k = (addrBytes reg a).map fun bs =>
      (⟨c.val ++ bs, c.fix ++ addrFix a (c.val.length + 1) k⟩, bs.length) := by
  rcases h : a.sym with _ | ⟨t, s⟩
  · simp only [encodeAddress, addrBytes, addrFix, h, List.append_nil]
    cases modrmSibDisp reg a <;> rfl
  · cases t <;> simp [encodeAddress, addrBytes, addrFix, h, Code.push]

/-- What `encodeImmMem` writes before the address. -/
def imHead (c : Code) (e : Enc) (w : Nat) (x b : Bool) : Code :=
  let c := pushRex c (REX ||| rexW w ||| flag x 2 ||| flag b 1) false
  let c := encodeOpcode c e
  if e.opxW then c.orBack 1 (flag (w != 1) 1) else c

theorem encodeImmMem_eq (c : Code) (e : Enc) (w : Nat) (i : Imm) (a : Addr) :
    encodeImmMem c e w i a
      = match encodeAddress (imHead c e w (is64 a.index) (is64 a.base)) (e.modrm / 8 % 8) a
            (immEncodingWidth i e.opxS e.dword) with
        | none => none
        | some (c, n) =>
          match encodeImmediate c i (if e.opxS then n + 1 else 0) e.dword with
          | none => none
          | some (c, m) => if m = immEncodingWidth i e.opxS e.dword then some c else none := rfl

theorem modify_append_left (l m : List Nat) (k : Nat) (f : Nat → Nat) (h : k < l.length) :
    (l ++ m).modify k f = l.modify k f ++ m := by
  induction l generalizing k with
  | nil => cases h
  | cons b l ih =>
    cases k with
    | zero => rfl
    | succ k =>
      simp only [List.cons_append, List.modify_succ_cons]
      rw [ih k (by simpa using h)]

theorem orBack_append {c : Code} (hne : c.val ≠ []) (bs : List Nat) (fx : List Fix) (v : Nat) :
    (⟨c.val ++ bs, fx⟩ : Code).orBack (bs.length + 1) v = ⟨(c.orBack 1 v).val ++ bs, fx⟩ := by
  have hl : 0 < c.val.length := List.length_pos_iff.mpr hne
  simp only [Code.orBack, List.length_append]
  congr 1
  rw [show c.val.length + bs.length - (bs.length + 1) = c.val.length - 1 by omega]
  exact modify_append_left _ _ _ _ (by omega)

/-- The head with the sign extension bit. -/
def imHead' (c : Code) (e : Enc) (wi : Nat) (q : Int) : Code :=
  if immShort wi e.opxS q && e.opxS then c.orBack 1 2 else c

theorem imHead'_length (c : Code) (e : Enc) (wi : Nat) (q : Int) :
    (imHead' c e wi q).val.length = c.val.length := by
  unfold imHead'; split_ifs <;> simp [Code.orBack]

def checkIM (op wi w : Nat) (x b : Bool) (q : Int) : Bool :=
  match findEncoding ⟨op, 0, 0, .immMem ⟨wi, .int q⟩ w noAddr⟩,
      meaning ⟨op, 0, 0, .immMem ⟨wi, .int q⟩ w noAddr⟩ with
  | some e, some ⟨mn, [o, .imm k], _, some _⟩ =>
    let sz := operandSize ⟨op, 0, 0, .immMem ⟨wi, .int q⟩ w noAddr⟩
    match immLen wi e.opxS e.dword q with
    | none => false
    | some n => fits n k q && !(imHead (start e 0 sz) e sz x b).val.isEmpty &&
      (imHead (start e 0 sz) e sz x b).fix == [] &&
      forceList (imHead' (imHead (start e 0 sz) e sz x b) e wi q).val fun v =>
        parseMem v (e.modrm / 8 % 8) x b == some (mn, [o, .imm k], n)
  | _, _ => false

theorem meaning_immMem {op cc p wi : Nat} {q q' : Int} {w : Nat} {a : Addr} {mn o k mm v}
    (h : meaning ⟨op, 0, 0, .immMem ⟨wi, .int q'⟩ w noAddr⟩ = some ⟨mn, [o, .imm k], mm, some v⟩) :
    meaning ⟨op, cc, p, .immMem ⟨wi, .int q⟩ w a⟩
      = some ⟨mn, [o, .imm k], some (memOf a), some (immOf k q)⟩ := by
  simp only [meaning] at h ⊢
  cases h1 : arith op with
  | none => rw [h1] at h; cases h
  | some m => rw [h1] at h; cases h; rfl

theorem operandSize_im (op cc p wi : Nat) (q q' : Int) (w : Nat) (a : Addr) :
    operandSize ⟨op, cc, p, .immMem ⟨wi, .int q⟩ w a⟩
      = operandSize ⟨op, 0, 0, .immMem ⟨wi, .int q'⟩ w noAddr⟩ := rfl

theorem right_immMem {op cc wi w : Nat} {a : Addr} {q : Int} (ok : a.Ok)
    (hj : (op == oJMP || op == oJcc) = false)
    (h : checkIM op wi w (is64 a.index) (is64 a.base) (rep q) = true) :
    Right ⟨op, cc, 0, .immMem ⟨wi, .int q⟩ w a⟩ := by
  unfold checkIM at h
  split at h
  · rename_i e mn o k mm v he hm
    simp only at h
    split at h
    · cases h
    · rename_i n hn
      simp only [Bool.and_eq_true, beq_iff_eq, forceList_eq] at h
      obtain ⟨⟨⟨hf, hne⟩, hx⟩, hp⟩ := h
      rw [immLen_rep] at hn
      rw [fits_rep] at hf
      obtain ⟨c, hc⟩ : ∃ c, c = imHead (start e 0 (operandSize ⟨op, 0, 0, .immMem ⟨wi, .int (rep q)⟩ w noAddr⟩))
        e (operandSize ⟨op, 0, 0, .immMem ⟨wi, .int (rep q)⟩ w noAddr⟩) (is64 a.index) (is64 a.base) := ⟨_, rfl⟩
      rw [← hc] at hp hne hx
      have hne' : c.val ≠ [] := by
        intro g; rw [g] at hne; cases hne
      have hh : imHead' c e wi (rep q) = imHead' c e wi q := by
        simp only [imHead', immShort_rep]
      rw [hh] at hp
      have fe : findEncoding ⟨op, cc, 0, .immMem ⟨wi, .int q⟩ w a⟩ = some e := by
        rw [← he]
        apply find_congr
        intro e
        simp only [matchesRow, Ops.theImm, Ops.mask, is32_rep]
        rfl
      obtain ⟨bs, ea, _, _, h5, hd⟩ := parseMem_decode hp ok 0
      have eb : addrBytes (e.modrm / 8 % 8) a = some bs := by
        rw [encodeAddress_eq] at ea
        cases h3 : addrBytes (e.modrm / 8 % 8) a with
        | none => rw [h3] at ea; cases ea
        | some bs' =>
          rw [h3] at ea
          simp only [Option.map_some, Option.some.injEq, Prod.mk.injEq, Code.mk.injEq,
            List.append_cancel_left_eq] at ea
          rw [ea.1.1]
      have key : encode ⟨op, cc, 0, .immMem ⟨wi, .int q⟩ w a⟩
          = some ⟨(imHead' c e wi q).val ++ bs ++ le n q, c.fix ++ addrFix a (c.val.length + 1) n⟩ := by
        unfold encode
        rw [fe]
        simp only [encodeImmMem_eq]
        rw [operandSize_im op cc 0 wi q (rep q) w a, ← hc, encodeAddress_eq, eb]
        simp only [Option.map_some]
        rw [encodeImmediate_int]
        have hs : ((if e.opxS = true then bs.length + 1 else 0) != 0) = e.opxS := by
          cases e.opxS <;> simp
        rw [hs, hn, immLen_width hn]
        simp only [Option.map_some, if_true, signBit, hs]
        unfold imHead'
        cases hx : e.opxS with
        | false => simp [Code.push]
        | true =>
          simp only [if_true, Bool.and_true]
          cases hy : immShort wi true q with
          | false => simp [Code.push]
          | true =>
            simp only [if_true]
            rw [orBack_append hne']
            simp [Code.push]
      refine ⟨_, _, key, meaning_immMem hm, ?_, ?_⟩
      · intro t
        simp only [List.append_assoc]
        exact hd _ _ _ (immediate_le hf t)
      · refine links_mem (v := (imHead' c e wi q).val) (bs := bs) (post := le n q) rfl hj ok rfl
          (by simp) (by rw [imHead'_length, le_length]; simp [hx]) ?_
        intro g
        obtain ⟨m, hm, hd⟩ := h5 g
        exact ⟨m, hm, fun z t hz => hd z _ _ _ hz (immediate_le hf t)⟩
  · cases h

theorem arith_im : ∀ op ∈ [oADD, oAND, oCMP, oMOV, oOR, oSUB, oTEST, oXOR], ∀ w ∈ widths,
    ∀ x b, ∀ q ∈ [0, 1000, 1099511627776],
      immMemOk op w q = true → checkIM op w w x b q = true := by decide +kernel

/-! ## Immediate alone -/

theorem push_find (cc : Nat) {q : Int} (h : in32BitRange q = true) :
    findEncoding ⟨oPUSH, cc, 0, .imm ⟨8, .int q⟩⟩ = encodings[34]? := by
  have : findEncoding ⟨oPUSH, cc, 0, .imm ⟨8, .int q⟩⟩
      = findEncoding ⟨oPUSH, 0, 0, .imm ⟨8, .int (rep q)⟩⟩ := by
    apply find_congr
    intro e
    simp only [matchesRow, Ops.theImm, Ops.mask, is32_rep]
    rfl
  rw [this]
  unfold rep
  by_cases g : inByteRange q = true
  · rw [if_pos g]; decide +kernel
  · rw [if_neg g, if_pos h]; decide +kernel

def pushRow : Enc := ⟨33, "push", false, [], [0x68], 0, 0, 1, 8, 0, 0, 0, false, true⟩

theorem pushRow_eq : encodings[34]? = some pushRow := by decide +kernel

/-- What precedes the number in a push. -/
theorem push_head (cc : Nat) (q : Int) :
    encodeImm (start pushRow 0 8) pushRow 8 ⟨8, .int q⟩ cc
      = (encodeImmediate ⟨[0x68], []⟩ ⟨8, .int q⟩ 1 true).map (·.1) := rfl

theorem right_push (cc : Nat) {q : Int} (h : in32BitRange q = true) :
    Right ⟨oPUSH, cc, 0, .imm ⟨8, .int q⟩⟩ := by
  have key : ∃ (n op : Nat), (n = 1 ∧ op = 0x6A ∧ inByteRange q = true ∨ n = 4 ∧ op = 0x68)
      ∧ encode ⟨oPUSH, cc, 0, .imm ⟨8, .int q⟩⟩ = some ⟨[op] ++ le n q, []⟩ := by
    unfold encode
    rw [push_find cc h, pushRow_eq]
    show ∃ (n op : Nat), _ ∧ encodeImm (start pushRow 0 8) pushRow 8 ⟨8, .int q⟩ cc = _
    rw [push_head, encodeImmediate_int]
    by_cases g : inByteRange q = true
    · refine ⟨1, 0x6A, .inl ⟨rfl, rfl, g⟩, ?_⟩
      simp [immLen, immShort, g, signBit, Code.orBack, Code.push]
    · refine ⟨4, 0x68, .inr ⟨rfl, rfl⟩, ?_⟩
      simp only [Bool.not_eq_true] at g
      simp [immLen, immShort, g, signBit, h, Code.push]
  obtain ⟨n, op, hc, key⟩ := key
  refine ⟨_, ⟨.push, [.imm 8], none, some (immOf 8 q)⟩, key, rfl, ?_, rfl⟩
  intro t
  rcases hc with ⟨rfl, rfl, g⟩ | ⟨rfl, rfl⟩
  · rw [List.append_assoc]
    exact parseReg_decode (by decide +kernel) (immediate_le (by simp [fits, g, widths]) t)
  · rw [List.append_assoc]
    exact parseReg_decode (by decide +kernel) (immediate_le (by simp [fits, h]) t)

theorem immediate_rel (t : List Nat) : immediate 4 ([0, 0, 0, 0] ++ t) = some (some 0, t) := by
  unfold immediate
  rw [if_neg (by decide), show [0, 0, 0, 0] ++ t = le 4 0 ++ t from rfl, signed_le]
  rfl

theorem immediate_four {z : List Nat} (h : z.length = 4) (t : List Nat) :
    immediate 4 (z ++ t) = some (some (distance z), t) := by
  unfold immediate
  rw [if_neg (by decide), signed_four h]
  rfl

/-- The distance of a jump or call. -/
theorem links_rel {i : Instr} {c : Code} {mn : Mn} {pre : List Nat} {ty : AType} {s : Nat} {disp : Int}
    (hr : i.ref = some (ty, s, disp)) (hp : parseReg pre = some (mn, [.rel], 4)) (hne : pre ≠ [])
    (hv : c.val = pre ++ [0, 0, 0, 0])
    (hf : c.fix = [if i.jumps then .label s pre.length (disp - 4) else .reloc (refType ty) s pre.length disp]) :
    Links i c ⟨mn, [.rel], none, some 0⟩ := by
  unfold Links
  rw [hr]
  refine ⟨pre, [], hne, by rw [hv]; rfl, ?_, by rw [hf]; simp⟩
  intro z t hz
  rw [List.nil_append, parseReg_decode hp (immediate_four hz t)]
  rfl

theorem right_call (cc : Nat) {a : Addr} (h : ∃ s, a.sym = some (.normal, s) ∨ a.sym = some (.plt, s)) :
    Right ⟨oCALL, cc, 0, .imm ⟨8, .addr a⟩⟩ := by
  obtain ⟨s, h⟩ := h
  have fe : findEncoding ⟨oCALL, cc, 0, .imm ⟨8, .addr a⟩⟩ = encodings[5]? := by
    rw [show findEncoding ⟨oCALL, cc, 0, .imm ⟨8, .addr a⟩⟩
      = findEncoding ⟨oCALL, 0, 0, .imm ⟨8, .addr noAddr⟩⟩ from rfl]
    decide +kernel
  obtain ⟨e, he⟩ : ∃ e, encodings[5]? = some e := ⟨_, rfl⟩
  have key : ∃ ty, a.sym = some (ty, s) ∧ encode ⟨oCALL, cc, 0, .imm ⟨8, .addr a⟩⟩
      = some ⟨[0xE8] ++ [0, 0, 0, 0], [.reloc (refType ty) s 1 a.disp]⟩ := by
    unfold encode
    rw [fe, he]
    cases he
    rcases h with h | h <;>
      (simp only [encodeImm, encodeImmediate, h]
       exact ⟨_, rfl, rfl⟩)
  obtain ⟨ty, hs, key⟩ := key
  have hp : parseReg [0xE8] = some (.call, [.rel], 4) := by decide +kernel
  refine ⟨_, ⟨.call, [.rel], none, some 0⟩, key, rfl, ?_, ?_⟩
  · intro t
    rw [List.append_assoc]
    exact parseReg_decode hp (immediate_rel t)
  · exact links_rel (ty := ty) (s := s) (disp := a.disp) (by simp [Instr.ref, Ops.address, hs]) hp
      (by decide) rfl rfl

theorem right_jmp (cc : Nat) {a : Addr} (h : ∃ s, a.sym = some (.normal, s)) :
    Right ⟨oJMP, cc, 0, .imm ⟨8, .addr a⟩⟩ := by
  obtain ⟨s, h⟩ := h
  have fe : findEncoding ⟨oJMP, cc, 0, .imm ⟨8, .addr a⟩⟩ = encodings[15]? := by
    rw [show findEncoding ⟨oJMP, cc, 0, .imm ⟨8, .addr a⟩⟩
      = findEncoding ⟨oJMP, 0, 0, .imm ⟨8, .addr noAddr⟩⟩ from rfl]
    decide +kernel
  obtain ⟨e, he⟩ : ∃ e, encodings[15]? = some e := ⟨_, rfl⟩
  have key : encode ⟨oJMP, cc, 0, .imm ⟨8, .addr a⟩⟩
      = some ⟨[0xE9] ++ [0, 0, 0, 0], [.label s 1 (a.disp - 4)]⟩ := by
    unfold encode
    rw [fe, he]
    cases he
    simp only [encodeImm, encodeImmediate, h]
    rfl
  have hp : parseReg [0xE9] = some (.jmp, [.rel], 4) := by decide +kernel
  refine ⟨_, ⟨.jmp, [.rel], none, some 0⟩, key, rfl, ?_, ?_⟩
  · intro t
    rw [List.append_assoc]
    exact parseReg_decode hp (immediate_rel t)
  · exact links_rel (ty := .normal) (s := s) (disp := a.disp) (by simp [Instr.ref, Ops.address, h]) hp
      (by decide) rfl rfl

theorem jcc_parse : ∀ cc < 16, parseReg [0x0F, 0x80 ||| cc] = some (.jcc cc, [.rel], 4) := by
  decide +kernel

theorem right_jcc {cc : Nat} (hcc : cc < 16) {a : Addr} (h : ∃ s, a.sym = some (.normal, s)) :
    Right ⟨oJcc, cc, 0, .imm ⟨8, .addr a⟩⟩ := by
  obtain ⟨s, h⟩ := h
  have fe : findEncoding ⟨oJcc, cc, 0, .imm ⟨8, .addr a⟩⟩ = encodings[14]? := by
    rw [show findEncoding ⟨oJcc, cc, 0, .imm ⟨8, .addr a⟩⟩
      = findEncoding ⟨oJcc, 0, 0, .imm ⟨8, .addr noAddr⟩⟩ from rfl]
    decide +kernel
  obtain ⟨e, he⟩ : ∃ e, encodings[14]? = some e := ⟨_, rfl⟩
  have key : encode ⟨oJcc, cc, 0, .imm ⟨8, .addr a⟩⟩
      = some ⟨[0x0F, 0x80 ||| cc] ++ [0, 0, 0, 0], [.label s 2 (a.disp - 4)]⟩ := by
    unfold encode
    rw [fe, he]
    cases he
    simp only [encodeImm, encodeImmediate, h]
    rfl
  refine ⟨_, ⟨.jcc cc, [.rel], none, some 0⟩, key, rfl, ?_, ?_⟩
  · intro t
    rw [List.append_assoc]
    exact parseReg_decode (jcc_parse cc hcc) (immediate_rel t)
  · exact links_rel (ty := .normal) (s := s) (disp := a.disp) (by simp [Instr.ref, Ops.address, h])
      (jcc_parse cc hcc) (by simp) rfl rfl

end Verif.Encode
