import Verif.Abi.Spec

namespace Verif.Abi

open SysV

theorem combine_eq (a b : Cls) : combine a b = mergeTwo a b := by
  cases a <;> cases b <;> rfl

theorem put_some {pc : PC} {i : Nat} {c : Cls} (h : i < pc.length) :
    ∃ pc', put pc i c = some pc' ∧ pc'.length = pc.length ∧
      ∀ k, k < pc.length → pc'.getD k .no = if i = k then mergeTwo (pc.getD k .no) c else pc.getD k .no := by
  refine ⟨pc.modify i (combine · c), by simp [put, h], by simp, ?_⟩
  intro k hk
  simp only [List.getD_eq_getElem?_getD, List.getElem?_modify]
  rw [List.getElem?_eq_getElem hk]
  by_cases e : i = k <;> simp [e, combine_eq]

/-- What an object does to class `k`. -/
def fold (k : Nat) (c : Cls) (l : List (Nat × Ty)) : Cls := (l.filterMap (contribution k)).foldl mergeTwo c

theorem fold_append (k c l m) : fold k c (l ++ m) = fold k (fold k c l) m := by
  simp [fold, List.filterMap_append, List.foldl_append]

/-- The result of flattening. -/
def Flat (pc : PC) (l : List (Nat × Ty)) (r : Option PC) : Prop :=
  ∃ pc', r = some pc' ∧ pc'.length = 4 ∧ ∀ k, k < 4 → pc'.getD k .no = fold k (pc.getD k .no) l

theorem Flat.nil {pc : PC} (h : pc.length = 4) : Flat pc [] (some pc) :=
  ⟨pc, rfl, h, fun _ _ => rfl⟩

theorem Flat.bind {pc : PC} {l m r} {f : PC → Option PC} (h : Flat pc l r)
    (h' : ∀ pc', pc'.length = 4 → Flat pc' m (f pc')) : Flat pc (l ++ m) (r >>= f) := by
  obtain ⟨p, rfl, hl, hp⟩ := h
  obtain ⟨q, e, hl', hq⟩ := h' p hl
  refine ⟨q, by simpa using e, hl', ?_⟩
  intro k hk
  rw [hq k hk, hp k hk, fold_append]

theorem Flat.one {pc : PC} {o : Nat} {t : Ty} {c : Cls} (h : pc.length = 4) (ho : o / 8 < 4)
    (hc : ∀ k, contribution k (o, t) = if o / 8 = k then some c else none) :
    Flat pc [(o, t)] (put pc (o / 8) c) := by
  obtain ⟨p, e, hl, hp⟩ := put_some (pc := pc) (i := o / 8) (c := c) (by omega)
  refine ⟨p, e, by omega, ?_⟩
  intro k hk
  rw [hp k (by omega)]
  by_cases e : o / 8 = k <;> simp [fold, hc, e]

theorem Flat.range {g : Nat → List (Nat × Ty)} {f : PC → Nat → Option PC} (n : Nat)
    (h : ∀ i, i < n → ∀ pc : PC, pc.length = 4 → Flat pc (g i) (f pc i)) :
    ∀ pc : PC, pc.length = 4 → Flat pc ((List.range n).flatMap g) ((List.range n).foldlM f pc) := by
  induction n with
  | zero => intro pc hp; exact Flat.nil hp
  | succ n ih =>
    intro pc hp
    rw [List.range_succ, List.flatMap_append, List.foldlM_append]
    refine Flat.bind (ih (fun i hi => h i (by omega)) pc hp) ?_
    intro pc' hp'
    simpa using h n (by omega) pc' hp'

theorem laidOut_size : ∀ t : Ty, laidOut t = true → 0 < t.size := by
  intro t h
  match t with
  | .bool | .ptr | .float | .double | .ldouble => simp [Ty.size]
  | .int n s => simp [laidOut] at h; simp only [Ty.size]; omega
  | .array n t =>
    simp [laidOut] at h
    have := laidOut_size t h.1.2
    simp only [Ty.size]
    exact Nat.mul_pos h.1.1 this
  | .agg n a f ms => simp [laidOut] at h; simp only [Ty.size]; omega

mutual
  theorem flatten_flat : ∀ (t : Ty) (o : Nat) (pc : PC), pc.length = 4 → laidOut t = true → boolFree t = true →
      o + t.size ≤ 32 → Flat pc (leaves t o) (flatten pc t o)
    | .bool, _, _, _, _, hb, _ => by simp [boolFree] at hb
    | .int n s, o, pc, hp, hl, hb, ho => by
      have := laidOut_size _ hl
      simp only [leaves, flatten]
      refine Flat.one hp (by omega) ?_
      intro k; rfl
    | .ptr, o, pc, hp, hl, hb, ho => by
      have := laidOut_size _ hl
      simp only [leaves, flatten]
      refine Flat.one hp (by omega) ?_
      intro k; rfl
    | .float, o, pc, hp, hl, hb, ho => by
      have := laidOut_size _ hl
      simp only [leaves, flatten]
      refine Flat.one hp (by omega) ?_
      intro k; rfl
    | .double, o, pc, hp, hl, hb, ho => by
      have := laidOut_size _ hl
      simp only [leaves, flatten]
      refine Flat.one hp (by omega) ?_
      intro k; rfl
    | .ldouble, o, pc, hp, hl, hb, ho => by
      simp only [Ty.size] at ho
      simp only [leaves, flatten]
      obtain ⟨p, e, hl, hp1⟩ := put_some (pc := pc) (i := o / 8) (c := .x87) (by omega)
      obtain ⟨q, e', hl', hq⟩ := put_some (pc := p) (i := o / 8 + 1) (c := .x87up) (by omega)
      refine ⟨q, by simp [e, show o / 8 < 3 by omega, e'], by omega, ?_⟩
      intro k hk
      rw [hq k (by omega), hp1 k (by omega)]
      by_cases h1 : o / 8 = k
      · simp [fold, contribution, h1]
      · by_cases h2 : o / 8 + 1 = k <;> simp [fold, contribution, h1, h2]
    | .array n t, o, pc, hp, hl, hb, ho => by
      simp only [leaves, flatten]
      simp [laidOut] at hl
      simp only [boolFree] at hb
      simp only [Ty.size] at ho
      refine Flat.range n ?_ pc hp
      intro i hi pc' hp'
      refine flatten_flat t _ pc' hp' hl.1.2 hb ?_
      have : (i + 1) * t.size ≤ n * t.size := Nat.mul_le_mul_right _ hi
      rw [Nat.succ_mul] at this
      omega
    | .agg n a f ms, o, pc, hp, hl, hb, ho => by
      simp only [leaves, flatten]
      simp [laidOut] at hl
      exact flattenMems_flat ms n a o pc hp hl.2 hb ho
  theorem flattenMems_flat : ∀ (ms : Mems) (n a o : Nat) (pc : PC), pc.length = 4 → laidOutIn n a ms = true →
      boolFreeIn ms = true → o + n ≤ 32 → Flat pc (leavesOf ms o) (flattenMems pc ms o)
    | .nil, _, _, o, pc, hp, _, _, _ => by
      simp only [leavesOf, flattenMems]; exact Flat.nil hp
    | .cons p t ms, n, a, o, pc, hp, hl, hb, ho => by
      simp only [leavesOf, flattenMems]
      simp [laidOutIn] at hl
      simp [boolFreeIn] at hb
      refine Flat.bind (flatten_flat t (p + o) pc hp hl.1.2 hb.1 (by omega)) ?_
      intro pc' hp'
      exact flattenMems_flat ms n a o pc' hp' hl.2 hb.2 ho
end

theorem laidOut_align : ∀ t : Ty, laidOut t = true → 0 < t.align
  | .bool, _ | .ptr, _ | .float, _ | .double, _ | .ldouble, _ => by simp [Ty.align]
  | .int n s, h => by simp [laidOut] at h; simp only [Ty.align]; omega
  | .array n t, h => by
    simp [laidOut] at h
    simpa only [Ty.align] using laidOut_align t h.1.2
  | .agg n a f ms, h => by simp [laidOut] at h; simp only [Ty.align]; omega

mutual
  theorem leaves_aligned : ∀ (t : Ty) (o : Nat), laidOut t = true → o % t.align = 0 →
      ∀ p ∈ leaves t o, p.1 % natural p.2 = 0
    | .bool, o, _, ho | .ptr, o, _, ho | .float, o, _, ho | .double, o, _, ho | .ldouble, o, _, ho => by
      simp only [Ty.align] at ho
      simpa [leaves, natural] using ho
    | .int n s, o, hl, ho => by
      simp only [Ty.align] at ho
      simpa [leaves, natural] using ho
    | .array n t, o, hl, ho => by
      intro p hp
      simp only [leaves, List.mem_flatMap] at hp
      obtain ⟨i, _, hp⟩ := hp
      simp [laidOut] at hl
      simp only [Ty.align] at ho
      refine leaves_aligned t _ hl.1.2 ?_ p hp
      exact Nat.mod_eq_zero_of_dvd (Nat.dvd_add (Nat.dvd_trans (Nat.dvd_of_mod_eq_zero hl.2) (Nat.dvd_mul_left _ _))
        (Nat.dvd_of_mod_eq_zero ho))
    | .agg n a f ms, o, hl, ho => by
      simp [laidOut] at hl
      simp only [Ty.align] at ho
      simp only [leaves]
      exact leavesOf_aligned ms n a o hl.2 ho
  theorem leavesOf_aligned : ∀ (ms : Mems) (n a o : Nat), laidOutIn n a ms = true → o % a = 0 →
      ∀ p ∈ leavesOf ms o, p.1 % natural p.2 = 0
    | .nil, _, _, _, _, _ => by simp [leavesOf]
    | .cons q t ms, n, a, o, hl, ho => by
      intro p hp
      simp [laidOutIn] at hl
      simp only [leavesOf, List.mem_append] at hp
      rcases hp with hp | hp
      · refine leaves_aligned t _ hl.1.2 ?_ p hp
        exact Nat.mod_eq_zero_of_dvd (Nat.dvd_add (Nat.dvd_of_mod_eq_zero hl.1.1.2)
          (Nat.dvd_trans (Nat.dvd_of_mod_eq_zero hl.1.1.1.2) (Nat.dvd_of_mod_eq_zero ho)))
      · exact leavesOf_aligned ms n a o hl.2 ho p hp
end

theorem contribution_ne {k p c} (h : contribution k p = some c) :
    c = .integer ∨ c = .sse ∨ c = .x87 ∨ c = .x87up := by
  obtain ⟨o, t⟩ := p
  cases t <;> simp only [contribution] at h <;> (try split_ifs at h) <;> simp_all

theorem mergeTwo_ne : ∀ a b : Cls, a ≠ .sseup → b ≠ .sseup → mergeTwo a b ≠ .sseup := by
  intro a b
  cases a <;> cases b <;> simp [mergeTwo]

theorem fold_ne (k l) : ∀ c : Cls, c ≠ .sseup → fold k c l ≠ .sseup := by
  induction l with
  | nil => intro c h; simpa [fold] using h
  | cons p l ih =>
    intro c h
    have : fold k c (p :: l) = fold k (fold k c [p]) l := fold_append k c [p] l
    rw [this]
    refine ih _ ?_
    cases e : contribution k p with
    | none => simpa [fold, e] using h
    | some d =>
      simp only [fold, List.filterMap_cons, e, List.filterMap_nil, List.foldl_cons, List.foldl_nil]
      exact mergeTwo_ne _ _ h (by rcases contribution_ne e with rfl | rfl | rfl | rfl <;> simp)

theorem hasUnaligned_false : ∀ (ms : Mems) (n a : Nat), laidOutIn n a ms = true →
    hasUnalignedFields ms = some (!sizeAligned ms)
  | .nil, _, _, _ => by simp [hasUnalignedFields, sizeAligned]
  | .cons o t ms, n, a, hl => by
    simp [laidOutIn] at hl
    have := laidOut_size t hl.1.2
    have ih := hasUnaligned_false ms n a hl.2
    rw [hasUnalignedFields, if_neg (by omega)]
    by_cases e : o % t.size = 0 <;> simp [e, ih, sizeAligned]

theorem list_four {α} {l : List α} (h : l.length = 4) (d : α) :
    l = [l.getD 0 d, l.getD 1 d, l.getD 2 d, l.getD 3 d] := by
  match l, h with
  | [a, b, c, e], _ => rfl

/-- No leaf of an object ends beyond the object. -/
theorem contribution_beyond {k o : Nat} {t : Ty} {n : Nat} (h : o + t.size ≤ n) (hk : (n + 7) / 8 ≤ k)
    (hs : 0 < t.size) : contribution k (o, t) = none := by
  cases t <;> simp only [contribution, Ty.size] at * <;> (try split_ifs) <;> (try omega) <;> rfl

mutual
  theorem leaves_within : ∀ (t : Ty) (o : Nat), laidOut t = true →
      ∀ p ∈ leaves t o, p.1 + p.2.size ≤ o + t.size ∧ 0 < p.2.size
    | .bool, o, hl | .ptr, o, hl | .float, o, hl | .double, o, hl | .ldouble, o, hl => by
      simp [leaves, Ty.size]
    | .int n s, o, hl => by
      have := laidOut_size _ hl
      simpa [leaves] using this
    | .array n t, o, hl => by
      intro p hp
      simp only [leaves, List.mem_flatMap, List.mem_range] at hp
      obtain ⟨i, hi, hp⟩ := hp
      simp [laidOut] at hl
      have := leaves_within t _ hl.1.2 p hp
      have h2 : (i + 1) * t.size ≤ n * t.size := Nat.mul_le_mul_right _ hi
      rw [Nat.succ_mul] at h2
      simp only [Ty.size]
      omega
    | .agg n a f ms, o, hl => by
      simp [laidOut] at hl
      simp only [leaves, Ty.size]
      exact leavesOf_within ms n a o hl.2
  theorem leavesOf_within : ∀ (ms : Mems) (n a o : Nat), laidOutIn n a ms = true →
      ∀ p ∈ leavesOf ms o, p.1 + p.2.size ≤ o + n ∧ 0 < p.2.size
    | .nil, _, _, _, _ => by simp [leavesOf]
    | .cons q t ms, n, a, o, hl => by
      intro p hp
      simp [laidOutIn] at hl
      simp only [leavesOf, List.mem_append] at hp
      rcases hp with hp | hp
      · have := leaves_within t _ hl.1.2 p hp
        omega
      · exact leavesOf_within ms n a o hl.2 p hp
end

theorem eightbyte_beyond {t : Ty} (hl : laidOut t = true) {k : Nat} (hk : count t ≤ k) : eightbyte t k = .no := by
  have : (leaves t 0).filterMap (contribution k) = [] := by
    rw [List.filterMap_eq_nil_iff]
    intro p hp
    have := leaves_within t 0 hl p hp
    exact contribution_beyond (n := t.size) (by omega) hk this.2
  simp [eightbyte, this]

/-- The body of the classification of a structure or union: the classes are right. -/
theorem classify_agrees {n a : Nat} {ms : Mems} (hl : laidOut (.agg n a false ms) = true)
    (hb : boolFreeIn ms = true) (h4 : (n + 7) / 8 ≤ 4) :
    ∃ pc, flatten noClass (.agg n a false ms) 0 = some pc ∧
      Agrees (merge pc (eightbytes (.agg n a false ms))) (passing (.agg n a false ms)) := by
  obtain ⟨pc, e, hlen, hpc⟩ := flatten_flat (.agg n a false ms) 0 noClass rfl hl hb (by simp only [Ty.size]; omega)
  refine ⟨pc, e, ?_⟩
  have hk : ∀ k, k < 4 → pc.getD k .no = eightbyte (.agg n a false ms) k := by
    intro k hk
    rw [hpc k hk]
    have : noClass.getD k .no = .no := by
      match k, hk with
      | 0, _ | 1, _ | 2, _ | 3, _ => rfl
    rw [this]; rfl
  have hne : ∀ k, eightbyte (.agg n a false ms) k ≠ .sseup := fun k => fold_ne k _ .no (by simp)
  have hbeyond := fun k hk => eightbyte_beyond hl (k := k) hk
  have hal : (leaves (.agg n a false ms) 0).any (fun p => p.1 % natural p.2 ≠ 0) = false := by
    rw [List.any_eq_false]
    intro p hp
    simp [leaves_aligned _ 0 hl (by simp) p hp]
  have hc : count (.agg n a false ms) = eightbytes (.agg n a false ms) := rfl
  have hc4 : eightbytes (.agg n a false ms) ≤ 4 := h4
  have hc0 : 0 < eightbytes (.agg n a false ms) := by
    have := laidOut_size _ hl
    simp only [eightbytes]; omega
  rw [list_four hlen .no, hk 0 (by omega), hk 1 (by omega), hk 2 (by omega), hk 3 (by omega)]
  simp only [passing, hal, hc, variablySized]
  rw [hc] at hbeyond
  generalize eightbytes (.agg n a false ms) = m at *
  generalize eightbyte (.agg n a false ms) = f at *
  have h0 := hne 0
  have h1 := hne 1
  have h2 := hne 2
  have h3 := hne 3
  have b1 := hbeyond 1
  have b2 := hbeyond 2
  have b3 := hbeyond 3
  clear hne hbeyond hpc hk e hal hc h4 hl hb hlen
  rcases (by omega : m = 1 ∨ m = 2 ∨ m = 3 ∨ m = 4) with rfl | rfl | rfl | rfl
  · rw [b1 (by omega), b2 (by omega), b3 (by omega)]
    generalize hf0 : f 0 = c0 at *
    simp only [merge, List.range_succ, List.range_zero, Agrees]
    cases c0 <;> simp_all [forced]
  · rw [b2 (by omega), b3 (by omega)]
    generalize hf0 : f 0 = c0 at *
    generalize hf1 : f 1 = c1 at *
    simp only [merge, List.range_succ, List.range_zero, Agrees]
    cases c0 <;> cases c1 <;> simp_all [forced]
  · have : ∀ x, ((List.range 3).any fun i => [f 0, f 1, f 2, f 3].getD i .no == .sseup) = x → x = false := by
      rintro x rfl
      simp [List.range_succ, h0, h1, h2]
    have hs := this _ rfl
    simp only [merge, hs]
    split_ifs <;> simp_all [Agrees]
  · have : ∀ x, ((List.range 4).any fun i => [f 0, f 1, f 2, f 3].getD i .no == .sseup) = x → x = false := by
      rintro x rfl
      simp [List.range_succ, h0, h1, h2, h3]
    have hs := this _ rfl
    simp only [merge, hs]
    split_ifs <;> simp_all [Agrees]

end Verif.Abi
