import Verif.Abi.CallSpec

namespace Verif.Abi

open SysV (Loc locate assign passing roundUp)

/-- The bytes of an argument are where a location says. -/
def At (s0 t : M) (base : Int) (a : Arg) : Loc → Prop
  | .regs rs => ∀ (e r : Nat), rs[e]? = some r → ∀ j : Nat, j < 8 → 8 * e + j < a.ty.size →
      byteAt (t.reg r) j = a.src.byte s0 (8 * e + j)
  | .stack off => ∀ j : Nat, j < a.ty.size → t.mem (base + off + j) = a.src.byte s0 j

def Located (s0 t : M) (base : Int) : List Arg → List Loc → Prop
  | a :: as, l :: ls => At s0 t base a l ∧ Located s0 t base as ls
  | [], [] => True
  | _, _ => False

/-- What is needed of a type: the class is that of the ABI, no eightbyte is empty. -/
structure Ordinary (t : Ty) : Prop where
  laid : SysV.laidOut t = true
  agrees : ∀ pc, classify t = some pc → SysV.Agrees pc (passing t)
  full : ∀ cs, passing t = .eightbytes cs → Cls.no ∉ cs
  small : t.align ≤ 8

/-- The same as a computation. -/
def isOrdinary (t : Ty) : Bool :=
  SysV.laidOut t && (match classify t with | some pc => decide (SysV.Agrees pc (passing t)) | none => true) &&
    (match passing t with | .eightbytes cs => !cs.contains .no | .memory => true) && decide (t.align ≤ 8)

theorem isOrdinary_iff {t : Ty} (h : isOrdinary t = true) : Ordinary t := by
  simp only [isOrdinary, Bool.and_eq_true, decide_eq_true_eq] at h
  obtain ⟨⟨⟨h1, h2⟩, h3⟩, h4⟩ := h
  refine ⟨h1, ?_, ?_, h4⟩
  · intro pc e
    rw [e] at h2
    simpa using h2
  · intro cs e
    rw [e] at h3
    simpa using h3

theorem passing_length {t : Ty} {cs : List Cls} (h : passing t = .eightbytes cs) : cs.length = eightbytes t := by
  simp only [passing] at h
  split_ifs at h
  simp only [SysV.Passing.eightbytes.injEq] at h
  rw [← h]
  simp [SysV.count, eightbytes]

theorem assign_count : ∀ (cs : List Cls) (g v : List Nat) x, assign cs g v = some x →
    cs.count .integer ≤ g.length ∧ cs.count .sse ≤ v.length
  | [], g, v, x, _ => by simp
  | c :: cs, g, v, x, h => by
    cases c with
    | integer =>
      cases g with
      | nil => simp [assign] at h
      | cons r g =>
        simp only [assign, Option.map_eq_some_iff] at h
        obtain ⟨y, hy, _⟩ := h
        have := assign_count cs g v y hy
        simp only [List.count_cons_self, List.length_cons]
        rw [List.count_cons_of_ne (by decide)]
        omega
    | sse =>
      cases v with
      | nil => simp [assign] at h
      | cons r v =>
        simp only [assign, Option.map_eq_some_iff] at h
        obtain ⟨y, hy, _⟩ := h
        have := assign_count cs g v y hy
        simp only [List.count_cons_self, List.length_cons]
        rw [List.count_cons_of_ne (by decide)]
        omega
    | _ => simp [assign] at h

/-- The slices are assigned as the ABI says. -/
theorem slices_assign {t : Ty} {pc : PC} : ∀ (n i : Nat) (ir sr : List Nat) (sl : List Slice),
    slices t pc n i ir sr = some sl → ∀ cs, (pc.drop i).take n = cs → cs.length = n →
    assign cs ir sr = some (sl.map (·.2.2.2), ir.drop (cs.count .integer), sr.drop (cs.count .sse)) ∧
      ∀ m, (h : m < sl.length) → (sl[m]).1 = i + m
  | 0, i, ir, sr, sl, h, cs, hcs, _ => by
    simp only [slices, Option.some.injEq] at h
    subst h
    simp only [List.take_zero] at hcs
    subst hcs
    simp [assign]
  | n + 1, i, ir, sr, sl, h, cs, hcs, hlen => by
    simp only [slices] at h
    obtain ⟨⟨w, k⟩, hst, h⟩ := Option.bind_eq_some_iff.mp h
    obtain ⟨c, cs', rfl⟩ : ∃ c cs', cs = c :: cs' := by
      cases cs with
      | nil => simp at hlen
      | cons c cs' => exact ⟨c, cs', rfl⟩
    have hdrop : pc.drop i = c :: pc.drop (i + 1) := by
      rcases hp : pc.drop i with _ | ⟨x, xs⟩
      · rw [hp] at hcs; simp at hcs
      · have h1 : pc.drop (i + 1) = xs := by
          rw [show i + 1 = i + 1 from rfl, ← List.drop_drop, hp]; rfl
        rw [hp, List.take_succ_cons, List.cons.injEq] at hcs
        rw [h1, hcs.1]
    have hi : pc[i]? = some c := by
      have : (pc.drop i)[0]? = some c := by rw [hdrop]; rfl
      simpa using this
    have hcs' : (pc.drop (i + 1)).take n = cs' := by
      rw [hdrop, List.take_succ_cons, List.cons.injEq] at hcs
      exact hcs.2
    simp only [List.length_cons, Nat.add_right_cancel_iff] at hlen
    by_cases q : pc[i]? = some .integer
    · simp only [if_pos q] at h
      obtain ⟨r, hr, h⟩ := Option.bind_eq_some_iff.mp h
      obtain ⟨l, hl, h⟩ := Option.bind_eq_some_iff.mp h
      simp only [Option.some.injEq] at h
      subst h
      rw [hi, Option.some.injEq] at q
      subst q
      cases ir with
      | nil => simp at hr
      | cons r0 ir =>
        simp only [List.head?_cons, Option.some.injEq] at hr
        subst hr
        obtain ⟨e, hx⟩ := slices_assign n (i + 1) _ _ l hl cs' hcs' hlen
        refine ⟨?_, ?_⟩
        · simp only [assign, List.tail_cons] at e ⊢
          rw [e, List.count_cons_self, List.count_cons_of_ne (by decide)]
          rfl
        · intro m hm
          cases m with
          | zero => rfl
          | succ m =>
            have := hx m (by simpa using hm)
            simp only [List.getElem_cons_succ]
            omega
    · simp only [if_neg q] at h
      obtain ⟨r, hr, h⟩ := Option.bind_eq_some_iff.mp h
      obtain ⟨l, hl, h⟩ := Option.bind_eq_some_iff.mp h
      simp only [Option.some.injEq] at h
      subst h
      have hs : c = .sse := by
        simp only [sliceType] at hst
        by_contra hne
        rw [if_neg (by rw [hi] at q ⊢; simp at q ⊢; exact ⟨q, hne⟩)] at hst
        cases hst
      subst hs
      cases sr with
      | nil => simp at hr
      | cons r0 sr =>
        simp only [List.head?_cons, Option.some.injEq] at hr
        subst hr
        obtain ⟨e, hx⟩ := slices_assign n (i + 1) _ _ l hl cs' hcs' hlen
        refine ⟨?_, ?_⟩
        · simp only [assign, List.tail_cons] at e ⊢
          rw [e, List.count_cons_self, List.count_cons_of_ne (by decide)]
          rfl
        · intro m hm
          cases m with
          | zero => rfl
          | succ m =>
            have := hx m (by simpa using hm)
            simp only [List.getElem_cons_succ]
            omega

theorem count_append_no (cs : List Cls) (n : Nat) {c : Cls} (h : c ≠ .no) :
    (cs ++ List.replicate n Cls.no).count c = cs.count c := by
  rw [List.count_append, List.count_replicate]
  simp [Ne.symm h]

theorem roundUp_eq (n : Nat) : roundUp n 8 = 8 * ((n + 7) / 8) := by simp only [roundUp]; omega

theorem located {s0 t : M} {base : Int} : ∀ (as : List Arg) (i s : Nat) (off : Nat) (l : List (PC × Bool)) (code : List Ins),
    (∀ a ∈ as, Ordinary a.ty) → classifyAll (as.map (·.ty)) i s = some l → loadAll as l i s = some code →
    i ≤ 6 → s ≤ 8 → off % 8 = 0 → StackHolds s0 t.mem (base + off) as l → RegsHold s0 t.reg as l i s →
    Located s0 t base as (locate (as.map (·.ty)) (paramInt.drop i) (paramSse.drop s) off)
  | [], _, _, _, _, _, _, _, _, _, _, _, _, _ => by simp [Located, locate]
  | a :: as, i, s, off, l, code, ho, hc, hl, hi, hs, hoff, hst, hrg => by
    have ha := ho a (List.mem_cons_self ..)
    have ho' : ∀ a ∈ as, Ordinary a.ty := fun a h => ho a (List.mem_cons_of_mem _ h)
    simp only [List.map_cons, classifyAll] at hc
    obtain ⟨pc, hpc, hc⟩ := Option.bind_eq_some_iff.mp hc
    have hag := ha.agrees pc hpc
    by_cases q : alloc pc i s = true
    · simp only [if_pos q] at hc
      obtain ⟨l', hl', hc⟩ := Option.bind_eq_some_iff.mp hc
      simp only [Option.some.injEq] at hc
      subst hc
      simp only [loadAll, if_true] at hl
      obtain ⟨sl, hsl, hl⟩ := Option.bind_eq_some_iff.mp hl
      obtain ⟨l1, _, hl⟩ := Option.bind_eq_some_iff.mp hl
      obtain ⟨l2, hl2, hl⟩ := Option.bind_eq_some_iff.mp hl
      simp only [StackHolds, if_true] at hst
      simp only [RegsHold, if_true] at hrg
      simp only [alloc, Bool.and_eq_true, Bool.or_eq_true, beq_iff_eq, decide_eq_true_eq] at q
      cases hp : passing a.ty with
      | memory =>
        rw [hp] at hag
        simp only [SysV.Agrees] at hag
        rw [hag] at q
        simp at q
      | eightbytes cs =>
        rw [hp] at hag
        simp only [SysV.Agrees] at hag
        have hlen := passing_length hp
        have htake : (pc.drop 0).take (eightbytes a.ty) = cs := by
          rw [hag, List.drop_zero, ← hlen, List.take_left]
        obtain ⟨e, hx⟩ := slices_assign _ _ _ _ _ hsl cs htake hlen
        have hints : cs.count .integer = ints pc := by
          rw [ints, hag, count_append_no cs _ (by decide)]
        have hsses : cs.count .sse = sses pc := by
          rw [sses, hag, count_append_no cs _ (by decide)]
        rw [hints, hsses, List.drop_drop, List.drop_drop] at e
        simp only [List.map_cons, locate, hp, e, Located]
        refine ⟨?_, located as _ _ off l' l2 ho' hl' hl2 q.1.2 q.2 hoff hst hrg.2⟩
        intro m r hr j hj hlt
        rw [List.getElem?_map, Option.map_eq_some_iff] at hr
        obtain ⟨x, hx1, rfl⟩ := hr
        obtain ⟨hm, hx2⟩ := List.getElem?_eq_some_iff.mp hx1
        have h3 := hx m hm
        rw [hx2] at h3
        have := hrg.1 sl hsl x (List.mem_of_getElem? hx1) j (by unfold need; omega)
        rw [this]
        congr 1
        omega
    · simp only [if_neg q] at hc
      obtain ⟨l', hl', hc⟩ := Option.bind_eq_some_iff.mp hc
      simp only [Option.some.injEq] at hc
      subst hc
      simp only [loadAll, Bool.false_eq_true, if_false] at hl
      simp only [StackHolds, Bool.false_eq_true, if_false] at hst
      simp only [RegsHold, Bool.false_eq_true, if_false] at hrg
      have hsm := ha.small
      have hmax : max 8 a.ty.align = 8 := by omega
      have hhere : roundUp off 8 = off := by simp only [roundUp]; omega
      have hnone : ∀ cs, passing a.ty = .eightbytes cs → assign cs (paramInt.drop i) (paramSse.drop s) = none := by
        intro cs hp
        rw [hp] at hag
        simp only [SysV.Agrees] at hag
        have hlen := passing_length hp
        have hno := ha.full cs hp
        cases hcs : assign cs (paramInt.drop i) (paramSse.drop s) with
        | none => rfl
        | some x =>
          exfalso
          apply q
          have hcnt := assign_count cs _ _ x hcs
          have e1 : (paramInt.drop i).length = 6 - i := by rw [List.length_drop]; rfl
          have e2 : (paramSse.drop s).length = 8 - s := by rw [List.length_drop]; rfl
          have hints : cs.count .integer = ints pc := by
            rw [ints, hag, count_append_no cs _ (by decide)]
          have hsses : cs.count .sse = sses pc := by
            rw [sses, hag, count_append_no cs _ (by decide)]
          simp only [alloc, Bool.and_eq_true, Bool.or_eq_true, beq_iff_eq, decide_eq_true_eq]
          refine ⟨⟨?_, by omega⟩, by omega⟩
          rcases cs with _ | ⟨c, cs⟩
          · simp only [List.length_nil, eightbytes] at hlen
            have := laidOut_size _ ha.laid
            omega
          · rw [hag]
            simp only [List.cons_append, List.head?_cons, Option.some.injEq]
            cases c <;> simp [assign] at hcs ⊢
      have hstack : locate (a.ty :: as.map (·.ty)) (paramInt.drop i) (paramSse.drop s) off =
          .stack off :: locate (as.map (·.ty)) (paramInt.drop i) (paramSse.drop s) (off + 8 * eightbytes a.ty) := by
        simp only [locate, hmax, hhere, roundUp_eq]
        cases hp : passing a.ty with
        | memory => rfl
        | eightbytes cs => simp only [hnone cs hp]; rfl
      rw [List.map_cons, hstack]
      simp only [Located]
      refine ⟨hst.1, located as i s _ l' code ho' hl' hl hi hs (by omega) ?_ hrg⟩
      have := hst.2
      rw [show base + (off : Int) + 8 * (eightbytes a.ty : Int) = base + ((off + 8 * eightbytes a.ty : Nat) : Int) by
        push_cast; omega] at this
      exact this

end Verif.Abi
