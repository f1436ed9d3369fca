import Verif.Tac
import Verif.Strtab.Model
import Verif.Hash.Lemmas
/-! # The string registry refines the generic hash table -/
namespace Verif.Strtab

/-- What the C standard promises about `malloc`: a non-NULL 64 bit address distinct from every
live block. -/
def MallocOk (malloc : Heap → Nat → Option Addr) : Prop :=
  ∀ hp n a, malloc hp n = some a → a ≠ 0 ∧ a < 2 ^ 64 ∧ hp.read a = none

/-! ## little endian words and handles -/

theorem leBytes_length (n x : Nat) : (leBytes n x).length = n := by
  induction n generalizing x with
  | zero => rfl
  | succ n ih => simp [leBytes, ih]

theorem leValue_leBytes (n x : Nat) : leValue (leBytes n x) = x % 256 ^ n := by
  induction n generalizing x with
  | zero => simp [leBytes, leValue, Nat.mod_one]
  | succ n ih =>
    simp only [leBytes, leValue, ih]
    have h1 : (UInt8.ofNat (x % 256)).toNat = x % 256 := by
      simp
    rw [h1, Nat.pow_succ, Nat.mul_comm (256 ^ n) 256, Nat.mod_mul]

theorem leBytes_take (n m x : Nat) : (leBytes (n + m) x).take n = leBytes n x := by
  induction n generalizing x with
  | zero => simp [leBytes]
  | succ n ih =>
    have : n + 1 + m = (n + m) + 1 := by omega
    rw [this]
    simp [leBytes, ih]

theorem leValue_inj : ∀ {a b : List UInt8}, a.length = b.length → leValue a = leValue b → a = b
  | [], [], _, _ => rfl
  | [], _ :: _, h, _ => by simp at h
  | _ :: _, [], h, _ => by simp at h
  | x :: a, y :: b, hl, hv => by
    simp only [leValue] at hv
    have hx := x.toNat_lt
    have hy := y.toNat_lt
    have h1 : x.toNat = y.toNat := by omega
    have h2 : leValue a = leValue b := by omega
    rw [UInt8.toNat_inj.mp h1, leValue_inj (by simpa using hl) h2]

theorem shortHandle_length {b : Bytes} (h : b.length ≤ 15) : (shortHandle b).length = 16 := by
  simp [shortHandle]; omega

theorem longHandle_length (p n : Nat) : (longHandle p n).length = 16 := by
  simp [longHandle, leBytes_length]

theorem strEq_iff {a b : Handle} (ha : a.length = 16) (hb : b.length = 16) :
    strEq a b = true ↔ a = b := by
  simp only [strEq, Bool.and_eq_true, decide_eq_true_eq]
  constructor
  · rintro ⟨h1, h2⟩
    have e1 := leValue_inj (by simp [ha, hb]) h1
    have e2 := leValue_inj (by simp [ha, hb]) h2
    rw [← List.take_append_drop 8 a, ← List.take_append_drop 8 b, e1, e2]
  · rintro rfl
    simp

theorem capByte_short {b : Bytes} (h : b.length ≤ 15) :
    (capByte (shortHandle b)).toNat = 15 - b.length := by
  have hl : (b ++ List.replicate (15 - b.length) (0 : UInt8)).length = 15 := by
    simp; omega
  unfold capByte shortHandle
  rw [List.getD_eq_getElem?_getD, List.getElem?_append_right (by omega), hl]
  simp
  omega

theorem capByte_long (p n : Nat) : capByte (longHandle p n) = 255 := by
  have hl : (leBytes 8 p ++ (leBytes 8 n).take 7).length = 15 := by
    simp [leBytes_length]
  unfold capByte longHandle
  rw [List.getD_eq_getElem?_getD, List.getElem?_append_right (by omega), hl]
  simp

theorem isShort_short {b : Bytes} (h : b.length ≤ 15) : isShort (shortHandle b) = true := by
  simp only [isShort, capByte_short h, decide_eq_true_eq]; omega

theorem isShort_long (p n : Nat) : isShort (longHandle p n) = false := by
  simp [isShort, capByte_long]

theorem strLen_short {b : Bytes} (h : b.length ≤ 15) : strLen (shortHandle b) = b.length := by
  simp only [strLen, isShort_short h, if_true, capByte_short h]; omega

theorem longHandle_take8 (p n : Nat) : (longHandle p n).take 8 = leBytes 8 p := by
  unfold longHandle
  rw [List.append_assoc, List.take_append_of_le_length (by simp [leBytes_length])]
  rw [List.take_of_length_le (by simp [leBytes_length])]

theorem longHandle_len (p n : Nat) : ((longHandle p n).drop 8).take 7 = leBytes 7 n := by
  unfold longHandle
  rw [List.append_assoc, List.drop_append_of_le_length (by simp [leBytes_length]),
    List.drop_of_length_le (by simp [leBytes_length])]
  have : leBytes 8 n = leBytes (7 + 1) n := rfl
  rw [this, leBytes_take]
  simp [List.take_append, leBytes_length]

theorem strLen_long (p : Nat) {n : Nat} (h : n ≤ maxStringLen) : strLen (longHandle p n) = n := by
  simp only [strLen, isShort_long, longHandle_len, leValue_leBytes]
  simp only [maxStringLen] at h
  simp
  omega

theorem longPtr {p : Nat} (n : Nat) (h : p < 2 ^ 64) :
    leValue ((longHandle p n).take 8) = p := by
  rw [longHandle_take8, leValue_leBytes]
  exact Nat.mod_eq_of_lt (by simpa using h)

/-! ## Abstraction to the generic table -/

/-- View of an entry as an entry of the generic table, keyed by content. -/
def absE (hp : Heap) (e : SEntry) : Verif.Hash.Entry Bytes Addr :=
  ⟨e.hash, false, e.value.bind (fun a => (hp.read a).map (fun b => b.take e.length)), e.value⟩

def absL (hp : Heap) (es : List SEntry) : List (Verif.Hash.Entry Bytes Addr) := es.map (absE hp)

/-- Every occupied slot points to a block with `length` bytes and a terminating NUL. -/
def HeapOk (hp : Heap) (es : List SEntry) : Prop :=
  ∀ e ∈ es, ∀ a, e.value = some a →
    ∃ b, hp.read a = some (b ++ [0]) ∧ b.length = e.length

theorem match_abs {hp : Heap} {e : SEntry}
    (he : ∀ a, e.value = some a → ∃ b, hp.read a = some (b ++ [0]) ∧ b.length = e.length)
    {buf block : Bytes} {n : Nat} (hb : block.take n = buf) (hn : buf.length = n)
    (h : BitVec 32) :
    matchEntry hp e block n h = Verif.Hash.matchEntry (absE hp e) buf h := by
  cases hv : e.value with
  | none => simp [matchEntry, hv, Verif.Hash.matchEntry, absE]
  | some a =>
    obtain ⟨b, h1, h2⟩ := he a hv
    have h3 : (b ++ [(0 : UInt8)]).take e.length = b := by
      rw [← h2]; simp
    simp only [matchEntry, hv, h1, Verif.Hash.matchEntry, absE, Option.bind_some, Option.map_some,
      h3, memEq]
    simp only [Bool.false_eq_true, if_false, Option.isSome_some, Bool.not_true, Bool.false_or]
    by_cases hh : e.hash = h
    · simp only [hh, decide_true, Bool.true_and, Option.some.injEq]
      by_cases hl : e.length = n
      · subst hl
        simp only [decide_true, Bool.true_and, h3, hb]
      · have : b ≠ buf := by
          intro hc
          rw [hc] at h2
          omega
        simp [hl, this]
    · simp [hh]

theorem find_abs {hp : Heap} {es : List SEntry} (ho : HeapOk hp es)
    {buf block : Bytes} {n : Nat} (hb : block.take n = buf) (hn : buf.length = n)
    (h : BitVec 32) :
    findEntry hp es block n h = Verif.Hash.findEntry (absL hp es) buf h := by
  unfold findEntry Verif.Hash.findEntry
  have hl : (absL hp es).length = es.length := by simp [absL]
  rw [hl]
  congr 1
  funext j
  unfold slotMatch Verif.Hash.slotMatch
  simp only [absL, List.getElem?_map]
  cases hj : es[j]? with
  | none => rfl
  | some e =>
    simp only [Option.map_some]
    exact match_abs (ho e (List.mem_of_getElem? hj)) hb hn h

/-- Invariant of the registry: `m` maps contents to the address of their single block. -/
structure Inv (s : State) (m : Bytes → Option Addr) : Prop where
  placed : Verif.Hash.Placed djb2 (absL s.heap s.entries)
  repr : Verif.Hash.Repr (absL s.heap s.entries) m
  used_le : Verif.Hash.used (absL s.heap s.entries) ≤ s.count
  count_le : s.count ≤ s.entries.length / 2
  cap : s.entries.length = 0 ∨ 16 ≤ s.entries.length
  heapOk : HeapOk s.heap s.entries
  content : ∀ b a, m b = some a → s.heap.read a = some (b ++ [0]) ∧ a < 2 ^ 64

theorem absL_length (hp : Heap) (es : List SEntry) : (absL hp es).length = es.length := by
  simp [absL]

theorem absE_zero (hp : Heap) : absE hp SEntry.zero = Verif.Hash.Entry.zero := rfl

theorem rehash_abs (hp : Heap) (src : List SEntry) (hs : HeapOk hp src) :
    ∀ es, HeapOk hp es → ∀ es', (absL hp src).foldl Verif.Hash.rehashStep (some (absL hp es)) = some es' →
      ∃ r, src.foldl (rehashStep hp) (some es) = some r ∧ absL hp r = es' ∧ HeapOk hp r := by
  induction src with
  | nil =>
    intro es ho es' h
    simp only [absL, List.map_nil, List.foldl_nil, Option.some.injEq] at h
    exact ⟨es, rfl, h, ho⟩
  | cons a src ih =>
    intro es ho es' h
    have hs' : HeapOk hp src := fun e he => hs e (List.mem_cons_of_mem _ he)
    simp only [absL, List.map_cons, List.foldl_cons] at h
    cases hv : a.value with
    | none =>
      have h1 : Verif.Hash.rehashStep (some (absL hp es)) (absE hp a) = some (absL hp es) := by
        simp [Verif.Hash.rehashStep, absE, hv]
      rw [show List.map (absE hp) es = absL hp es from rfl, h1] at h
      obtain ⟨r, hr1, hr2, hr3⟩ := ih hs' es ho es' h
      refine ⟨r, ?_, hr2, hr3⟩
      rw [List.foldl_cons]
      have : rehashStep hp (some es) a = some es := by simp [rehashStep, hv]
      rw [this, hr1]
    | some p =>
      obtain ⟨b, hb1, hb2⟩ := hs a List.mem_cons_self p hv
      have hkey : (absE hp a).key = some b := by
        simp only [absE, hv, Option.bind_some, hb1, Option.map_some, ← hb2]
        simp
      have hf := find_abs ho (buf := b) (block := b ++ [0]) (n := a.length)
        (by rw [← hb2]; simp) hb2 a.hash
      cases hj : findEntry hp es (b ++ [0]) a.length a.hash with
      | none =>
        exfalso
        rw [hj] at hf
        have hnone : Verif.Hash.rehashStep (some (absL hp es)) (absE hp a) = none := by
          simp only [Verif.Hash.rehashStep, hkey]
          have : (absE hp a).value = some p := hv
          simp only [this]
          have h2 : (absE hp a).hash = a.hash := rfl
          simp [h2, ← hf, absE]
        rw [show List.map (absE hp) es = absL hp es from rfl, hnone] at h
        have : ∀ l : List (Verif.Hash.Entry Bytes Addr),
            l.foldl Verif.Hash.rehashStep none = none := by
          intro l
          induction l with
          | nil => rfl
          | cons x l ih => rw [List.foldl_cons]; exact ih
        rw [this] at h
        simp at h
      | some j =>
        rw [hj] at hf
        obtain ⟨e, he, -, -⟩ := Verif.Hash.find_some hf.symm
        have he' : ∃ e0, es[j]? = some e0 ∧ absE hp e0 = e := by
          simpa [absL] using he
        obtain ⟨e0, he0, he1⟩ := he'
        have hstep : Verif.Hash.rehashStep (some (absL hp es)) (absE hp a)
            = some (absL hp (es.set j a)) := by
          simp only [Verif.Hash.rehashStep]
          have h2 : (absE hp a).hash = a.hash := rfl
          have h3 : (absE hp a).value = some p := hv
          have h4 : (absE hp a).deleted = false := rfl
          simp only [h2, h3, h4, hkey, ← hf, he]
          simp only [Option.isSome_some, Bool.not_true, Bool.or_false, Bool.false_eq_true, if_false,
            Option.some.injEq]
          simp only [absL, List.map_set]
          congr 1
          rw [← he1, ← hkey]
          simp [absE, hv]
        rw [show List.map (absE hp) es = absL hp es from rfl, hstep] at h
        have ho' : HeapOk hp (es.set j a) := by
          intro x hx q hq
          rcases List.mem_or_eq_of_mem_set hx with hx | rfl
          · exact ho x hx q hq
          · exact hs x List.mem_cons_self q hq
        obtain ⟨r, hr1, hr2, hr3⟩ := ih hs' _ ho' es' h
        refine ⟨r, ?_, hr2, hr3⟩
        rw [List.foldl_cons]
        have : rehashStep hp (some es) a = some (es.set j a) := by
          simp [rehashStep, hv, hb1, hj]
        rw [this, hr1]

theorem expand_ok {s : State} {m : Bytes → Option Addr} (hi : Inv s m) :
    ∃ s', expand s = some s' ∧ Inv s' m ∧ s'.count = s.count ∧ s'.heap = s.heap ∧
      s'.entries.length = nextCapacity s.entries.length := by
  obtain ⟨hp, hr, hu, hcl, hcap, hho, hct⟩ := hi
  let z : List SEntry := List.replicate (nextCapacity s.entries.length) SEntry.zero
  have hz : ∀ e ∈ absL s.heap z, e = Verif.Hash.Entry.zero := by
    intro e he
    simp only [absL, z, List.map_replicate] at he
    rw [List.eq_of_mem_replicate he, absE_zero]
  obtain ⟨hp0, hr0⟩ := Verif.Hash.zero_ok djb2 _ hz
  have hlen : s.entries.length < nextCapacity s.entries.length := by
    unfold nextCapacity; split <;> omega
  have hzl : (absL s.heap z).length = nextCapacity s.entries.length := by
    simp [absL_length, z]
  obtain ⟨es', m', h1, h2, h3, h4, h5, h6⟩ :=
    Verif.Hash.rehash_ok (absL s.heap s.entries) _ _ hp0 hr0
    (by
      intro e he v hv
      obtain ⟨j, hj⟩ := List.getElem?_of_mem he
      obtain ⟨k, hk, hh, hd, -⟩ := hp j e hj v hv
      exact ⟨k, hk, hh, hd, rfl⟩)
    (Verif.Hash.placed_pairwise hp)
    (by rw [Verif.Hash.used_zero _ hz, hzl, absL_length]; omega)
  rw [Verif.Hash.used_zero _ hz] at h5
  have hzo : HeapOk s.heap z := by
    intro e he a ha
    rw [List.eq_of_mem_replicate he] at ha
    simp [SEntry.zero] at ha
  obtain ⟨r, hr1, hr2, hr3⟩ := rehash_abs s.heap s.entries hho z hzo es' h1
  have hm : m' = m := by
    funext k
    have key : ∀ v, m' k = some v ↔ m k = some v := by
      intro v
      rw [h6, hr]
      constructor
      · rintro (h | ⟨e, he, hk, hv, hd⟩)
        · simp at h
        · obtain ⟨j, hj⟩ := List.getElem?_of_mem he
          exact ⟨j, e, hj, hk, hv, hd⟩
      · rintro ⟨j, e, he, hk, hv, hd⟩
        exact Or.inr ⟨e, List.mem_of_getElem? he, hk, hv, hd⟩
    cases h : m' k with
    | some v => exact ((key v).mp h).symm
    | none =>
      cases h' : m k with
      | none => rfl
      | some v => rw [(key v).mpr h'] at h; simp at h
  have hrl : r.length = nextCapacity s.entries.length := by
    rw [← absL_length s.heap r, hr2, h4, hzl]
  refine ⟨{ s with entries := r }, ?_, ?_, rfl, rfl, hrl⟩
  · unfold expand
    simp only [z] at hr1
    rw [hr1]
  · subst hm
    subst hr2
    refine ⟨h2, h3, ?_, ?_, ?_, hr3, hct⟩
    · simp only; omega
    · simp only [hrl]; unfold nextCapacity; split <;> omega
    · simp only [hrl]; unfold nextCapacity; split <;> omega

theorem read_cons (hp : Heap) (p a : Addr) (blk : Bytes) (h : a ≠ p) :
    Heap.read ((p, blk) :: hp) a = hp.read a := by
  simp [Heap.read, List.lookup, beq_eq_false_iff_ne.mpr h]

theorem read_self (hp : Heap) (p : Addr) (blk : Bytes) :
    Heap.read ((p, blk) :: hp) p = some blk := by
  simp [Heap.read, List.lookup]

/-- Allocating a fresh block does not disturb the abstraction. -/
theorem absL_fresh {hp : Heap} {es : List SEntry} {p : Addr} (blk : Bytes) (ho : HeapOk hp es)
    (hfresh : hp.read p = none) : absL ((p, blk) :: hp) es = absL hp es := by
  unfold absL
  apply List.map_congr_left
  intro e he
  unfold absE
  cases hv : e.value with
  | none => rfl
  | some a =>
    obtain ⟨b, hb, -⟩ := ho e he a hv
    have : a ≠ p := by
      rintro rfl
      rw [hfresh] at hb
      simp at hb
    simp only [Option.bind_some, read_cons hp p a blk this]

theorem internCore_ok {malloc : Heap → Nat → Option Addr} (hmal : MallocOk malloc)
    {s : State} {m : Bytes → Option Addr} (hi : Inv s m) {buf : Bytes} {s' : State} {h : Handle}
    (hrun : internCore malloc s buf = some (s', h)) :
    ∃ m' a, Inv s' m' ∧ m' buf = some a ∧ h = longHandle a buf.length ∧
      (∀ b x, m b = some x → m' b = some x) := by
  obtain ⟨hp, hr, hu, hcl, hcap, hho, hct⟩ := hi
  unfold internCore at hrun
  split at hrun
  · simp at hrun
  rename_i hnf
  have hc : s.count < s.entries.length / 2 := by simpa [isFull] using hnf
  split at hrun
  · simp at hrun
  split at hrun
  · simp at hrun
  split at hrun
  · simp at hrun
  rename_i j hf
  have hfa := find_abs hho (buf := buf) (block := buf) (n := buf.length) (by simp) rfl (djb2 buf)
  rw [hf] at hfa
  have hfa := hfa.symm
  obtain ⟨e, he, hd, hm, hkey⟩ := Verif.Hash.find_cases hp hr hfa
  have he' : ∃ e0, s.entries[j]? = some e0 ∧ absE s.heap e0 = e := by
    simpa [absL] using he
  obtain ⟨e0, he0, he1⟩ := he'
  rw [he0] at hrun
  have hval : e0.value = m buf := by
    rw [← hm, ← he1]; rfl
  simp only at hrun
  split at hrun
  · rename_i p hp0
    simp only [Option.some.injEq, Prod.mk.injEq] at hrun
    obtain ⟨rfl, rfl⟩ := hrun
    exact ⟨m, p, ⟨hp, hr, hu, hcl, hcap, hho, hct⟩, by rw [← hval, hp0], rfl, fun _ _ h => h⟩
  · rename_i hp0
    split at hrun
    · simp at hrun
    rename_i p hpm
    simp only [Option.some.injEq, Prod.mk.injEq] at hrun
    obtain ⟨rfl, rfl⟩ := hrun
    obtain ⟨hp1, hp2, hp3⟩ := hmal _ _ _ hpm
    have hfresh := absL_fresh (es := s.entries) (p := p) (buf ++ [0]) hho hp3
    have hmnone : m buf = none := by rw [← hval, hp0]
    have hstore := Verif.Hash.store_ok hp hr p hfa he (by rw [← he1]; exact hp0)
    have hnew : absL ((p, buf ++ [0]) :: s.heap)
        (s.entries.set j ⟨djb2 buf, buf.length, some p⟩)
        = (absL s.heap s.entries).set j
          { e with hash := djb2 buf, key := some buf, value := some p } := by
      rw [← hfresh]
      simp only [absL, List.map_set]
      congr 1
      have hde : e.deleted = false := hd
      simp [absE, read_self, hde]
    refine ⟨fun k' => if k' = buf then some p else m k', p, ⟨?_, ?_, ?_, ?_, ?_, ?_, ?_⟩,
      by simp, rfl, ?_⟩
    · simp only [hnew]; exact hstore.1
    · simp only [hnew]; exact hstore.2
    · simp only [hnew]
      refine Nat.le_trans (Verif.Hash.countP_set_le _ _ _ _) ?_
      unfold Verif.Hash.used at hu
      omega
    · simp only [List.length_set]; omega
    · simp only [List.length_set]; exact hcap
    · intro x hx a ha
      rcases List.mem_or_eq_of_mem_set hx with hx | rfl
      · obtain ⟨b, hb1, hb2⟩ := hho x hx a ha
        have : a ≠ p := by
          rintro rfl
          rw [hp3] at hb1
          simp at hb1
        exact ⟨b, by rw [read_cons _ _ _ _ this]; exact hb1, hb2⟩
      · simp only [Option.some.injEq] at ha
        subst ha
        exact ⟨buf, read_self _ _ _, rfl⟩
    · intro b a hb
      by_cases hbb : b = buf
      · simp only [hbb, if_true, Option.some.injEq] at hb
        subst hb
        subst hbb
        exact ⟨read_self _ _ _, hp2⟩
      · simp only [hbb, if_false] at hb
        obtain ⟨h1, h2⟩ := hct b a hb
        have : a ≠ p := by
          rintro rfl
          rw [hp3] at h1
          simp at h1
        exact ⟨by rw [read_cons _ _ _ _ this]; exact h1, h2⟩
    · intro b x hb
      have : b ≠ buf := by
        rintro rfl
        rw [hmnone] at hb
        simp at hb
      simp [this, hb]

/-- What a handle for `b` looks like in a state with map `m`. -/
def HandleOk (m : Bytes → Option Addr) (b : Bytes) (h : Handle) : Prop :=
  (b.length ≤ 15 ∧ h = shortHandle b) ∨
  (15 < b.length ∧ b.length ≤ maxStringLen ∧ ∃ a, m b = some a ∧ h = longHandle a b.length)

theorem intern_ok {malloc : Heap → Nat → Option Addr} (hmal : MallocOk malloc)
    {s : State} {m : Bytes → Option Addr} (hi : Inv s m) {buf : Bytes} {s' : State} {h : Handle}
    (hrun : intern malloc s buf = some (s', h)) :
    ∃ m', Inv s' m' ∧ HandleOk m' buf h ∧ (∀ b x, m b = some x → m' b = some x) := by
  unfold intern at hrun
  split at hrun
  · rename_i hl
    simp only [Option.some.injEq, Prod.mk.injEq] at hrun
    obtain ⟨rfl, rfl⟩ := hrun
    exact ⟨m, hi, Or.inl ⟨hl, rfl⟩, fun _ _ h => h⟩
  split at hrun
  · simp at hrun
  rename_i hl hmax
  split at hrun
  · obtain ⟨s1, h1, h2, -, -, -⟩ := expand_ok hi
    rw [h1] at hrun
    obtain ⟨m', a, ha, hb, hc, hd⟩ := internCore_ok hmal h2 hrun
    exact ⟨m', ha, Or.inr ⟨by omega, by omega, a, hb, hc⟩, hd⟩
  · obtain ⟨m', a, ha, hb, hc, hd⟩ := internCore_ok hmal hi hrun
    exact ⟨m', ha, Or.inr ⟨by omega, by omega, a, hb, hc⟩, hd⟩

theorem HandleOk.mono {m m' : Bytes → Option Addr} {b : Bytes} {h : Handle}
    (hm : ∀ b x, m b = some x → m' b = some x) (hh : HandleOk m b h) : HandleOk m' b h := by
  rcases hh with hh | ⟨h1, h2, a, ha, hb⟩
  · exact Or.inl hh
  · exact Or.inr ⟨h1, h2, a, hm _ _ ha, hb⟩

theorem internAll_ok {malloc : Heap → Nat → Option Addr} (hmal : MallocOk malloc)
    (bs : List Bytes) : ∀ {s : State} {m : Bytes → Option Addr}, Inv s m →
    ∀ {s' : State} {hs : List Handle}, internAll malloc s bs = some (s', hs) →
    ∃ m', Inv s' m' ∧ List.Forall₂ (HandleOk m') bs hs ∧
      (∀ b x, m b = some x → m' b = some x) := by
  induction bs with
  | nil =>
    intro s m hi s' hs hrun
    simp only [internAll, Option.some.injEq, Prod.mk.injEq] at hrun
    obtain ⟨rfl, rfl⟩ := hrun
    exact ⟨m, hi, List.Forall₂.nil, fun _ _ h => h⟩
  | cons b bs ih =>
    intro s m hi s' hs hrun
    simp only [internAll] at hrun
    split at hrun
    · simp at hrun
    rename_i s1 h hone
    split at hrun
    · simp at hrun
    rename_i s2 hs2 hrest
    simp only [Option.some.injEq, Prod.mk.injEq] at hrun
    obtain ⟨rfl, rfl⟩ := hrun
    obtain ⟨m1, h1, h2, h3⟩ := intern_ok hmal hi hone
    obtain ⟨m2, h4, h5, h6⟩ := ih h1 hrest
    exact ⟨m2, h4, List.Forall₂.cons (h2.mono h6) h5, fun b x hb => h6 _ _ (h3 _ _ hb)⟩

theorem forall₂_get {α β : Type} {R : α → β → Prop} {l : List α} {r : List β}
    (h : List.Forall₂ R l r) {i : Nat} {a : α} {b : β} (ha : l[i]? = some a) (hb : r[i]? = some b) :
    R a b := by
  induction h generalizing i with
  | nil => simp at ha
  | cons h1 _ ih =>
    cases i with
    | zero =>
      simp only [List.getElem?_cons_zero, Option.some.injEq] at ha hb
      subst ha; subst hb
      exact h1
    | succ i => exact ih (by simpa using ha) (by simpa using hb)

theorem init_ok : Inv State.init (fun _ => none) := by
  obtain ⟨hp, hr⟩ := Verif.Hash.zero_ok djb2 ([] : List (Verif.Hash.Entry Bytes Addr)) (by simp)
  exact ⟨hp, hr, by simp [State.init, absL, Verif.Hash.used], by simp [State.init],
    by simp [State.init], by intro e he; simp [State.init] at he, by intro b a h; simp at h⟩

theorem handle_length {m : Bytes → Option Addr} {b : Bytes} {h : Handle} (hh : HandleOk m b h) :
    h.length = 16 := by
  rcases hh with ⟨h1, rfl⟩ | ⟨-, -, a, -, rfl⟩
  · exact shortHandle_length h1
  · exact longHandle_length _ _

theorem handle_read {s : State} {m : Bytes → Option Addr} (hi : Inv s m) {b : Bytes} {h : Handle}
    (hh : HandleOk m b h) :
    strLen h = b.length ∧ ∃ r, strRaw s h = some r ∧ r.take b.length = b ∧ r[b.length]? = some 0 := by
  rcases hh with ⟨h1, rfl⟩ | ⟨h1, h2, a, ha, rfl⟩
  · refine ⟨strLen_short h1, shortHandle b, by simp [strRaw, isShort_short h1], ?_, ?_⟩
    · simp [shortHandle]
    · unfold shortHandle
      by_cases hc : b.length = 15
      · simp [hc]
      · rw [List.append_assoc, List.getElem?_append_right (by omega), Nat.sub_self]
        have : 15 - b.length = (14 - b.length) + 1 := by omega
        rw [this, List.replicate_succ]
        rfl
  · obtain ⟨h3, h4⟩ := hi.content b a ha
    refine ⟨strLen_long a h2, b ++ [0], ?_, by simp, by simp⟩
    simp only [strRaw, isShort_long, Bool.false_eq_true, if_false, longPtr _ h4, h3]

theorem handle_inj {s : State} {m : Bytes → Option Addr} (hi : Inv s m) {b1 b2 : Bytes}
    {h1 h2 : Handle} (hh1 : HandleOk m b1 h1) (hh2 : HandleOk m b2 h2) :
    h1 = h2 ↔ b1 = b2 := by
  constructor
  · rintro rfl
    obtain ⟨l1, r1, a1, t1, -⟩ := handle_read hi hh1
    obtain ⟨l2, r2, a2, t2, -⟩ := handle_read hi hh2
    rw [a1] at a2
    cases a2
    rw [l1] at l2
    rw [← t1, ← t2, l2]
  · rintro rfl
    rcases hh1 with ⟨g1, rfl⟩ | ⟨g1, g2, a, ga, rfl⟩ <;>
      rcases hh2 with ⟨k1, rfl⟩ | ⟨k1, k2, b, kb, rfl⟩
    · rfl
    · omega
    · omega
    · rw [ga] at kb
      cases kb
      rfl

end Verif.Strtab
