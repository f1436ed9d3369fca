import Verif.Hash.Model
/-!
# Model of `src/preprocessor/strtab.c` (interning) and the `String` handle of
`include/lacc/string.h` / `src/util/string.c`

A handle is modelled as the 16 bytes of the C union, so that `str_eq` is the comparison of
the two 8 byte halves that the C code makes.

Simplifications:
* `malloc` is a parameter that may fail (`none`); a block, once filled, is never changed or
  freed (true for strtab.c until `strtab_reset`);
* `int length`, `int count`, `int capacity` are natural numbers;
* the signed overflow in `djb2_hash` is modelled as wrap-around of 32 bit words;
* a failing `assert`, the `exit(1)` for over-long strings, and a failing `malloc` are `none`.
-/
namespace Verif.Strtab

abbrev Bytes := List UInt8
abbrev Addr := Nat

/-- Allocated blocks. -/
abbrev Heap := List (Addr × Bytes)

/-- Read the block at an address. -/
def Heap.read (h : Heap) (a : Addr) : Option Bytes := List.lookup a h

/-- `struct strtab_entry`, strtab.c:33-37. -/
structure SEntry where
  hash : BitVec 32
  length : Nat
  value : Option Addr

def SEntry.zero : SEntry := ⟨0, 0, none⟩

/-- The global `strtab`, strtab.c:23-38, together with the heap blocks it owns. -/
structure State where
  count : Nat
  entries : List SEntry
  heap : Heap

def State.init : State := ⟨0, [], []⟩

/-- `djb2_hash`, strtab.c:66-77; `char` is signed. -/
def djb2 (buf : Bytes) : BitVec 32 :=
  buf.foldl (fun h c => ((h <<< 5) + h) + (c.toBitVec.signExtend 32)) 5381

/-- `memcmp(p, q, n) == 0` where `p` is a block in the heap. -/
def memEq (block : Bytes) (buf : Bytes) (n : Nat) : Bool :=
  decide (block.take n = buf.take n)

/-- `strtab_match_entry`, strtab.c:79-88. -/
def matchEntry (hp : Heap) (e : SEntry) (buf : Bytes) (length : Nat) (hash : BitVec 32) : Bool :=
  match e.value with
  | none => true
  | some a =>
    decide (e.hash = hash) && decide (e.length = length) &&
      (match hp.read a with
       | some block => memEq block buf length
       | none => false)

def slotMatch (hp : Heap) (es : List SEntry) (buf : Bytes) (length : Nat) (hash : BitVec 32)
    (j : Nat) : Bool :=
  match es[j]? with
  | some e => matchEntry hp e buf length hash
  | none => false

/-- `strtab_find_entry`, strtab.c:90-121.  The probe order is textually the one of
`hash_find_entry` (hash.c:72-90). -/
def findEntry (hp : Heap) (es : List SEntry) (buf : Bytes) (length : Nat) (hash : BitVec 32) :
    Option Nat :=
  (Verif.Hash.probeOrder hash es.length).find? (slotMatch hp es buf length hash)

/-- Loop body of `strtab_expand`, strtab.c:145-150. -/
def rehashStep (hp : Heap) (acc : Option (List SEntry)) (a : SEntry) : Option (List SEntry) :=
  match acc with
  | none => none
  | some es =>
    match a.value with
    | none => some es
    | some p =>
      match hp.read p with
      | none => none
      | some block =>
        match findEntry hp es block a.length a.hash with
        | none => none
        | some j => some (es.set j a)

/-- strtab.c:135-138. -/
def nextCapacity (cap : Nat) : Nat := if cap = 0 then 2048 else cap * 2

/-- `strtab_expand`, strtab.c:128-153. -/
def expand (s : State) : Option State :=
  match s.entries.foldl (rehashStep s.heap)
      (some (List.replicate (nextCapacity s.entries.length) SEntry.zero)) with
  | none => none
  | some es => some { s with entries := es }

/-- `strtab_is_full`, strtab.c:123-126. -/
def isFull (s : State) : Bool := decide (s.count ≥ s.entries.length / 2)

/-- A handle: the 16 bytes of the union in string.h:33-42. -/
abbrev Handle := List UInt8

/-- Little endian bytes of a machine word. -/
def leBytes : Nat → Nat → List UInt8
  | 0, _ => []
  | n + 1, x => UInt8.ofNat (x % 256) :: leBytes n (x / 256)

/-- Value of little endian bytes. -/
def leValue : List UInt8 → Nat
  | [] => 0
  | b :: bs => b.toNat + 256 * leValue bs

/-- Short representation, strtab.c:159-169: zeroed union, bytes copied, last byte `15 - len`. -/
def shortHandle (buf : Bytes) : Handle :=
  buf ++ List.replicate (15 - buf.length) 0 ++ [UInt8.ofNat (15 - buf.length)]

/-- Long representation, strtab.c:202-204: pointer, length, last byte overwritten by -1. -/
def longHandle (ptr : Addr) (len : Nat) : Handle :=
  leBytes 8 ptr ++ (leBytes 8 len).take 7 ++ [255]

/-- `str_intern` from line 177 on, after the growth check; strtab.c:181-207. -/
def internCore (malloc : Heap → Nat → Option Addr) (s : State) (buf : Bytes) :
    Option (State × Handle) :=
  if isFull s then none
  else if s.entries.length = 0 then none
  else if ¬ (s.count < s.entries.length - 1) then none
  else
    match findEntry s.heap s.entries buf buf.length (djb2 buf) with
    | none => none
    | some j =>
      match s.entries[j]? with
      | none => none
      | some e =>
        match e.value with
        | some p => some (s, longHandle p buf.length)
        | none =>
          match malloc s.heap (buf.length + 1) with
          | none => none
          | some p =>
            some (⟨s.count + 1, s.entries.set j ⟨djb2 buf, buf.length, some p⟩,
              (p, buf ++ [0]) :: s.heap⟩, longHandle p buf.length)

/-- `MAX_STRING_LEN`, string.h:13. -/
def maxStringLen : Nat := 0x00ffffffffffffff

/-- `str_intern`, strtab.c:155-208. -/
def intern (malloc : Heap → Nat → Option Addr) (s : State) (buf : Bytes) :
    Option (State × Handle) :=
  if buf.length ≤ 15 then some (s, shortHandle buf)
  else if buf.length > maxStringLen then none
  else if isFull s then
    match expand s with
    | none => none
    | some s' => internCore malloc s' buf
  else internCore malloc s buf

/-- The last byte of the union, `small.cap`. -/
def capByte (h : Handle) : UInt8 := h.getD 15 0

/-- `IS_SHORT_STRING`, string.h:12: `cap >= 0` as a signed char. -/
def isShort (h : Handle) : Bool := decide ((capByte h).toNat < 128)

/-- `str_len`, string.c:64-71. -/
def strLen (h : Handle) : Nat :=
  if isShort h then 15 - (capByte h).toNat else leValue ((h.drop 8).take 7)

/-- `str_raw`, string.h:53: memory readable from the raw pointer. -/
def strRaw (s : State) (h : Handle) : Option Bytes :=
  if isShort h then some h else s.heap.read (leValue (h.take 8))

/-- The bytes of a string: `str_len` bytes from `str_raw`. -/
def strBytes (s : State) (h : Handle) : Option Bytes :=
  (strRaw s h).map (fun r => r.take (strLen h))

/-- `str_eq`, string.c:78-81: compares the two 8 byte halves. -/
def strEq (h1 h2 : Handle) : Bool :=
  decide (leValue (h1.take 8) = leValue (h2.take 8)) &&
    decide (leValue (h1.drop 8) = leValue (h2.drop 8))

/-- `str_cat`, strtab.c:215-230.  The concatenation buffer is separate storage. -/
def strCat (malloc : Heap → Nat → Option Addr) (s : State) (a b : Handle) :
    Option (State × Handle) :=
  match strBytes s a, strBytes s b with
  | some x, some y => intern malloc s (x ++ y)
  | _, _ => none

/-- Register a sequence of byte strings, collecting the handles. -/
def internAll (malloc : Heap → Nat → Option Addr) : State → List Bytes →
    Option (State × List Handle)
  | s, [] => some (s, [])
  | s, b :: bs =>
    match intern malloc s b with
    | none => none
    | some (s', h) =>
      match internAll malloc s' bs with
      | none => none
      | some (s'', hs) => some (s'', h :: hs)

end Verif.Strtab
