/-!
# Model of `src/util/hash.c`

Open addressing hash table with linear probing, tombstones and growth.

Simplifications:
* keys are an arbitrary type with decidable equality (`String` with `str_eq`, see the
  `Strtab` area for why `str_eq` is equality of contents);
* values are non-NULL pointers: `V`; NULL is `none`;
* `str_hash` is an arbitrary function to 32 bit words;
* the `add` / `del` hooks of the C interface only supply the value and free it; they are
  not modelled;
* `capacity` is the length of the entry list (they are always assigned together);
* a failing `assert` is the result `none`.
-/
namespace Verif.Hash

/-- `struct hash_entry`, hash.c:16-26.  A zeroed entry has `key = none`, `value = none`. -/
structure Entry (K V : Type) where
  hash : BitVec 32
  deleted : Bool
  key : Option K
  value : Option V

/-- Entry produced by `calloc` (hash.c:112) or `memset` (hash.c:43). -/
def Entry.zero {K V : Type} : Entry K V := ⟨0, false, none, none⟩

/-- `struct hash_table`, hash.h:11-15. -/
structure Table (K V : Type) where
  count : Nat
  entries : List (Entry K V)

/-- Zero initialised `struct hash_table`. -/
def Table.empty {K V : Type} : Table K V := ⟨0, []⟩

variable {K V : Type} [DecidableEq K]

/-- `hash_match_entry`, hash.c:52-61. -/
def matchEntry (e : Entry K V) (key : K) (hash : BitVec 32) : Bool :=
  if e.deleted then false
  else !e.value.isSome || (decide (e.hash = hash) && decide (e.key = some key))

/-- Home slot `hash & (tab->capacity - 1)`, hash.c:72. -/
def home (hash : BitVec 32) (cap : Nat) : Nat := hash.toNat &&& (cap - 1)

/-- Order in which `hash_find_entry` visits slots: `i`, then `i+1 .. capacity-1`, then
`0 .. i-1`; hash.c:72-90. -/
def probeOrder (hash : BitVec 32) (cap : Nat) : List Nat :=
  let i := home hash cap
  i :: (List.range' (i + 1) (cap - (i + 1)) ++ List.range i)

/-- Does slot `j` match? -/
def slotMatch (es : List (Entry K V)) (key : K) (hash : BitVec 32) (j : Nat) : Bool :=
  match es[j]? with
  | some e => matchEntry e key hash
  | none => false

/-- `hash_find_entry`, hash.c:63-94; the index of the entry, `none` for the final `assert(0)`. -/
def findEntry (es : List (Entry K V)) (key : K) (hash : BitVec 32) : Option Nat :=
  (probeOrder hash es.length).find? (slotMatch es key hash)

/-- Loop body of `hash_expand`, hash.c:113-122. -/
def rehashStep (acc : Option (List (Entry K V))) (a : Entry K V) : Option (List (Entry K V)) :=
  match acc with
  | none => none
  | some es =>
    if !a.value.isSome || a.deleted then some es
    else
      match a.key with
      | none => none
      | some k =>
        match findEntry es k a.hash with
        | none => none
        | some j =>
          match es[j]? with
          | none => none
          | some b => some (es.set j { b with hash := a.hash, key := a.key, value := a.value })

/-- New capacity chosen by `hash_expand`, hash.c:102-105 (the size limit is not modelled). -/
def nextCapacity (cap : Nat) : Nat := if cap = 0 then 16 else cap * 2

/-- `hash_expand`, hash.c:96-126. -/
def expand (t : Table K V) : Option (Table K V) :=
  match t.entries.foldl rehashStep
      (some (List.replicate (nextCapacity t.entries.length) Entry.zero)) with
  | none => none
  | some es => some ⟨t.count, es⟩

/-- `hash_is_full`, hash.c:128-131. -/
def isFull (t : Table K V) : Bool := decide (t.count ≥ t.entries.length / 2)

/-- The part of `hash_insert` after the growth check, hash.c:147-165. -/
def insertCore (hash : K → BitVec 32) (t : Table K V) (key : K) (value : V) :
    Option (Table K V × V) :=
  if t.entries.length = 0 then none
  else if ¬ (t.count < t.entries.length - 1) then none
  else
    match findEntry t.entries key (hash key) with
    | none => none
    | some j =>
      match t.entries[j]? with
      | none => none
      | some e =>
        if e.deleted then none
        else
          match e.value with
          | some v =>
            if e.hash = hash key ∧ e.key = some key then some (t, v) else none
          | none =>
            some (⟨t.count + 1,
              t.entries.set j { e with hash := hash key, key := some key, value := some value }⟩,
              value)

/-- `hash_insert`, hash.c:133-166. -/
def insert (hash : K → BitVec 32) (t : Table K V) (key : K) (value : V) :
    Option (Table K V × V) :=
  if isFull t then
    match expand t with
    | none => none
    | some t' => if isFull t' then none else insertCore hash t' key value
  else insertCore hash t key value

/-- `hash_lookup`, hash.c:168-179.  Outer `none`: failed assertion; inner `none`: NULL. -/
def lookup (hash : K → BitVec 32) (t : Table K V) (key : K) : Option (Option V) :=
  if t.entries.length = 0 then some none
  else
    match findEntry t.entries key (hash key) with
    | none => none
    | some j =>
      match t.entries[j]? with
      | none => none
      | some e => some e.value

/-- `hash_remove`, hash.c:181-203. -/
def remove (hash : K → BitVec 32) (t : Table K V) (key : K) : Option (Table K V) :=
  if t.entries.length = 0 then some t
  else
    match findEntry t.entries key (hash key) with
    | none => none
    | some j =>
      match t.entries[j]? with
      | none => none
      | some e =>
        if e.value.isSome then
          some ⟨t.count, t.entries.set j { e with deleted := true, hash := 0, value := none }⟩
        else some t

/-- `hash_clear`, hash.c:28-44. -/
def clear (t : Table K V) : Table K V := ⟨0, t.entries.map (fun _ => Entry.zero)⟩

/-- `hash_destroy`, hash.c:46-50. -/
def destroy (_ : Table K V) : Table K V := Table.empty

/-- Calls a client can make. -/
inductive Op (K V : Type) where
  | insert (k : K) (v : V)
  | lookup (k : K)
  | remove (k : K)
  | clear
  | destroy

/-- Execute one call on the table; the second component is what the call returns. -/
def exec (hash : K → BitVec 32) (t : Table K V) : Op K V → Option (Table K V × Option V)
  | .insert k v => (insert hash t k v).map (fun r => (r.1, some r.2))
  | .lookup k => (lookup hash t k).map (fun r => (t, r))
  | .remove k => (remove hash t k).map (fun t' => (t', none))
  | .clear => some (clear t, none)
  | .destroy => some (destroy t, none)

/-- Execute a history, collecting the returned values. -/
def run (hash : K → BitVec 32) : Table K V → List (Op K V) → Option (Table K V × List (Option V))
  | t, [] => some (t, [])
  | t, op :: ops =>
    match exec hash t op with
    | none => none
    | some (t', o) =>
      match run hash t' ops with
      | none => none
      | some (t'', os) => some (t'', o :: os)

end Verif.Hash
