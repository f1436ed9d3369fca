import Verif.Hash.Lemmas
/-!
# C01 — the hash table behaves as a finite map
-/
namespace Verif.Hash

/-- **C01.** For every hash function, every key and value type and every history of calls on
a zero-initialised table: no assertion fails, the search always ends in a slot, and the values
returned are those of a finite map in which insertion never replaces a present key. -/
theorem C01_hash_table_is_finite_map {K V : Type} [DecidableEq K] (hash : K → BitVec 32)
    (ops : List (Op K V)) :
    ∃ t, run hash Table.empty ops = some (t, Spec.answers (fun _ => none) ops) :=
  run_ok ops (empty_ok hash)

/-- A history with full collisions, a tombstone on the probe path and re-insertion. -/
example : (run (fun _ : Nat => (7 : BitVec 32)) Table.empty
      [.insert 1 10, .insert 2 20, .insert 3 30, .remove 2, .lookup 3, .insert 3 31,
       .insert 2 21, .lookup 2, .lookup 9]).map (·.2)
    = some [some 10, some 20, some 30, none, some 30, some 30, some 21, some 21, none] := by
  decide

/-- Wrap-around and growth (nine keys, initial capacity sixteen, all hashing to the last slot). -/
example : (run (fun _ : Nat => (15 : BitVec 32)) Table.empty
      ((List.range 9).map (fun k => Op.insert k (k + 100)) ++ [.lookup 0, .lookup 8])).map
        (fun r => (r.1.entries.length, r.2.drop 9))
    = some (32, [some 100, some 108]) := by
  decide

end Verif.Hash
