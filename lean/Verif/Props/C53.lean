import Verif.Unit.Lemmas

/-!
# C53: blocks and statements that are thrown away

`acts` is what happens to a definition while an expression is parsed whose code is not
wanted: blocks and statements are added, and other such expressions are parsed within.
The full property is: afterwards, blocks and statements are what they were before, and
the blocks created since can be used again.
-/

namespace Verif.Unit

/-- **C53 (partial).**  Whatever is parsed in between, with throwaway blocks within
throwaway blocks to any depth, no assertion fails; the statements are afterwards exactly
those from before; of the blocks, all those from before are still there, and what is made
free to use again are blocks created since.  If only one block was created since, it is
removed, and everything is as before.  With more, only half of them are removed
(`C53_blocks_violated`). -/
theorem C53_restore_partial (d : Def) (as : List Act) :
    ∃ mid r new kept freed, acts (beginThrowaway d).1 as = some mid ∧ act d (.discarded as) = some r
      ∧ r.statements = d.statements ∧ r.restore = d.restore
      ∧ mid.nodes = new ++ d.nodes ∧ new = freed ++ kept ∧ r.nodes = kept ++ d.nodes
      ∧ r.free = freed.reverse ++ mid.free
      ∧ kept.length = new.length / 2
      ∧ (new.length = 1 → r.nodes = d.nodes) := by
  obtain ⟨mid, h1, h2⟩ := acts_grown (beginThrowaway d).1 as
  obtain ⟨r, h3, h4, h5, new, h6, h7, h8, h9⟩ := restore_grown h2
  refine ⟨mid, r, new, new.drop ((new.length + 1) / 2), new.take ((new.length + 1) / 2), h1, ?_, h5, h4.restore, h6, ?_, h8,
    h9, ?_, ?_⟩
  · rw [act, h1, Option.bind_some, h3]
  · exact (List.take_append_drop _ _).symm
  · rw [List.length_drop]; omega
  · intro h
    rw [h8, List.drop_eq_nil_of_le (by omega)]
    rfl

/-- `sizeof (x + f(1))` in a definition with two blocks and three statements. -/
def exDef : Def := ⟨[1, 0], [12, 11, 10], [7], [], 2⟩

example : act exDef (.discarded [.statement 5, .statement 6]) = some ⟨[1, 0], [12, 11, 10], [7], [], 2⟩ := by
  simp [act, acts, exDef, beginThrowaway, blockInit, addStatement, restoreBlock, popLoop]

/-- With another throwaway block within: `sizeof (sizeof (x + 1))`. -/
example : act exDef (.discarded [.statement 5, .discarded [.statement 6]])
    = some ⟨[1, 0], [12, 11, 10], [7, 2], [], 3⟩ := by
  simp [act, acts, exDef, beginThrowaway, blockInit, addStatement, restoreBlock, popLoop]

/-- **C53 violated: the loop in `restore_block`.**  The condition compares a growing `i`
with a length that shrinks in the loop (parse.c:186), so only half of the blocks are
removed.  `sizeof (a && b)` creates three more blocks, of which one more is removed: two
stay in the definition. -/
theorem C53_blocks_violated :
    ∃ r, act exDef (.discarded [.block, .block, .block, .statement 5]) = some r
      ∧ r.statements = exDef.statements ∧ r.nodes.length = exDef.nodes.length + 2 := by
  refine ⟨⟨[2, 7, 1, 0], [12, 11, 10], [3, 4], [], 5⟩, ?_, rfl, rfl⟩
  simp [act, acts, exDef, beginThrowaway, blockInit, addStatement, restoreBlock, popLoop]

end Verif.Unit
