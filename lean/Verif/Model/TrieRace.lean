import Verif.Model.TrieConc

/-!
# Unsynchronised fields of the trie: /repo/trie/trie.go

`isEnd` and `data` of a node are plain fields (trie/trie.go:15-16), written by `Insert` (lines 78, 79) and
read by `search` (lines 112, 119).  The child maps are concurrent maps and `child` itself is set once, in
`NewNode` (line 20), before the node can be found.  Two goroutines race when both are about to access one
plain field and one of the accesses is a write: nothing orders the two.
-/

namespace Verif
namespace TC
variable {T : Type}

/-- A plain field of the node at an address (trie/trie.go:15-16). -/
inductive Plain where
  | isEnd (n : Nat)
  | data (n : Nat)
  deriving DecidableEq, Repr

/-- The plain field the next step accesses, and whether it writes it (trie/trie.go:78, 79, 112, 119). -/
def Spot.plain : Spot T → Option (Plain × Bool)
  | .down _ n [] => some (.isEnd n, true)
  | .down _ _ (_ :: _) => none
  | .make _ _ _ _ => none
  | .save _ n => some (.data n, true)
  | .enter _ [] _ => none
  | .enter _ (n :: _) _ => some (.isEnd n, false)
  | .test _ n _ _ => some (.data n, false)
  | .take _ n _ _ => some (.data n, false)
  | .spread _ _ _ _ => none
  | .dead => none

/-- The plain field a goroutine is about to access. -/
def Thread.plain (t : Thread T) : Option (Plain × Bool) := t.cur.bind fun cs => cs.2.plain

/-- Goroutines `i` and `j` are about to access one plain field, and `i` is about to write it. -/
def Conf.RaceBy (c : Conf T) (i j : Nat) : Prop :=
  i ≠ j ∧ ∃ (t u : Thread T) (f : Plain) (b : Bool), c.ts[i]? = some t ∧ c.ts[j]? = some u ∧
    t.plain = some (f, true) ∧ u.plain = some (f, b)

/-- Two goroutines race. -/
def Conf.Race (c : Conf T) : Prop := ∃ i j, c.RaceBy i j

end TC
end Verif
