import Verif.Model.Trie

/-!
# What a search of the row store does (/repo/trie/trie.go:82-138)

The same code as in `Model/Trie.lean` with a log: every call of the closure `dfs` writes down the path of its node and the row
it passes to the callback (`none`: `isEnd` is false, the callback is not called).  That the returned rows agree is theorem
`C132_counted`.
-/

namespace Verif
variable {T : Type}

/-- `results`, and the calls of `dfs` made so far. -/
structure Trail (T : Type) where
  res : List T := []
  log : List (List Val × Option T) := []

/-- Run the children's visits in the given order, stopping when one returns true (trie/trie.go:124-128). -/
def runTrails : List (Trail T → Bool × Trail T) → Trail T → Bool × Trail T
  | [], s => (false, s)
  | f :: fs, s =>
    match f s with
    | (true, s') => (true, s')
    | (false, s') => runTrails fs s'

mutual
/-- The closure `dfs` of `search` (trie/trie.go:111-130), writing down its calls. `pos` is the path from the root, `site`
identifies the search. -/
def Node.dfsL (o : Ord) (site : List Val) (cb : T → Bool) (stop : Bool) (pos : List Val) : Node T → Trail T → Bool × Trail T
  | .mk d ch => fun s =>
    let visit := runTrails (o.ord (site ++ .nil :: pos) _ (ch.trails o site cb stop pos))
    let s := { s with log := s.log ++ [(pos, d)] }
    match d with
    | some x =>
      if cb x then
        if stop then (true, { s with res := s.res ++ [x] }) else visit { s with res := s.res ++ [x] }
      else visit s
    | none => visit s
/-- The visits of all children (trie/trie.go:124), in storage order. -/
def Forest.trails (o : Ord) (site : List Val) (cb : T → Bool) (stop : Bool) (pos : List Val) :
    Forest T → List (Trail T → Bool × Trail T)
  | .nil => []
  | .cons k n rest => n.dfsL o site cb stop (pos ++ [k]) :: rest.trails o site cb stop pos
end

/-- `search` (trie/trie.go:106-133), writing down the calls of `dfs`. -/
def Trie.searchL (t : Trie T) (o : Ord) (site : List Val) (cb : T → Bool) (stop : Bool) : Trail T :=
  (t.root.dfsL o site cb stop [] {}).2

end Verif
