import Verif.Base

/-!
# Model of /repo/trie/trie.go

A node's `isEnd` and `data` are always set together (trie.go:78-79), so they are one
`Option`.  Rows are values: the package never mutates a stored row, so pointer identity is not
observable except by a caller who writes through a returned pointer (not modelled).
-/

namespace Verif

mutual
/-- `trie.Node` (trie/trie.go:13-17). -/
inductive Node (T : Type) where
  | mk (data : Option T) (child : Forest T)
/-- The `child` map of a node (unique keys, see `Forest.set`). -/
inductive Forest (T : Type) where
  | nil
  | cons (key : Val) (node : Node T) (rest : Forest T)
end

variable {T : Type}

/-- `child.Get` (trie/trie.go:27, 39). -/
def Forest.get (k : Val) : Forest T → Option (Node T)
  | .nil => none
  | .cons k' n rest => if k' = k then some n else rest.get k

/-- `child.Set` (trie/trie.go:31). Because nodes are values here, writing below a child is a `set`
of the rebuilt child. -/
def Forest.set (k : Val) (n : Node T) : Forest T → Forest T
  | .nil => .cons k n .nil
  | .cons k' n' rest => if k' = k then .cons k' n rest else .cons k' n' (rest.set k n)

/-- `NewNode` (trie/trie.go:19-21). -/
def Node.new : Node T := .mk none .nil

/-- The loop of `Insert` with the final store (trie/trie.go:70-79), using `addChild`
(trie/trie.go:23-33): nil keys are skipped, an existing child is reused, a missing one created. -/
def Node.insert (x : T) : List Val → Node T → Node T
  | [], .mk _ ch => .mk (some x) ch
  | key :: keys, .mk d ch =>
    if key = .nil then Node.insert x keys (.mk d ch)
    else
      let child := (ch.get key).getD Node.new
      .mk d (ch.set key (Node.insert x keys child))

/-- Run the children's visits in the given order, stopping when one returns true
(trie/trie.go:124-128). -/
def runVisits : List (List T → Bool × List T) → List T → Bool × List T
  | [], res => (false, res)
  | f :: fs, res =>
    match f res with
    | (true, res') => (true, res')
    | (false, res') => runVisits fs res'

mutual
/-- The closure `dfs` of `search` (trie/trie.go:111-130). `res` is the captured `results`, the Bool
is the return value. `path` identifies the node, so that the oracle may order the children of every
node independently (`node.child.Values()`, line 124). The growth of `results` (lines 114-118) only
changes capacity. -/
def Node.dfs (o : Ord) (cb : T → Bool) (stop : Bool) (path : List Val) : Node T → List T → Bool × List T
  | .mk d ch => fun res =>
    let visit := runVisits (o.ord path _ (ch.visits o cb stop path))
    match d with
    | some x =>
      if cb x then
        if stop then (true, res ++ [x]) else visit (res ++ [x])
      else visit res
    | none => visit res
/-- The visits of all children, in storage order. -/
def Forest.visits (o : Ord) (cb : T → Bool) (stop : Bool) (path : List Val) :
    Forest T → List (List T → Bool × List T)
  | .nil => []
  | .cons k n rest => n.dfs o cb stop (path ++ [k]) :: rest.visits o cb stop path
end

/-- `trie.Trie` (trie/trie.go:43-47). `keys` is the key extractor; `none` is a nil slice. -/
structure Trie (T : Type) where
  root : Node T
  matchFn : T → T → Bool
  keys : T → Option (List Val)

/-- `trie.New` (trie/trie.go:49-58) with non-nil functions. -/
def Trie.new (m : T → T → Bool) (keys : T → Option (List Val)) : Trie T := ⟨Node.new, m, keys⟩

/-- `Insert` (trie/trie.go:60-80): a nil pointer is ignored, a nil key slice panics. -/
def Trie.insert (t : Trie T) (data : Option T) : Out (Trie T) :=
  match data with
  | none => .ok t
  | some x =>
    match t.keys x with
    | none => .panic
    | some ks => .ok { t with root := t.root.insert x ks }

/-- `search` (trie/trie.go:106-133). `site` identifies the call; the nil entry separates it from the
node path, which never contains nil. The filter is already applied to the callback. -/
def Trie.search (t : Trie T) (o : Ord) (site : List Val) (cb : T → Bool) (stop : Bool) : List T :=
  (t.root.dfs o cb stop (site ++ [.nil]) []).2

/-- `SearchFunc` (trie/trie.go:102-104). -/
def Trie.searchFunc (t : Trie T) (o : Ord) (site : List Val) (filter : T) (cb : T → T → Bool) : List T :=
  t.search o site (cb filter) false

/-- `Search` (trie/trie.go:98-100). -/
def Trie.searchAll (t : Trie T) (o : Ord) (site : List Val) (filter : T) : List T :=
  t.search o site (t.matchFn filter) false

/-- `first`, `FirstFunc` (trie/trie.go:86-96). -/
def Trie.firstFunc (t : Trie T) (o : Ord) (site : List Val) (filter : T) (cb : T → T → Bool) : Option T :=
  match t.search o site (cb filter) true with
  | [] => none
  | x :: _ => some x

/-- `First` (trie/trie.go:82-84). -/
def Trie.first (t : Trie T) (o : Ord) (site : List Val) (filter : T) : Option T :=
  t.firstFunc o site filter t.matchFn

/-- `Data` (trie/trie.go:135-138). -/
def Trie.data (t : Trie T) (o : Ord) (site : List Val) : List T := t.search o site (fun _ => true) false

end Verif
