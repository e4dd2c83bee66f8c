import Verif.Model.Trie

/-!
# Goroutines on one trie: /repo/trie/trie.go, called concurrently

The child maps of the trie are concurrent maps (`maps.NewMap` of github.com/oarkflow/xsync,
trie/trie.go:4, 14, 20), so one `Get`, `Set` or `Values` of a child map is one step here.  Nothing
else in the file is synchronised: `addChild` is a `Get` followed by a `Set`, and `isEnd` and `data`
are plain fields.  A goroutine may be interrupted between any two of these accesses.  Nodes are
pointers here (addresses in a heap), unlike in `Model/Trie.lean`, because two goroutines may hold
different nodes for one path.

Simplifications: a read or write of `isEnd` or `data` is one step and takes effect at once (in Go the
unsynchronised access is a data race, whose outcome is not even defined); `Values()` is one step,
though the library promises less when the map is being written (an entry being added may or may not be
listed, which an earlier or a later step would give); the key extractor returns a slice that is not nil
(`DataKeyExtractor`, filters.go:16-28, never returns nil); the row pointer given to `Insert` is not nil,
and the row is not changed after it has been inserted.
-/

namespace Verif
namespace TC

/-- `trie.Node` in the heap (trie/trie.go:13-17): the children by address. -/
structure Cell (T : Type) where
  child : GoMap Val Nat := []
  isEnd : Bool := false
  data : Option T := none
  deriving DecidableEq

/-- `NewNode` (trie/trie.go:19-21). -/
def Cell.new {T : Type} : Cell T where

/-- The nodes, by address. The root of the trie has address 0. -/
abbrev Heap (T : Type) := List (Cell T)

/-- The arguments of `search` (trie/trie.go:106): the callback applied to the filter, given the `data`
pointer of a node, which may be nil; `FilterFunc` (filters.go:30-50) panics on a nil row, the callback
of `Data` (trie/trie.go:137) accepts it. -/
structure Query (T : Type) where
  ord : Ord
  cb : Option T → Out Bool
  stop : Bool

/-- A call on the trie: `Insert` (trie/trie.go:60), or `search` as called by `First`, `FirstFunc`,
`Search`, `SearchFunc` and `Data` (trie/trie.go:82-104, 135-138). -/
inductive Call (T : Type) where
  | insert (x : T)
  | search (q : Query T)

/-- Where a goroutine stands inside a call: just before the access named. -/
inductive Spot (T : Type) where
  /-- in the loop of `Insert` (trie/trie.go:70-76), at node `n` with the keys `ks` left; when none is
  left, before `node.isEnd = true` (line 78) -/
  | down (x : T) (n : Nat) (ks : List Val)
  /-- in `addChild`, after `Get` found nothing, before `Set` (trie/trie.go:30-31) -/
  | make (x : T) (n : Nat) (k : Val) (ks : List Val)
  /-- before `node.data = data` (trie/trie.go:79) -/
  | save (x : T) (n : Nat)
  /-- in `dfs`, before reading `isEnd` of the first node of `todo` (trie/trie.go:112); `todo` are the
  nodes still to be visited by the enclosing loops -/
  | enter (q : Query T) (todo : List Nat) (res : List (Option T))
  /-- before reading `data` for the callback (trie/trie.go:112) -/
  | test (q : Query T) (n : Nat) (todo : List Nat) (res : List (Option T))
  /-- before reading `data` again, for the result (trie/trie.go:119) -/
  | take (q : Query T) (n : Nat) (todo : List Nat) (res : List (Option T))
  /-- before `node.child.Values()` (trie/trie.go:124) -/
  | spread (q : Query T) (n : Nat) (todo : List Nat) (res : List (Option T))
  /-- the callback panicked -/
  | dead

/-- What a step leads to: the goroutine stands elsewhere in the call, or the call has returned. -/
inductive Next (T : Type) where
  | at (s : Spot T)
  | ret (res : List (Option T))

variable {T : Type}

/-- Change the node at an address. -/
def Heap.edit (h : Heap T) (n : Nat) (f : Cell T → Cell T) : Heap T := h.modify n f

/-- The first position in a call (trie/trie.go:64-65, 107-110, 131). -/
def Call.first (keys : T → List Val) : Call T → Spot T
  | .insert x => .down x 0 (keys x)
  | .search q => .enter q [0] []

/-- One step inside a call. There is no node at an address outside the heap, and no step from a
panic. -/
def Spot.step (h : Heap T) : Spot T → Option (Heap T × Next T)
  | .down x n [] => some (h.edit n (fun c => { c with isEnd := true }), .at (.save x n))
  | .down x n (k :: ks) =>
    if k = .nil then some (h, .at (.down x n ks))
    else
      match h[n]? with
      | none => none
      | some c =>
        match c.child.get k with
        | some m => some (h, .at (.down x m ks))
        | none => some (h, .at (.make x n k ks))
  | .make x n k ks =>
    some (h.edit n (fun c => { c with child := c.child.set k h.length }) ++ [Cell.new], .at (.down x h.length ks))
  | .save x n => some (h.edit n (fun c => { c with data := some x }), .ret [])
  | .enter _ [] res => some (h, .ret res)
  | .enter q (n :: todo) res =>
    match h[n]? with
    | none => none
    | some c => some (h, .at (if c.isEnd then .test q n todo res else .spread q n todo res))
  | .test q n todo res =>
    match h[n]? with
    | none => none
    | some c =>
      match q.cb c.data with
      | .ok true => some (h, .at (.take q n todo res))
      | .ok false => some (h, .at (.spread q n todo res))
      | .panic => some (h, .at .dead)
      | .diverge => none
  | .take q n todo res =>
    match h[n]? with
    | none => none
    | some c =>
      if q.stop then some (h, .ret (res ++ [c.data]))
      else some (h, .at (.spread q n todo (res ++ [c.data])))
  | .spread q n todo res =>
    match h[n]? with
    | none => none
    | some c => some (h, .at (.enter q (q.ord.ord [.int n] _ (c.child.map (·.2)) ++ todo) res))
  | .dead => none

/-- A goroutine: the call it is in, the calls it has still to make, and the calls that returned with
their results. -/
structure Thread (T : Type) where
  cur : Option (Call T × Spot T) := none
  todo : List (Call T)
  out : List (Call T × List (Option T)) := []

/-- The trie and the goroutines using it. -/
structure Conf (T : Type) where
  heap : Heap T
  ts : List (Thread T)

/-- Goroutine `i` takes one step: it begins its next call, or does one access. -/
def Conf.step (keys : T → List Val) (c : Conf T) (i : Nat) : Option (Conf T) :=
  match c.ts[i]? with
  | none => none
  | some t =>
    match t.cur with
    | none =>
      match t.todo with
      | [] => none
      | call :: rest =>
        some { c with ts := c.ts.set i { t with cur := some (call, call.first keys), todo := rest } }
    | some (call, s) =>
      match s.step c.heap with
      | none => none
      | some (h, .at s') => some { heap := h, ts := c.ts.set i { t with cur := some (call, s') } }
      | some (h, .ret res) =>
        some { heap := h, ts := c.ts.set i { t with cur := none, out := t.out ++ [(call, res)] } }

/-- The goroutines named take one step each, in this order. -/
def Conf.run (keys : T → List Val) (c : Conf T) : List Nat → Option (Conf T)
  | [] => some c
  | i :: is => (c.step keys i).bind fun c' => c'.run keys is

/-- Goroutines about to make the given calls on a trie with these nodes. -/
def Conf.start (h : Heap T) (calls : List (List (Call T))) : Conf T :=
  { heap := h, ts := calls.map fun l => { todo := l } }

/-- The trie made by `trie.New` (trie/trie.go:49-58): one node. -/
def Heap.fresh : Heap T := [Cell.new]

end TC
end Verif
