import Verif.Model.TrieConc

/-! # Specification of a trie used by several goroutines -/

namespace Verif
namespace TC
variable {T : Type}

/-- The identity of a row: its keys without the nil ones. -/
def key (keys : T → List Val) (x : T) : List Val := (keys x).filter (· ≠ .nil)

/-- The node reached from node `n` under these keys. -/
def Heap.walk (h : Heap T) : List Val → Nat → Option Nat
  | [], n => some n
  | k :: ks, n =>
    match h[n]? with
    | none => none
    | some c =>
      match c.child.get k with
      | none => none
      | some m => Heap.walk h ks m

/-- The row stored under these keys: what a search of a trie at rest can find there. -/
def Heap.row (h : Heap T) (p : List Val) : Option T :=
  (h.walk p 0).bind fun n => (h[n]?).bind (·.data)

/-- A trie at rest: the nodes form a tree whose edges are keys other than nil, every row is at the
node of its identity, and a node is marked exactly when it has a row. -/
def Heap.Good (keys : T → List Val) (h : Heap T) : Prop :=
  0 < h.length ∧ ∃ path : Nat → List Val, path 0 = [] ∧ ∀ n c, h[n]? = some c →
    c.child.WF ∧
    (∀ k m, c.child.get k = some m → k ≠ .nil ∧ m < h.length ∧ path m = path n ++ [k]) ∧
    (∀ x, c.data = some x → key keys x = path n) ∧
    (c.isEnd = c.data.isSome)

/-- The row a call inserts. -/
def Call.row : Call T → Option T
  | .insert x => some x
  | .search _ => none

/-- The rows inserted by these calls. -/
def rows (l : List (Call T)) : List T := l.filterMap Call.row

/-- The calls a goroutine has begun, in order. -/
def Thread.begun (t : Thread T) : List (Call T) := t.out.map (·.1) ++ t.cur.toList.map (·.1)

/-- A row of some insertion that has begun. -/
def Conf.Begun (c : Conf T) (x : T) : Prop := ∃ t ∈ c.ts, Call.insert x ∈ t.begun

/-- Every goroutine has finished all its calls. -/
def Conf.Done (c : Conf T) : Prop := ∀ t ∈ c.ts, t.cur = none ∧ t.todo = []

/-- The row the next step of goroutine `i` stores (`node.data = data`, trie/trie.go:79), if any. -/
def Conf.storing (c : Conf T) (i : Nat) : Option T :=
  match c.ts[i]? with
  | some t =>
    match t.cur with
    | some (_, .save x _) => some x
    | _ => none
  | none => none

/-- The rows stored in a run, with the goroutine storing each, in the order of the stores. -/
def Conf.stores (keys : T → List Val) (c : Conf T) : List Nat → List (Nat × T)
  | [] => []
  | i :: is =>
    match c.step keys i with
    | none => []
    | some c' => ((c.storing i).map fun x => (i, x)).toList ++ Conf.stores keys c' is

/-- The rows goroutine `i` stored. -/
def storedBy (i : Nat) (l : List (Nat × T)) : List T := (l.filter (·.1 = i)).map (·.2)

/-- The store, as a function from identities to rows, after one more row. -/
def put (keys : T → List Val) (s : List Val → Option T) (x : T) : List Val → Option T :=
  fun p => if key keys x = p then some x else s p

/-- No two goroutines insert rows that need the same new node: what the identities of two such rows
have in common is already a node of the trie. -/
def Apart (keys : T → List Val) (h : Heap T) (calls : List (List (Call T))) : Prop :=
  ∀ (i j : Nat) (l m : List (Call T)), i ≠ j → calls[i]? = some l → calls[j]? = some m →
    ∀ x ∈ rows l, ∀ y ∈ rows m, ∀ p, p <+: key keys x → p <+: key keys y → (h.walk p 0).isSome

/-- Every row inserted has the identity of a row that is already stored. -/
def Replaces (keys : T → List Val) (h : Heap T) (calls : List (List (Call T))) : Prop :=
  ∀ l ∈ calls, ∀ x ∈ rows l, (h.row (key keys x)).isSome

/-- The callback answers for every row, and depends on the identity of the row only. -/
def Query.Fair (keys : T → List Val) (q : Query T) : Prop :=
  (∀ x, ∃ b, q.cb (some x) = .ok b) ∧
  ∀ x y, key keys x = key keys y → q.cb (some x) = q.cb (some y)

end TC
end Verif
