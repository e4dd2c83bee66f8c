import Verif.Base

/-!
# Model of /repo/utils/filters.go, /repo/utils/str.go (rest) and /repo/ds/ds.go
-/

namespace Verif

/-- `utils.Compact` (utils/str.go:108-118), the loop: `keys` is the set of seen items, `result` the
slice built so far. Items with uncomparable dynamic type (a run-time panic) are not modelled. -/
def compactLoop (keys result : List Val) : List Val → List Val
  | [] => result
  | item :: rest =>
    if item ∈ keys then compactLoop keys result rest
    else compactLoop (item :: keys) (result ++ [item]) rest

/-- `utils.Compact` (utils/str.go:108-118). -/
def compact (slice : List Val) : List Val := compactLoop [] [] slice

/-- `utils.Contains` (utils/str.go:120-127). -/
def contains (elem : Val) : List Val → Bool
  | [] => false
  | v :: rest => if v = elem then true else contains elem rest

/-- `utils.Intersection` (utils/str.go:129-144). The type parameter's `Serialize` is the argument
`ser`; the local `set` is a list of strings. -/
def intersection {α : Type} (ser : α → Str) (a b : List α) : List α :=
  let set := a.foldl (fun set item => ser item :: set) []
  b.foldl (fun acc item => if ser item ∈ set then acc ++ [item] else acc) []

/-- `utils.Union` (utils/str.go:146-162). `set` is not extended in the second loop. -/
def union {α : Type} (ser : α → Str) (a b : List α) : List α :=
  let st := a.foldl (fun (st : List Str × List α) item => (ser item :: st.1, st.2 ++ [item])) ([], [])
  b.foldl (fun acc item => if ser item ∈ st.1 then acc else acc ++ [item]) st.2

/-- One `fmt.Sprintf("%s:%v|", name, value)`; the value is already rendered (utils/str.go:173, 181). -/
def serField (name value : Str) : Str := name ++ (58 :: value ++ [124])

/-- `utils.Serialize` of a struct (utils/str.go:178-184): fields in declaration order, each with
its name and its `%v` rendering. -/
def serializeStruct (fields : List (Str × Str)) : Str :=
  fields.foldl (fun acc f => acc ++ serField f.1 f.2) []

/-- `utils.JoinSlices` (utils/filters.go:24-34). -/
def joinSlices {α β γ : Type} (left : List α) (right : List β) (joinFn : α → β → Bool)
    (combineFn : α → β → γ) : List γ :=
  left.foldl (fun result l =>
    right.foldl (fun result r => if joinFn l r then result ++ [combineFn l r] else result) result) []

/-- `utils.FilterByFields` (utils/filters.go:11-18); fields are projections to `any`. -/
def filterByFields {α : Type} (filter row : α) : List (α → Val) → Bool
  | [] => true
  | field :: rest =>
    if field row = .nil ∨ field row ≠ field filter then false else filterByFields filter row rest

/-- `utils.ToString` (utils/str.go:12-25) on the modelled dynamic types: `bool` and `int` go
through `fmt.Sprintf("%v")`. `[]byte` and `fmt.Stringer` arguments are not modelled. -/
def toStr : Val → Str
  | .str s => s
  | .nil => []
  | .bool true => str "true"
  | .bool false => str "false"
  | .int n => str (toString n)

/-- `ds.Link` (ds/ds.go:3-19): the three implementations of the interface. -/
inductive Link (α : Type) where
  | empty
  | append (element : α) (next : Link α)
  | concat (left right : Link α)

namespace Link
variable {α : Type}

/-- `IsEmpty` (ds/ds.go:25-27, 41-43, 61-63). -/
def isEmpty : Link α → Bool
  | empty => true
  | append _ _ => false
  | concat _ _ => false

/-- `Append` (ds/ds.go:29-31, 45-47, 65-67). -/
def doAppend (l : Link α) (x : α) : Link α := .append x l

/-- `Concat` (ds/ds.go:33-35, 49-54, 69-74). A nil `other` is not modelled. -/
def doConcat (l other : Link α) : Link α :=
  match l with
  | empty => other
  | append e n => if other.isEmpty then .append e n else .concat (.append e n) other
  | concat a b => if other.isEmpty then .concat a b else .concat (.concat a b) other

/-- `AsSlice` (ds/ds.go:37-39, 56-59, 76-79). Every call builds a fresh slice, so `append` does not
alias. -/
def asSlice : Link α → List α
  | empty => []
  | append e n => asSlice n ++ [e]
  | concat a b => asSlice a ++ asSlice b

end Link
end Verif
