import Verif.Model.Utils

/-!
# Model of `utils.Serialize` on maps (/repo/utils/str.go:164-176)
-/

namespace Verif

/-- A map entry as `Serialize` sees it: `sort` is what `reflect.Value.String` gives for the key (the key itself for
string keys, `<T Value>` with the type's name for every other kind, the interface kind included), `key` and `value`
are the key and the element as `%s` and `%v` print them. -/
structure SerEntry where
  sort : Str
  key : Str
  value : Str
  deriving DecidableEq, Repr

/-- Go's `<` on strings: bytewise. -/
def strLt : Str → Str → Bool
  | _, [] => false
  | [], _ :: _ => true
  | a :: as, b :: bs => if a < b then true else if b < a then false else strLt as bs

/-- `sort.Slice(keys, less)` (utils/str.go:167-170) on the keys as `MapKeys` returns them, in any order: the standard
library promises a permutation in which no key is less than an earlier one, and no more (the sort is not stable). -/
def SortResult (m s : List SerEntry) : Prop :=
  s.Perm m ∧ s.Pairwise fun x y => strLt y.sort x.sort = false

/-- The builder loop (utils/str.go:171-175). -/
def serializeMap (sorted : List SerEntry) : Str :=
  sorted.foldl (fun acc e => acc ++ serField e.key e.value) []

end Verif
