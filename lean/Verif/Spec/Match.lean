import Verif.Base

/-!
# Specification of the pattern language

Bytes are written as numbers: 42 is '*', 58 is ':', 47 is '/', 32 is ' '.
Independent of the model.
-/

namespace Verif.Spec

/-- `Matches pattern value`: the language of a permission pattern.
* a literal byte matches itself;
* `:name` extends to the next '/' (or the end of the pattern) and matches one arbitrary byte
  followed by any number of bytes other than '/';
* a final run of '*' matches everything. -/
inductive Matches : Str → Str → Prop where
  | nil : Matches [] []
  | lit {c : UInt8} {ps vs : Str} : c ≠ 58 → c ≠ 42 → Matches ps vs → Matches (c :: ps) (c :: vs)
  | param {name ps : Str} {x : UInt8} {seg vs : Str} :
      47 ∉ name → (ps = [] ∨ ps.head? = some 47) → 47 ∉ seg →
      Matches ps vs → Matches (58 :: (name ++ ps)) (x :: (seg ++ vs))
  | star {ps vs : Str} : (∀ c ∈ ps, c = 42) → Matches (42 :: ps) vs

/-- `Hangs pattern value`: a '*' is reached that is followed (after further stars) by some
byte `c` other than '*', and `c` still occurs in the remaining value. -/
inductive Hangs : Str → Str → Prop where
  | star {stars : Str} {c : UInt8} {ps vs : Str} :
      (∀ s ∈ stars, s = 42) → c ≠ 42 → c ∈ vs → Hangs (42 :: (stars ++ c :: ps)) vs
  | lit {c : UInt8} {ps vs : Str} : c ≠ 58 → c ≠ 42 → Hangs ps vs → Hangs (c :: ps) (c :: vs)
  | param {name ps : Str} {x : UInt8} {seg vs : Str} :
      47 ∉ name → (ps = [] ∨ ps.head? = some 47) → 47 ∉ seg →
      (vs = [] ∨ vs.head? = some 47) →
      Hangs ps vs → Hangs (58 :: (name ++ ps)) (x :: (seg ++ vs))

/-- The '/'-separated segments of a string. -/
def segments : Str → List Str
  | [] => [[]]
  | c :: t =>
    if c = 47 then [] :: segments t
    else match segments t with
      | [] => [[c]]
      | s :: r => (c :: s) :: r

example : segments [1, 47, 2, 3] = [[1], [2, 3]] := by decide

end Verif.Spec
