import Verif.Spec.Role

/-!
# Counting walks along links

A graph is given by the list of direct descendants of each node.
-/

namespace Verif.Spec

/-- The sum of `f` over the ends of all walks with exactly `k` links that start at `r`. -/
def walkSum (kids : Nat → List Nat) (f : Nat → Nat) : Nat → Nat → Nat
  | 0, r => f r
  | k + 1, r => ((kids r).map (walkSum kids f k)).sum

/-- The number of walks with exactly `k` links that start at `r`. -/
def walks (kids : Nat → List Nat) (k r : Nat) : Nat := walkSum kids (fun _ => 1) k r

/-- The number of walks with exactly `k` links from `r` to `d`. -/
def walksTo (kids : Nat → List Nat) (k r d : Nat) : Nat := walkSum kids (fun x => if x = d then 1 else 0) k r

/-- The direct descendants of a role. -/
def roleKids (h : RHeap) (r : Nat) : List Nat :=
  match h.roles[r]? with
  | none => []
  | some ro => ro.desc.map (·.2)

/-- `f 0 + ... + f (n - 1)`. -/
def sumTo (n : Nat) (f : Nat → Nat) : Nat := ((List.range n).map f).sum

/-- A diamond: two walks lead from 0 to 3, and four walks start at 0 with one or two links. -/
example : walksTo (fun r => if r = 0 then [1, 2] else if r ≤ 2 then [3] else []) 2 0 3 = 2 ∧
    sumTo 2 (fun k => walks (fun r => if r = 0 then [1, 2] else if r ≤ 2 then [3] else []) (k + 1) 0) = 4 := by decide

end Verif.Spec
