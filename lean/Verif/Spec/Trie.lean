import Verif.Base

/-! # Specification of the row store -/

namespace Verif.Spec
variable {T : Type}

/-- The identity of a row in the store: its keys without the nil ones. -/
def rowKey (keys : T → Option (List Val)) (x : T) : List Val :=
  ((keys x).getD []).filter (fun k => decide (k ≠ Val.nil))

/-- Rows of a history that are not overwritten by a later row with the same identity. -/
def survivors (key : T → List Val) : List T → List T
  | [] => []
  | d :: ds => if ds.any (fun e => key e = key d) then survivors key ds else d :: survivors key ds

end Verif.Spec
