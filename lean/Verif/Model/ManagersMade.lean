import Verif.Model.Managers

/-!
# Managers made while a program runs (/repo/role_manager.go)

`Model/Managers.lean` makes all managers first; here `New` is called at any time.
-/

namespace Verif
namespace MM

/-- `New` (role_manager.go:25-38): the new manager has the next number. -/
def World.make (W : World) : World := { W with mgrs := W.mgrs ++ [{}] }

/-- What a program does: it makes a manager, or it makes a call as in `World.call` (tenant.go:22-151,
role_manager.go:25-250). -/
inductive Act where
  | new
  | call (k : Nat) (op : MOp)

/-- Run a program; a call on a manager that has not been made panics (role_manager.go:25: there is no other way to have
one). -/
def World.act (W : World) : List Act → Out World
  | [] => .ok W
  | .new :: as => W.make.act as
  | .call k op :: as => (W.call k op).bind fun W' => W'.act as

end MM
end Verif
