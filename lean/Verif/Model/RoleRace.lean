import Verif.Model.RoleConc

/-!
# The unsynchronised field of a role: /repo/role.go (and /repo/v1/role.go)

`lock` is a plain field of a role (role.go:42, v1/role.go:41), written by `Lock` and `Unlock` (role.go:46, 54) and read at
the beginning of the mutators (role.go:106, 119, 140).  Everything else the calls access is a concurrent map, or is set
before the object is shared.  Two goroutines race when both are about to access the field of one role and one of the
accesses is a write: nothing orders the two.
-/

namespace Verif
namespace GC

/-- The role whose `lock` the next step accesses, and whether it writes it (role.go:46, 54, 106, 119, 140). -/
def plain : Call → Spot → Option (Nat × Bool)
  | .grant r _ _, .gate => some (r, false)
  | .addGroup r _, .gate => some (r, false)
  | .descend r _, .gate => some (r, false)
  | .setLock r _, .write => some (r, true)
  | _, _ => none

/-- The role whose `lock` a goroutine is about to access. -/
def Thread.plain (t : Thread) : Option (Nat × Bool) := t.cur.bind fun cs => GC.plain cs.1 cs.2

/-- Goroutines `i` and `j` are about to access `lock` of role `r`, and `i` is about to write it. -/
def Conf.RaceBy (c : Conf) (i j r : Nat) : Prop :=
  i ≠ j ∧ ∃ (t u : Thread) (b : Bool), c.ts[i]? = some t ∧ c.ts[j]? = some u ∧
    t.plain = some (r, true) ∧ u.plain = some (r, b)

end GC
end Verif
