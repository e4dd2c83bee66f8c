import Verif.Base

/-!
# Goroutines registering objects in the root package

The seven registries of `RoleManager` (role_manager.go:12-23, 25-38) are concurrent maps, and they are
all filled in the same way: `Get` under the identifier, and if nothing is there, `Set`.  So are
the descendants of a role and of a tenant.  One `Get` and one `Set` is one step here; a goroutine may
be interrupted between them.

Simplifications: objects are addresses, and what is inside them is not modelled; `AddTenant` also sets
`data.manager` before the `Get` (tenant.go:144), which is a write to the object given.
-/

namespace Verif
namespace RC

/-- A call on one registry.
`add`: `AddTenant` (tenant.go:143-150), `AddNamespace` (namespace.go:17-23), `AddScope`
(scope.go:17-23), `AddPrincipal` (principal.go:12-18), `AddRole` (permission.go:58-64), `AddAttribute`
(activity.go:9-15), `AddAttributeGroup` (activity_group.go:13-19), and one round of the loops of
`Role.AddDescendant` (role.go:109-113) and `Tenant.AddDescendant` (tenant.go:41-44), which return
nothing.
`find`: `GetTenant` (tenant.go:158-160), `GetRole` (permission.go:72-74) and the other getters. -/
inductive Call where
  | add (id : Str) (obj : Nat)
  | find (id : Str)
  deriving DecidableEq

/-- Where a goroutine stands in a call: before the `Get`, or before the `Set`. -/
inductive Spot where
  | get
  | set
  deriving DecidableEq

/-- A goroutine: the call it is in, the calls still to make, and the calls that returned, with the
object returned. -/
structure Thread where
  cur : Option (Call × Spot) := none
  todo : List Call
  out : List (Call × Option Nat) := []
  deriving DecidableEq

structure Conf where
  reg : GoMap Str Nat
  ts : List Thread
  deriving DecidableEq

/-- One step inside a call: the registry, and the object returned if the call returns. -/
def step1 (reg : GoMap Str Nat) : Call → Spot → GoMap Str Nat × Option (Option Nat)
  | .find id, _ => (reg, some (reg.get id))
  | .add id _, .get =>
    match reg.get id with
    | some old => (reg, some (some old))
    | none => (reg, none)
  | .add id obj, .set => (reg.set id obj, some (some obj))

/-- Goroutine `i` takes one step. -/
def Conf.step (c : Conf) (i : Nat) : Option Conf :=
  match c.ts[i]? with
  | none => none
  | some t =>
    match t.cur with
    | none =>
      match t.todo with
      | [] => none
      | call :: rest => some { c with ts := c.ts.set i { t with cur := some (call, .get), todo := rest } }
    | some (call, s) =>
      match step1 c.reg call s with
      | (reg, some res) =>
        some { reg := reg, ts := c.ts.set i { t with cur := none, out := t.out ++ [(call, res)] } }
      | (reg, none) => some { reg := reg, ts := c.ts.set i { t with cur := some (call, .set) } }

/-- The goroutines named take one step each, in this order. -/
def Conf.run (c : Conf) : List Nat → Option Conf
  | [] => some c
  | i :: is => (c.step i).bind fun c' => c'.run is

/-- Goroutines about to make the given calls. -/
def Conf.start (reg : GoMap Str Nat) (calls : List (List Call)) : Conf :=
  { reg := reg, ts := calls.map fun l => { todo := l } }

end RC
end Verif
