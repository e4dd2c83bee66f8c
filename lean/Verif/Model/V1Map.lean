import Verif.Base

/-!
# Goroutines using the assignments of one v1 manager

`tenantPrincipals` (v1/role_manager.go:41) is a plain Go map: no lock protects it, and the Go runtime ends the
program ("concurrent map read and map write", "concurrent map writes") when it notices an access during a write.  Here every access
has a beginning and an end, and goroutines may be interrupted in between.

Simplifications: what the calls do besides these accesses is left out; a call that makes several accesses (for example
`Tenant.AddPrincipal`, v1/tenant.go:111-120) is several calls here; the runtime's way of noticing is not modelled, a race is
an access during a write.
-/

namespace Verif
namespace VM

/-- `assign h`: `AddPrincipalRole` with the key `h` (v1/role_manager.go:290-299).
`scan`: one `range` over the map: `GetTenantsForPrincipal` (v1/role_manager.go:301-310), `GetPrincipalRoles` (317-325),
`GetTenantRoles` (327-335), `GetImplicitPrincipalRoles` (337-353), `GetPermissionsForPrincipal` (355-371),
`GetPrincipalRolesByTenant` (373-381), `GetScopesForPrincipal` (408-421), `GetTenantScopesForPrincipal` (423-440), and
`Authorize` through them. -/
inductive Call where
  | assign (h : Str)
  | scan
  deriving DecidableEq

/-- Where a goroutine stands in a call: before its first access, in it; for `assign` also before the write, in it. -/
inductive Spot where
  | ready
  | reading
  | missing
  | writing
  deriving DecidableEq

structure Thread where
  cur : Option (Call × Spot) := none
  todo : List Call
  deriving DecidableEq

/-- The keys of the map, and the goroutines. -/
structure Conf where
  keys : List Str
  ts : List Thread
  deriving DecidableEq

/-- One step of a call: the keys after it, and where the call stands unless it returns. -/
def step1 (keys : List Str) : Call → Spot → List Str × Option Spot
  | _, .ready => (keys, some .reading)
  | .scan, _ => (keys, none)
  | .assign h, .reading => if h ∈ keys then (keys, none) else (keys, some .missing)
  | .assign _, .missing => (keys, some .writing)
  | .assign h, .writing => (if h ∈ keys then keys else keys ++ [h], none)

/-- Goroutine `i` takes one step; one that has nothing to do changes nothing. -/
def Conf.step (c : Conf) (i : Nat) : Conf :=
  match c.ts[i]? with
  | none => c
  | some t =>
    match t.cur with
    | none =>
      match t.todo with
      | [] => c
      | call :: rest => { c with ts := c.ts.set i { cur := some (call, .ready), todo := rest } }
    | some (call, s) =>
      { keys := (step1 c.keys call s).1
        ts := c.ts.set i { t with cur := (step1 c.keys call s).2.map fun s' => (call, s') } }

/-- The goroutines named take one step each, in this order. -/
def Conf.run (c : Conf) : List Nat → Conf
  | [] => c
  | i :: is => (c.step i).run is

/-- Goroutines about to make the given calls. -/
def Conf.start (keys : List Str) (calls : List (List Call)) : Conf :=
  { keys := keys, ts := calls.map fun l => { todo := l } }

/-- A goroutine is in an access. -/
def Thread.InAccess (t : Thread) : Prop := ∃ call, t.cur = some (call, .reading) ∨ t.cur = some (call, .writing)

/-- A goroutine is in a write. -/
def Thread.InWrite (t : Thread) : Prop := ∃ call, t.cur = some (call, .writing)

/-- Two goroutines access the map at the same time, one of them writing. -/
def Conf.Race (c : Conf) : Prop :=
  ∃ (i j : Nat) (t u : Thread), i ≠ j ∧ c.ts[i]? = some t ∧ c.ts[j]? = some u ∧ t.InWrite ∧ u.InAccess

end VM
end Verif
