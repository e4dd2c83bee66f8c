import Verif.Model.TenantConc

/-!
# The unsynchronised fields of a tenant: /repo/tenant.go

`manager` and `defaultNamespace` are plain fields of a tenant (tenant.go:15-20), `manager` written by `AddTenant` (tenant.go:144) and
`defaultNamespace` by `SetDefaultNamespace` (tenant.go:65), which `AddDescendant` calls on the descendant (tenant.go:47).  The
identifier is set before the tenant is shared, the descendants are in a concurrent map.  Two goroutines race when both are about to access one of
the fields of one tenant and one of the accesses is a write: nothing orders the two.
-/

namespace Verif
namespace NC

/-- The plain fields of a tenant (tenant.go:15-20). -/
inductive Field where
  | manager | defaultNamespace
  deriving DecidableEq

/-- The field of a tenant that the next step accesses, and whether it writes it. -/
def Prog.plain : Prog → Option (Field × Nat × Bool)
  | .readMgr c _ => some (.manager, c, false)
  | .writeMgr c _ => some (.manager, c, true)
  | .readDef c _ => some (.defaultNamespace, c, false)
  | .writeDef c _ _ => some (.defaultNamespace, c, true)
  | _ => none

/-- Goroutine `i` in call `a` and goroutine `j` in call `b` are about to access the field of the tenant at `x`, and `i` is about to write it. -/
def Conf.RaceBy (c : Conf) (i j : Nat) (a b : Op) (f : Field) (x : Nat) : Prop :=
  i ≠ j ∧ ∃ (n m : Nat) (p q : Prog) (wr : Bool), c.th[i]? = some (some (n, a, p)) ∧ c.th[j]? = some (some (m, b, q)) ∧
    p.plain = some (f, x, true) ∧ q.plain = some (f, x, wr)

end NC
end Verif
