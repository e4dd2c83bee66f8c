import Verif.Model.Manager
import Verif.Spec.Trie
import Verif.Spec.Role

/-!
# Specification of the root `RoleManager`

Stored rows, tenant hierarchy and the decision table of `Authorize`, stated on the insertion log, the
registries and the object graph only.
-/

namespace Verif.Spec

/-- A row is stored: it was inserted and no later row has the same non-nil field values in order. -/
def Stored (w : Mgr) (d : Data) : Prop := d ∈ survivors (rowKey dataKeys) w.log

/-- `d` is a direct descendant of the tenant object `c`. -/
def TChild (ts : List TenantObj) (c d : Nat) : Prop := ∃ t k, ts[c]? = some t ∧ (k, d) ∈ t.desc

/-- One or more links. -/
inductive TDesc (ts : List TenantObj) : Nat → Nat → Prop where
  | child {c d : Nat} : TChild ts c d → TDesc ts c d
  | step {c m d : Nat} : TChild ts c m → TDesc ts m d → TDesc ts c d

/-- `x` is the id of a transitive descendant of the tenant object `c`. -/
def BelowObj (ts : List TenantObj) (c : Nat) (x : Str) : Prop := ∃ d t, TDesc ts c d ∧ ts[d]? = some t ∧ t.id = x

/-- `x` is the id of a transitive descendant of the tenant registered as `a`. -/
def Under (w : Mgr) (a x : Str) : Prop := ∃ c, w.tenants.get a = some c ∧ BelowObj w.tobjs c x

/-- `p` has a stored row in tenant `t`. -/
def Member (w : Mgr) (p t : Str) : Prop := ∃ row, Stored w row ∧ row.principal = .str p ∧ row.tenant = .str t

/-- `p` has a stored row in tenant `t` with `ManageDescendants = true`. -/
def Manages (w : Mgr) (p t : Str) : Prop :=
  ∃ row, Stored w row ∧ row.principal = .str p ∧ row.tenant = .str t ∧ row.manage = .bool true

/-- A requested resource is absent from the request or registered. -/
def Known (m : GoMap Str Nat) (v : Val) : Prop := v = .nil ∨ ∃ s x, v = .str s ∧ (s, x) ∈ m

/-- All requested resources are registered. -/
def Resources (w : Mgr) (r : Request) : Prop :=
  Known w.tenants r.tenant ∧ Known w.namespaces r.namespace_ ∧ Known w.scopes r.scope

/-- The row is not tied to another principal. -/
def ForP (p : Str) (row : Data) : Prop := row.principal = .nil ∨ row.principal = .str p

/-- Scope rows that count for namespace `n` in tenant `c`. -/
def ScopeRow (p : Str) (c n s : Val) (row : Data) : Prop :=
  row.tenant = c ∧ row.scope = s ∧
  (row.principal = .str p ∨ (row.principal = .nil ∧ (row.namespace_ = .nil ∨ row.namespace_ = n)))

/-- Decision table of a request without activity, tried in tenant `c`. -/
def Grants (w : Mgr) (p : Str) (c : Val) (r : Request) : Prop :=
  (r.tenant ≠ .nil ∧ r.namespace_ = .nil ∧ r.scope = .nil ∧
    ∃ row, Stored w row ∧ row.principal = .str p ∧ row.tenant = c) ∨
  (r.tenant ≠ .nil ∧ r.namespace_ ≠ .nil ∧ r.scope = .nil ∧
    ∃ row, Stored w row ∧ ForP p row ∧ row.tenant = c ∧ row.namespace_ = r.namespace_) ∨
  (r.tenant ≠ .nil ∧ r.namespace_ = .nil ∧ r.scope ≠ .nil ∧
    ∃ row, Stored w row ∧ ForP p row ∧ row.tenant = c ∧ row.scope = r.scope) ∨
  (r.tenant ≠ .nil ∧ r.namespace_ ≠ .nil ∧ r.scope ≠ .nil ∧
    ∃ row, Stored w row ∧ ScopeRow p c r.namespace_ r.scope row) ∨
  (r.tenant = .nil ∧ r.namespace_ ≠ .nil ∧ r.scope ≠ .nil ∧
    ∃ own row, Stored w own ∧ own.principal = .str p ∧ own.tenant ≠ .nil ∧
      Stored w row ∧ ScopeRow p own.tenant r.namespace_ r.scope row)

/-- Role rows of `p` that count for tenant `c`, namespace `n` and scope `s`. -/
def OwnRoleRow (p : Str) (c n s : Val) (row : Data) : Prop :=
  row.principal = .str p ∧ (row.namespace_ = .nil ∨ row.namespace_ = n) ∧ (row.scope = .nil ∨ row.scope = s) ∧
  (row.tenant = c ∨ row.namespace_ = n ∨ row.scope = s)

/-- The rows whose roles are consulted for a request with activity, tried in tenant `c`. -/
def RoleRow (w : Mgr) (p : Str) (c : Val) (r : Request) (row : Data) : Prop :=
  (r.tenant ≠ .nil ∧ r.namespace_ ≠ .nil ∧ r.scope = .nil ∧
    (row.namespace_ = r.namespace_ ∨ (row.namespace_ = .nil ∧ row.tenant = c ∧ row.principal = .str p))) ∨
  (r.tenant ≠ .nil ∧ r.namespace_ = .nil ∧ r.scope ≠ .nil ∧
    (row.scope = r.scope ∨ (row.scope = .nil ∧ row.tenant = c ∧ row.principal = .str p))) ∨
  (r.tenant ≠ .nil ∧ r.namespace_ ≠ .nil ∧ r.scope ≠ .nil ∧ OwnRoleRow p c r.namespace_ r.scope row) ∨
  (r.tenant = .nil ∧ r.namespace_ ≠ .nil ∧ r.scope ≠ .nil ∧
    ∃ own, Stored w own ∧ own.principal = .str p ∧ own.tenant ≠ .nil ∧
      OwnRoleRow p own.tenant r.namespace_ r.scope row)

/-- A registered role on a consulted row grants the activity. -/
def ActGrants (w : Mgr) (p : Str) (c : Val) (r : Request) (g act : Str) : Prop :=
  ∃ row role a, Stored w row ∧ RoleRow w p c r row ∧ row.role = .str role ∧ (role, a) ∈ w.roles ∧
    Granted w.heap [] g act a

/-- The request names both an attribute group and an activity. -/
def HasActivity (r : Request) : Prop := r.group ≠ .nil ∧ r.activity ≠ .nil

/-- The request, tried in tenant `c`, is granted. -/
def Decides (w : Mgr) (p : Str) (c : Val) (r : Request) : Prop :=
  (¬ HasActivity r ∧ Grants w p c r) ∨
  ∃ g act, r.group = .str g ∧ r.activity = .str act ∧ ActGrants w p c r g act

end Verif.Spec
