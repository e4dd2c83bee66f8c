import Verif.Model.V2
import Verif.Spec.Match
import Verif.Spec.V2Role

/-!
# Specification of the v2 authorizer
-/

namespace Verif.Spec

/-- `u` is a current assignment. -/
def Assigned (w : V2) (u : PR) : Prop := ∃ i, some i ∈ w.userRoles ∧ w.prs[i]? = some u

/-- `p` has an assignment in tenant `t` that covers its child tenants. -/
def ManagesChildren (w : V2) (p t : Str) : Prop := ∃ u, Assigned w u ∧ u.principal = p ∧ u.tenant = t ∧ u.manage = true

/-- Tenant object `c'` is reached from `c` through child links of tenants whose children `p` manages. -/
inductive Managed (w : V2) (p : Str) (c : Nat) : Nat → Prop where
  | self : Managed w p c c
  | child {a b : Nat} {t : T2} {k : Str} : Managed w p c a → w.tobjs[a]? = some t → ManagesChildren w p t.id →
      (k, b) ∈ t.children → Managed w p c b

/-- A tenant with id `t` is reached from object `c`. -/
def Covers (w : V2) (p : Str) (c : Nat) (t : Str) : Prop := ∃ c' t', Managed w p c c' ∧ w.tobjs[c']? = some t' ∧ t'.id = t

/-- No two tenant objects reached from `c` share an id. -/
def NoTwins (w : V2) (p : Str) (c : Nat) : Prop :=
  ∀ c1 c2 t1 t2, Managed w p c c1 → Managed w p c c2 → w.tobjs[c1]? = some t1 → w.tobjs[c2]? = some t2 →
    t1.id = t2.id → c1 = c2

/-- The tenant named by the request, else the default tenant. -/
def named (w : V2) (r : Req2) : Str := if r.tenant = [] then w.defTenant else r.tenant

/-- The tenants the request is about. -/
def Target (w : V2) (r : Req2) (c : Nat) : Prop :=
  (named w r ≠ [] ∧ (named w r, c) ∈ w.tenants) ∨
  (named w r = [] ∧ ∃ u t, Assigned w u ∧ u.principal = r.principal ∧ u.tenant ≠ [] ∧ (u.tenant, c) ∈ w.tenants ∧
    w.tobjs[c]? = some t ∧ t.status = 0)

/-- The namespace the request is about in tenant `t`. -/
def InNs (t : T2) (r : Req2) (ns : Str) : Prop :=
  (r.namespace_ ≠ [] ∧ ns = r.namespace_) ∨
  (r.namespace_ = [] ∧ t.defNs ≠ [] ∧ ns = t.defNs) ∨
  (r.namespace_ = [] ∧ t.defNs = [] ∧ ∃ scs, t.namespaces = [(ns, scs)])

/-- Namespace and scope of the request exist in tenant `t`. -/
def Place (t : T2) (r : Req2) (ns : Str) : Prop :=
  InNs t r ns ∧ ∃ scs, (ns, scs) ∈ t.namespaces ∧ (r.scope = [] ∨ r.scope ∈ scs)

/-- The assignment has no expiry before `now`. -/
def Live (u : PR) (now : Int) : Prop := ∀ e, u.expiry = some e → now ≤ e

/-- The assignment counts for namespace `ns` at time `now`. -/
def Counts (w : V2) (p ns t : Str) (now : Int) (u : PR) : Prop :=
  Assigned w u ∧ u.principal = p ∧ u.tenant = t ∧ Live u now ∧ (u.namespace_ = [] ∨ u.namespace_ = ns)

/-- No assignment expires during the call: every clock reading agrees with `now`. -/
def Steady (w : V2) (e : Env) (now : Int) : Prop := ∀ u, Assigned w u → ∀ s, Live u (e.now s) ↔ Live u now

/-- The permissions a role has for the authorizer: the cached set if there is one, else the closure. -/
def RolePerm (d : Dag) (r x : Str) : Prop :=
  (∃ s, (r, s) ∈ d.resolved ∧ x ∈ s) ∨ ((∀ s, (r, s) ∉ d.resolved) ∧ PermClosure d r x)

/-- The roles below a role for the authorizer: the cached set if there is one, else the closure. -/
def RoleBelow (d : Dag) (r x : Str) : Prop :=
  (∃ s, (r, s) ∈ d.resolved ∧ x ∈ s) ∨ ((∀ s, (r, s) ∉ d.resolved) ∧ Below d r x)

/-- A permission of assignments for exactly the requested scope (or of unscoped ones if no scope is requested). -/
def ScopedPerm (w : V2) (now : Int) (r : Req2) (c : Nat) (ns x : Str) : Prop :=
  ∃ t u, Covers w r.principal c t ∧ Counts w r.principal ns t now u ∧ u.scope = r.scope ∧ RolePerm w.dag u.role x

/-- A permission of unscoped assignments. -/
def UnscopedPerm (w : V2) (now : Int) (r : Req2) (c : Nat) (ns x : Str) : Prop :=
  ∃ t u, Covers w r.principal c t ∧ Counts w r.principal ns t now u ∧ u.scope = [] ∧ RolePerm w.dag u.role x

/-- The permissions used for the request in target tenant `c`. -/
def UsedPerm (w : V2) (now : Int) (r : Req2) (c : Nat) (ns x : Str) : Prop :=
  ScopedPerm w now r c ns x ∨ ((∀ y, ¬ ScopedPerm w now r c ns y) ∧ UnscopedPerm w now r c ns x)

/-- The permission covers the requested action. -/
def Permits (x : Str) (r : Req2) : Prop :=
  ¬ (r.resource = [] ∧ r.action = []) ∧ Matches x (r.resource ++ [32] ++ r.action)

/-- The request should be granted. -/
def Grants2 (w : V2) (now : Int) (r : Req2) : Prop :=
  ∃ c t ns x, Target w r c ∧ w.tobjs[c]? = some t ∧ Place t r ns ∧ UsedPerm w now r c ns x ∧ Permits x r

/-- Role `x` is held in target tenant `c`. -/
def HeldRole (w : V2) (now : Int) (r : Req2) (c : Nat) (ns x : Str) : Prop :=
  ∃ t u, Covers w r.principal c t ∧ Counts w r.principal ns t now u ∧ u.role ≠ [] ∧
    (x = u.role ∨ RoleBelow w.dag u.role x)

/-- One of the roles is held where the request is about. -/
def Can2 (w : V2) (now : Int) (r : Req2) (roles : List Str) : Prop :=
  ∃ c t ns x, Target w r c ∧ w.tobjs[c]? = some t ∧ Place t r ns ∧ x ∈ roles ∧ HeldRole w now r c ns x

end Verif.Spec
