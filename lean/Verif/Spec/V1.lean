import Verif.Model.V1
import Verif.Spec.Role

/-!
# Specification of package `v1`

Stated on the stored strings, the registries and the object graph only.
-/

namespace Verif.Spec

/-- No `_` in the string. -/
def NoUnderscore (s : Str) : Prop := (95 : UInt8) ∉ s

/-- No id of the assignment contains `_`. -/
def Clean (x : TP) : Prop :=
  NoUnderscore x.principal ∧ NoUnderscore x.role ∧ NoUnderscore x.tenant ∧ NoUnderscore x.namespace_ ∧
    NoUnderscore x.scope

/-- Cutting `h` at every `_` gives first the fields of `x` and the flag, then anything. -/
def Fields (h : Str) (x : TP) : Prop :=
  ∃ flag rest, Clean x ∧ NoUnderscore flag ∧ (x.manage = true ↔ flag = str "true") ∧
    (rest = [] ∨ ∃ r, rest = 95 :: r) ∧
    h = x.principal ++ 95 :: (x.role ++ 95 :: (x.tenant ++ 95 :: (x.namespace_ ++ 95 :: (x.scope ++ 95 ::
      (flag ++ rest)))))

/-- `x` is read back from a stored string. -/
def Row (w : V1) (x : TP) : Prop := ∃ h ∈ w.tps, Fields h x

/-- `k` is a key of the map. -/
def In (m : GoMap Str Nat) (k : Str) : Prop := ∃ v, (k, v) ∈ m

/-- `t` is the tenant object registered as `id`. -/
def TenantAt (w : V1) (id : Str) (t : T1Obj) : Prop := ∃ a, (id, a) ∈ w.tenants ∧ w.tobjs[a]? = some t

/-- Only the listed parts of the request are present. -/
def Shape (r : Request) (t n s g a : Bool) : Prop :=
  (r.tenant ≠ .nil ↔ t = true) ∧ (r.namespace_ ≠ .nil ↔ n = true) ∧ (r.scope ≠ .nil ↔ s = true) ∧
    (r.group ≠ .nil ↔ g = true) ∧ (r.activity ≠ .nil ↔ a = true)

/-- Decision table for requests naming a tenant, namespace or scope but neither group nor activity. -/
def Grants1 (w : V1) (p : Str) (r : Request) : Prop :=
  (Shape r true false false false false ∧ In w.tenants (toStr r.tenant)) ∨
  (Shape r false true false false false ∧
    ∃ x t, Row w x ∧ x.principal = p ∧ TenantAt w x.tenant t ∧ In t.namespaces (toStr r.namespace_)) ∨
  (Shape r false false true false false ∧
    ∃ x t, Row w x ∧ x.principal = p ∧ TenantAt w x.tenant t ∧ In t.scopes (toStr r.scope) ∧
      x.scope = toStr r.scope) ∨
  (Shape r true true false false false ∧
    ∃ x, Row w x ∧ x.principal = p ∧ x.tenant = toStr r.tenant ∧ x.namespace_ = toStr r.namespace_) ∨
  (Shape r true false true false false ∧
    ∃ x, Row w x ∧ x.principal = p ∧ x.tenant = toStr r.tenant ∧ x.scope = toStr r.scope) ∨
  (Shape r false true true false false ∧
    ∃ x, Row w x ∧ x.principal = p ∧ x.namespace_ = toStr r.namespace_ ∧ x.scope = toStr r.scope) ∨
  (Shape r true true true false false ∧
    ∃ x, Row w x ∧ x.tenant = toStr r.tenant ∧ x.namespace_ = toStr r.namespace_ ∧ x.scope = toStr r.scope)

/-- Namespace `n` of the tenant has role `id`. -/
def NsRole (w : V1) (t : T1Obj) (n id : Str) : Prop :=
  ∃ a no, (n, a) ∈ t.namespaces ∧ w.nsobjs[a]? = some no ∧ In no.roles id

/-- Namespace `n` of the tenant has scope `s`. -/
def NsScope (w : V1) (t : T1Obj) (n s : Str) : Prop :=
  ∃ a no, (n, a) ∈ t.namespaces ∧ w.nsobjs[a]? = some no ∧ In no.scopes s

/-- Roles offered to assignments `R` for namespace `n` and scope `s`: those of the namespace, or, if it has
none, those assigned tenant-wide; and those assigned for exactly `n` and `s`. -/
def Candidate (w : V1) (t : T1Obj) (R : TP → Prop) (n s id : Str) : Prop :=
  NsRole w t n id ∨
  ((∀ j, ¬ NsRole w t n j) ∧ ∃ y, R y ∧ y.namespace_ = [] ∧ y.scope = [] ∧ y.role = id) ∨
  (n ≠ [] ∧ s ≠ [] ∧ ∃ y, R y ∧ y.namespace_ = n ∧ y.scope = s ∧ y.role = id)

/-- The cases in which no role list is produced. -/
def Refused (w : V1) (t : T1Obj) (R : TP → Prop) (n s : Str) : Prop :=
  (s ≠ [] ∧ ¬ In t.scopes s) ∨
  (n ≠ [] ∧ ¬ In t.namespaces n) ∨
  ((¬ ∃ y, R y ∧ s ≠ [] ∧ y.scope = s) ∧ ¬ ∃ y, R y ∧ y.namespace_ = [] ∧ y.scope = []) ∨
  ((∃ j, NsScope w t n j) ∧ ¬ NsScope w t n s) ∨
  ∃ id, Candidate w t R n s id ∧ ¬ In t.roles id

/-- The assignments of `p` in tenant `T`. -/
def RowsOf (w : V1) (p T : Str) (x : TP) : Prop := Row w x ∧ x.principal = p ∧ x.tenant = T

/-- The role ids of the allow-list for a request in tenant `T`. -/
def AllowIn (w : V1) (t : T1Obj) (p T n s id : Str) : Prop :=
  ¬ Refused w t (RowsOf w p T) n s ∧ Candidate w t (RowsOf w p T) n s id

/-- Decision of a request with only an activity. -/
def ActivityGrant (w : V1) (p act : Str) : Prop :=
  ∃ L : List Str, (∀ id, id ∈ L ↔ ∃ T t, (∃ x, RowsOf w p T x) ∧ TenantAt w T t ∧ AllowIn w t p T [] [] id) ∧
    ∃ id ∈ L, ∃ a, (id, a) ∈ w.roles ∧ Granted w.heap L [] act a

/-- Decision of all remaining requests. -/
def ComplexGrant (w : V1) (p : Str) (r : Request) : Prop :=
  ∃ t, TenantAt w (toStr r.tenant) t ∧
    (toStr r.namespace_ ≠ [] → In t.namespaces (toStr r.namespace_)) ∧
    (toStr r.scope ≠ [] → In t.scopes (toStr r.scope)) ∧
    ∃ L : List Str, (∀ id, id ∈ L ↔ AllowIn w t p (toStr r.tenant) (toStr r.namespace_) (toStr r.scope) id) ∧
      ∃ x a, RowsOf w p (toStr r.tenant) x ∧ (x.role, a) ∈ w.roles ∧
        Granted w.heap L (toStr r.group) (toStr r.activity) a

/-- `w'` is `w` with exactly the assignments satisfying `P` added to the stored ones. -/
def Added (w w' : V1) (P : TP → Prop) : Prop :=
  (∃ L, w'.log = w.log ++ L ∧ ∀ x, x ∈ L ↔ P x) ∧
  (∀ h, h ∈ w'.tps ↔ h ∈ w.tps ∨ ∃ x, P x ∧ V1.encode x = h) ∧
  w' = { w with tps := w'.tps, log := w'.log }

end Verif.Spec
