import Verif.Model.Manager

/-!
# How often a decision of the root package searches the row store (/repo/authorize.go, /repo/query.go)

The same code as in `Model/Manager.lean` with a counter that `u.search` (query.go:18-20) increases; the counter before the call
is the argument `k`.  That the answers agree is theorem `C133_counted`.  What one search costs is `Model/TrieCost.lean`.
-/

namespace Verif
namespace Mgr

/-- `u.search` (query.go:18-20), counted. -/
def searchN (w : Mgr) (o : Ord) (site : List Val) (filter : Data) (f : Data → Data → Bool) (k : Nat) : List Data × Nat :=
  (w.search o site filter f, k + 1)

/-- `GetTenantsByPrincipal` (query.go:10-16, 22-24), counted. -/
def tenantsByPrincipalN (w : Mgr) (o : Ord) (site : List Val) (p : Val) (k : Nat) : List Val × Nat :=
  let x := w.searchN o site { principal := p } filterTenantsByPrincipal k
  (compact (x.1.map (·.tenant)), x.2)

/-- The loop of `GetScopeForPrincipalByNamespace` (query.go:112-115), counted. -/
def scopesLoopN (w : Mgr) (o : Ord) (site : List Val) (p n : Val) : Nat → List Val → Nat → List Data × Nat
  | _, [], k => ([], k)
  | i, t :: ts, k =>
    let x := w.searchN o (site ++ [.int 1, .int i]) { principal := p, tenant := t, namespace_ := n }
      filterScopeForPrincipalByTenantAndNamespace k
    let y := scopesLoopN w o site p n (i + 1) ts x.2
    (x.1 ++ y.1, y.2)

/-- `checkNoActivity` (authorize.go:72-89), counted. -/
def checkNoActivityN (w : Mgr) (o : Ord) (site : List Val) (p : Str) (r : Request) (f : Flags) (k : Nat) : Bool × Nat :=
  if f.t then
    let x := w.tenantsByPrincipalN o site (.str p) k
    (contains r.tenant x.1, x.2)
  else if f.tn then
    let x := w.searchN o site { tenant := r.tenant, principal := .str p } filterNamespaceForPrincipalByTenant k
    (contains r.namespace_ (getIDs (·.namespace_) [] [] x.1), x.2)
  else if f.ts then
    let x := w.searchN o site { tenant := r.tenant, principal := .str p } filterScopeForPrincipalByTenant k
    (contains r.scope (getIDs (·.scope) [] [] x.1), x.2)
  else if f.ns then
    let ts := w.tenantsByPrincipalN o (site ++ [.int 0]) (.str p) k
    let x := w.scopesLoopN o site (.str p) r.namespace_ 0 ts.1 ts.2
    (contains r.scope (getIDs (·.scope) [] [] x.1), x.2)
  else if f.tns then
    let x := w.searchN o site { principal := .str p, tenant := r.tenant, namespace_ := r.namespace_ }
      filterScopeForPrincipalByTenantAndNamespace k
    (contains r.scope (getIDs (·.scope) [] [] x.1), x.2)
  else (false, k)

/-- `collectRoles` (authorize.go:130-140), counted. -/
def collectRolesN (w : Mgr) (o : Ord) (site : List Val) (p : Str) (t : Val) (k : Nat) : Out ((List Str × List Str) × Nat) :=
  let x := w.searchN o (site ++ [.int 0]) { tenant := t } filterRoleByTenant k
  (appendRoles (fun d => d.principal = .str p) x.1).bind fun roles =>
  (appendRoles (fun _ => true) x.1).map fun allowed => ((roles, allowed), x.2)

/-- The two loops of the other `collectRoles*` functions (authorize.go:142-156, 158-172, 192-206), counted: `filter`, `f`, `keep`
are those of the second one. -/
def collectTwoN (w : Mgr) (o : Ord) (site : List Val) (t : Val) (filter : Data) (f : Data → Data → Bool) (keep : Data → Bool) (k : Nat) :
    Out ((List Str × List Str) × Nat) :=
  let x := w.searchN o (site ++ [.int 0]) { tenant := t } filterRoleByTenant k
  (appendRoles (fun _ => true) x.1).bind fun allowed =>
  let y := w.searchN o (site ++ [.int 1]) filter f x.2
  (appendRoles keep y.1).map fun roles => ((roles, allowed), y.2)

/-- `collectRolesByTenantAndNamespace` (authorize.go:142-156), counted. -/
def collectRolesTNN (w : Mgr) (o : Ord) (site : List Val) (p : Str) (t n : Val) (k : Nat) : Out ((List Str × List Str) × Nat) :=
  w.collectTwoN o site t { principal := .str p, tenant := t, namespace_ := n } filterRoleForPrincipalByTenantAndNamespace
    (fun d => d.namespace_ = .nil || d.namespace_ = n) k

/-- `collectRolesByTenantAndScope` (authorize.go:158-172), counted. -/
def collectRolesTSN (w : Mgr) (o : Ord) (site : List Val) (p : Str) (t s : Val) (k : Nat) : Out ((List Str × List Str) × Nat) :=
  w.collectTwoN o site t { principal := .str p, tenant := t, scope := s } filterRoleForPrincipalByTenantAndScope
    (fun d => d.scope = .nil || d.scope = s) k

/-- `collectRolesByTenantNamespaceAndScope` (authorize.go:192-206), counted. -/
def collectRolesTNSN (w : Mgr) (o : Ord) (site : List Val) (p : Str) (t n s : Val) (k : Nat) : Out ((List Str × List Str) × Nat) :=
  w.collectTwoN o site t { principal := .str p, tenant := t, namespace_ := n, scope := s }
    filterRoleForPrincipalByTenantNamespaceAndScope
    (fun d => (d.namespace_ = .nil || d.namespace_ = n) && (d.scope = .nil || d.scope = s)) k

/-- The loop of `collectRolesByNamespaceAndScope` (authorize.go:175-189), counted. -/
def collectRolesNSLoopN (w : Mgr) (o : Ord) (site : List Val) (p : Str) (n s : Val) :
    Nat → List Data → Nat → Out ((List Str × List Str) × Nat)
  | _, [], k => .ok (([], []), k)
  | i, t :: ts, k =>
    (w.collectRolesTNSN o (site ++ [.int i]) p t.tenant n s k).bind fun x =>
    (collectRolesNSLoopN w o site p n s (i + 1) ts x.2).map fun y => ((x.1.1 ++ y.1.1, x.1.2 ++ y.1.2), y.2)

/-- `collectRolesByNamespaceAndScope` (authorize.go:174-190), counted. -/
def collectRolesNSN (w : Mgr) (o : Ord) (site : List Val) (p : Str) (n s : Val) (k : Nat) : Out ((List Str × List Str) × Nat) :=
  let x := w.searchN o (site ++ [.int 0]) { principal := .str p } filterTenantsByPrincipal k
  w.collectRolesNSLoopN o (site ++ [.int 1]) p n s 0 x.1 x.2

/-- authorize.go:102-116: one of the `if`s, counted. -/
def pickN (b : Bool) (x : Nat → Out ((List Str × List Str) × Nat)) (old : (List Str × List Str) × Nat) :
    Out ((List Str × List Str) × Nat) :=
  if b then x old.2 else .ok old

/-- `checkActivity` (authorize.go:91-128), counted; its last loop (lines 122-127) does not search. -/
def checkActivityN (w : Mgr) (o : Ord) (fuel : Nat) (site : List Val) (p : Str) (r : Request) (f : Flags) (k : Nat) :
    Out (Bool × Nat) :=
  if r.group = .nil then .ok (false, k)
  else if r.activity = .nil then .ok (false, k)
  else
    (pickN f.t (w.collectRolesN o (site ++ [.int 0]) p r.tenant) (([], []), k)).bind fun x =>
    (pickN f.tn (w.collectRolesTNN o (site ++ [.int 1]) p r.tenant r.namespace_) x).bind fun x =>
    (pickN f.ts (w.collectRolesTSN o (site ++ [.int 2]) p r.tenant r.scope) x).bind fun x =>
    (pickN f.ns (w.collectRolesNSN o (site ++ [.int 3]) p r.namespace_ r.scope) x).bind fun x =>
    (pickN f.tns (w.collectRolesTNSN o (site ++ [.int 4]) p r.tenant r.namespace_ r.scope) x).bind fun x =>
    if x.1.1.length = 0 then .ok (false, x.2)
    else (w.roleLoop o fuel (site ++ [.int 5]) r 0 x.1.2 (slicesCompact x.1.1)).map fun b => (b, x.2)

/-- `authorize` (authorize.go:46-51), counted. -/
def checkN (w : Mgr) (o : Ord) (fuel : Nat) (site : List Val) (p : Str) (r : Request) (f : Flags) (k : Nat) : Out (Bool × Nat) :=
  if f.noActivity then .ok (w.checkNoActivityN o site p r f k)
  else w.checkActivityN o fuel site p r f k

/-- The fallback loop of `Authorize` (authorize.go:34-42), counted. -/
def fallbackN (w : Mgr) (o : Ord) (fuel : Nat) (site : List Val) (p : Str) (f : Flags) :
    Nat → Request → List Str → Nat → Out (Bool × Nat)
  | _, _, [], k => .ok (false, k)
  | i, r, t :: ts, k =>
    if r.tenant = .str t && r.tenant ≠ .nil then fallbackN w o fuel site p f (i + 1) r ts k
    else
      (w.checkN o fuel (site ++ [.int i]) p { r with tenant := .str t } f k).bind fun b =>
      if b.1 then .ok (true, b.2) else fallbackN w o fuel site p f (i + 1) { r with tenant := .str t } ts b.2

/-- `GetImplicitTenants` (query.go:39-62), counted: it searches unless the answer is cached (lines 40-44). -/
def implicitTenantsN (w : Mgr) (o : Ord) (fuel : Nat) (site : List Val) (p : Str) (k : Nat) : Out ((List Str × Mgr) × Nat) :=
  match w.pcache.get p with
  | some I => .ok ((I, w), k)
  | none =>
    let rows := w.searchN o (site ++ [.int 0]) { principal := .str p } filterTenantsByPrincipal k
    (implicitLoop o fuel (site ++ [.int 1]) 0 rows.1 [] w).map fun x =>
      ((x.1, { x.2 with pcache := x.2.pcache.set p x.1 }), rows.2)

/-- `Authorize` (authorize.go:9-44), counted from 0. -/
def authorizeN (w : Mgr) (o : Ord) (fuel : Nat) (site : List Val) (p : Str) (opts : List Opt) : Out ((Bool × Mgr) × Nat) :=
  if (w.principals.get p).isNone then .ok ((false, w), 0)
  else
    let r := opts.foldl Opt.apply {}
    (w.implicitTenantsN o fuel (site ++ [.int 0]) p 0).bind fun x =>
    if x.1.1.length = 0 then .ok ((false, x.1.2), x.2)
    else
      (x.1.2.validateResources r).bind fun v =>
      if !v then .ok ((false, x.1.2), x.2)
      else
        (x.1.2.checkN o fuel (site ++ [.int 1]) p r (flagsOf r) x.2).bind fun b =>
        if b.1 then .ok ((true, x.1.2), b.2)
        else
          (x.1.2.fallbackN o fuel (site ++ [.int 2]) p (flagsOf r) 0 r (o.ord (site ++ [.int 3]) _ x.1.1) b.2).map
            fun b => ((b.1, x.1.2), b.2)

end Mgr
end Verif
