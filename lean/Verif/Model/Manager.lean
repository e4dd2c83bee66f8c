import Verif.Model.Data
import Verif.Model.Role
import Verif.Model.Utils

/-!
# Model of the root package's `RoleManager` and `Tenant`
(/repo/role_manager.go, tenant.go, namespace.go, scope.go, principal.go, permission.go, activity.go,
activity_group.go, query.go, authorize.go, options.go)

One manager.  Tenants, roles and attribute groups are heap objects.  Namespaces, scopes, principals and
attributes are immutable after construction (permission.go:13-22, 46-56; namespace.go:9-15, scope.go:9-15,
principal.go:4-10); a pointer to one is a token (`Nat`) plus its id where the code reads the id.  Nil pointers passed by a caller are not modelled.
-/

namespace Verif

/-- `Tenant` (tenant.go:15-20). `desc` holds heap addresses; `defNs` is the id of `defaultNamespace`;
`managed` says that `manager` is set. -/
structure TenantObj where
  id : Str
  desc : GoMap Str Nat := []
  defNs : Option Str := none
  managed : Bool := false

/-- `RoleManager` (role_manager.go:12-23) and the heap it points into. `pcache` holds the key list of
each cached `map[string]struct{}`. `log` is a ghost: every row ever inserted, oldest first; no
function reads it. -/
structure Mgr where
  tobjs : List TenantObj := []
  heap : RHeap := {}
  tenants : GoMap Str Nat := []
  namespaces : GoMap Str Nat := []
  scopes : GoMap Str Nat := []
  principals : GoMap Str Nat := []
  roles : GoMap Str Nat := []
  attributes : GoMap Str Nat := []
  attrGroups : GoMap Str Nat := []
  trie : Trie Data := dataTrie
  hierarchy : GoMap Str (List Val) := []
  pcache : GoMap Str (List Str) := []
  log : List Data := []

/-- The body shared by AddTenant, AddNamespace, AddScope, AddPrincipal, AddRole, AddAttribute and
AddAttributeGroup (tenant.go:145-149, namespace.go:18-22, scope.go:18-22, principal.go:13-17,
permission.go:59-63, activity.go:10-14, activity_group.go:14-18): keep an existing entry and return it,
otherwise store and return the argument. -/
def register (m : GoMap Str Nat) (id : Str) (obj : Nat) : Nat × GoMap Str Nat :=
  match m.get id with
  | some d => (d, m)
  | none => (obj, m.set id obj)

namespace Mgr

/-- `AddTenant` (tenant.go:143-150): the manager is set on the argument even if it is not stored. -/
def addTenant (w : Mgr) (a : Nat) : Out (Nat × Mgr) :=
  match w.tobjs[a]? with
  | none => .panic
  | some t =>
    let r := register w.tenants t.id a
    .ok (r.1, { w with tobjs := w.tobjs.set a { t with managed := true }, tenants := r.2 })

/-- `NewTenant` (permission.go:7-12). -/
def newTenant (w : Mgr) (id : Str) : Mgr := { w with tobjs := w.tobjs ++ [{ id := id }] }

/-- `AddNamespace` (namespace.go:17-23). -/
def addNamespace (w : Mgr) (id : Str) (obj : Nat) : Nat × Mgr :=
  let r := register w.namespaces id obj
  (r.1, { w with namespaces := r.2 })

/-- `AddScope` (scope.go:17-23). -/
def addScope (w : Mgr) (id : Str) (obj : Nat) : Nat × Mgr :=
  let r := register w.scopes id obj
  (r.1, { w with scopes := r.2 })

/-- `AddPrincipal` (principal.go:12-18). -/
def addPrincipal (w : Mgr) (id : Str) (obj : Nat) : Nat × Mgr :=
  let r := register w.principals id obj
  (r.1, { w with principals := r.2 })

/-- `AddRole` (permission.go:58-64). -/
def addRole (w : Mgr) (r : Nat) : Out (Nat × Mgr) :=
  match w.heap.roles[r]? with
  | none => .panic
  | some ro =>
    let x := register w.roles ro.id r
    .ok (x.1, { w with roles := x.2 })

/-- `AddAttribute` (activity.go:9-15): keyed by the attribute's text. -/
def addAttribute (w : Mgr) (a : Attr) (obj : Nat) : Nat × Mgr :=
  let r := register w.attributes a.toStr obj
  (r.1, { w with attributes := r.2 })

/-- `AddAttributeGroup` (activity_group.go:13-19). -/
def addAttributeGroup (w : Mgr) (ga : Nat) : Out (Nat × Mgr) :=
  match w.heap.groups[ga]? with
  | none => .panic
  | some g =>
    let x := register w.attrGroups g.id ga
    .ok (x.1, { w with attrGroups := x.2 })

/-- `Summary` (role_manager.go:163-173), the counts of `Total*` (role_manager.go:112-122, 137-143,
activity.go:27-29, activity_group.go:31-33), in the order tenants, namespaces, scopes, principals,
roles, attribute groups, attributes. -/
def summary (w : Mgr) : List Nat :=
  [w.tenants.length, w.namespaces.length, w.scopes.length, w.principals.length, w.roles.length,
   w.attrGroups.length, w.attributes.length]

/-- The listings `Attributes` (activity.go:31-37), `Namespaces` (namespace.go:35-41), `Roles` (permission.go:76-82),
`Principals` (principal.go:30-36), `Scopes` (scope.go:35-41) and `Tenants` (tenant.go:162-168), each over its own
registry. The nil slice is `[]`. -/
def listIds (o : Ord) (site : List Val) (m : GoMap Str Nat) : List Str :=
  (o.ord site _ m).foldl (fun data e => data ++ [e.1]) []

/-- `AddData` (role_manager.go:108-110) with a non-nil row. -/
def addData (w : Mgr) (d : Data) : Out Mgr :=
  (w.trie.insert (some d)).map fun t => { w with trie := t, log := w.log ++ [d] }

/-- Run a tenant method that starts by dereferencing `c.manager`. -/
def withTenant {α : Type} (w : Mgr) (c : Nat) (f : TenantObj → Out α) : Out α :=
  match w.tobjs[c]? with
  | none => .panic
  | some t => if t.managed then f t else .panic

/-- `Tenant.AddNamespace` (tenant.go:26-29); `n` is the namespace's id. -/
def tAddNamespace (w : Mgr) (c : Nat) (n : Str) : Out Mgr :=
  w.withTenant c fun t => w.addData { tenant := .str t.id, namespace_ := .str n }

/-- `Tenant.AddScopesToNamespace` (tenant.go:59-61). -/
def tAddScopesToNamespace (w : Mgr) (c : Nat) (n s : Str) : Out Mgr :=
  w.withTenant c fun t => w.addData { tenant := .str t.id, namespace_ := .str n, scope := .str s }

/-- `Tenant.SetDefaultNamespace` (tenant.go:63-67). -/
def tSetDefaultNamespace (w : Mgr) (c : Nat) (n : Str) : Out Mgr :=
  w.withTenant c fun t =>
    if (w.namespaces.get n).isSome then .ok { w with tobjs := w.tobjs.set c { t with defNs := some n } }
    else .ok w

/-- `Tenant.AddPrincipalInNamespace` (tenant.go:69-71). -/
def tAddPrincipalInNamespace (w : Mgr) (c : Nat) (p n r : Str) : Out Mgr :=
  w.withTenant c fun t =>
    w.addData { tenant := .str t.id, namespace_ := .str n, role := .str r, principal := .str p }

/-- `Tenant.AddRole` (tenant.go:73-76); `r` is the role's id. -/
def tAddRole (w : Mgr) (c : Nat) (r : Str) : Out Mgr :=
  w.withTenant c fun t => w.addData { tenant := .str t.id, role := .str r }

/-- `Tenant.AddScope` (tenant.go:84-87); `s` is the scope's id. -/
def tAddScope (w : Mgr) (c : Nat) (s : Str) : Out Mgr :=
  w.withTenant c fun t => w.addData { tenant := .str t.id, scope := .str s }

/-- `Tenant.AddNamespaces` (tenant.go:53-57); the ids of the namespaces. -/
def tAddNamespaces (w : Mgr) (c : Nat) (ns : List Str) : Out Mgr := Out.loop (fun w n => w.tAddNamespace c n) w ns

/-- `Tenant.AddRoles` (tenant.go:78-82); the ids of the roles. -/
def tAddRoles (w : Mgr) (c : Nat) (rs : List Str) : Out Mgr := Out.loop (fun w r => w.tAddRole c r) w rs

/-- `Tenant.AddScopes` (tenant.go:89-93); the ids of the scopes. -/
def tAddScopes (w : Mgr) (c : Nat) (ss : List Str) : Out Mgr := Out.loop (fun w s => w.tAddScope c s) w ss

/-- `Tenant.AddDescendant` (tenant.go:40-51). -/
def tAddDescendant (w : Mgr) (c : Nat) : List Nat → Out Mgr
  | [] => .ok w
  | d :: ds =>
    match w.tobjs[c]?, w.tobjs[d]? with
    | some ct, some dt =>
      let w1 :=
        if (ct.desc.get dt.id).isSome then w
        else { w with tobjs := w.tobjs.set c { ct with desc := ct.desc.set dt.id d } }
      match ct.defNs with
      | none => tAddDescendant w1 c ds
      | some n =>
        (w1.tAddNamespace d n).bind fun w2 =>
        (w2.tSetDefaultNamespace d n).bind fun w3 => tAddDescendant w3 c ds
    | _, _ => .panic

/-- `Tenant.AddPrincipalWithRole` (tenant.go:95-107). -/
def tAddPrincipalWithRole (w : Mgr) (c : Nat) (p r : Str) (manage : Bool) : Out (Option Err × Mgr) :=
  w.withTenant c fun t =>
    if (w.principals.get p).isNone then .ok (some .noPrincipal, w)
    else if (w.roles.get r).isNone then .ok (some .noRole, w)
    else
      (w.addData { tenant := .str t.id, principal := .str p, role := .str r, manage := .bool manage }).bind fun w1 =>
      match t.defNs with
      | none => .ok (none, w1)
      | some n =>
        (w1.addData { tenant := .str t.id, namespace_ := .str n, principal := .str p, role := .str r,
                      manage := .bool manage }).map fun w2 => (none, w2)

/-- `Tenant.AddPrincipal` (tenant.go:109-117). -/
def tAddPrincipal (w : Mgr) (c : Nat) (p : Str) (manage : Bool) : List Str → Out (Option Err × Mgr)
  | [] => .ok (none, w)
  | r :: rs =>
    (w.tAddPrincipalWithRole c p r manage).bind fun x =>
    match x.1 with
    | some e => .ok (some e, x.2)
    | none => tAddPrincipal x.2 c p manage rs

/-- `Tenant.AddScopeToPrincipal` (tenant.go:119-131). -/
def tAddScopeToPrincipal (w : Mgr) (c : Nat) (p s : Str) (manage : Bool) : Out (Option Err × Mgr) :=
  w.withTenant c fun t =>
    if (w.principals.get p).isNone then .ok (some .noPrincipal, w)
    else if (w.scopes.get s).isNone then .ok (some .noScope, w)
    else
      (w.addData { tenant := .str t.id, scope := .str s, principal := .str p, manage := .bool manage }).bind fun w1 =>
      match t.defNs with
      | none => .ok (none, w1)
      | some n =>
        (w1.addData { tenant := .str t.id, namespace_ := .str n, scope := .str s, principal := .str p,
                      manage := .bool manage }).map fun w2 => (none, w2)

/-- `Tenant.AssignScopesToPrincipal` (tenant.go:133-141). -/
def tAssignScopes (w : Mgr) (c : Nat) (p : Str) (manage : Bool) : List Str → Out (Option Err × Mgr)
  | [] => .ok (none, w)
  | s :: ss =>
    (w.tAddScopeToPrincipal c p s manage).bind fun x =>
    match x.1 with
    | some e => .ok (some e, x.2)
    | none => tAssignScopes x.2 c p manage ss

/-- `Tenant.GetDescendants` (tenant.go:31-38); `fuel` bounds the recursion depth. -/
def descendants (w : Mgr) (o : Ord) : Nat → List Val → Nat → Out (List Str)
  | 0, _, _ => .diverge
  | n + 1, site, c =>
    match w.tobjs[c]? with
    | none => .panic
    | some t =>
      Out.collectI (fun i (e : Str × Nat) =>
        (descendants w o n (site ++ [.int i]) e.2).map (fun ds => e.1 :: ds)) 0 (o.ord site _ t.desc)

/-- `TenantChildren` (role_manager.go:124-135): the first call returns the list itself and caches the
compacted one. -/
def tenantChildren (w : Mgr) (o : Ord) (fuel : Nat) (site : List Val) (id : Str) : Out (List Val × Mgr) :=
  match w.hierarchy.get id with
  | some hier => .ok (hier, w)
  | none =>
    match w.tenants.get id with
    | none => .ok ([], w)
    | some c =>
      (w.descendants o fuel site c).map fun ds =>
        (ds.map Val.str, { w with hierarchy := w.hierarchy.set id (compact (ds.map Val.str)) })

/-- `u.search` (query.go:18-20). -/
def search (w : Mgr) (o : Ord) (site : List Val) (filter : Data) (f : Data → Data → Bool) : List Data :=
  w.trie.searchFunc o site filter f

/-- `SearchFuncWrapper` (query.go:10-16). -/
def searchFuncWrapper (w : Mgr) (o : Ord) (site : List Val) (filter : Data) (filterFunc : Data → Data → Bool)
    (extractFunc : Data → Val) : List Val :=
  compact ((w.search o site filter filterFunc).map extractFunc)

/-- `GetTenantsByPrincipal` (query.go:22-24). -/
def tenantsByPrincipal (w : Mgr) (o : Ord) (site : List Val) (p : Val) : List Val :=
  w.searchFuncWrapper o site { principal := p } filterTenantsByPrincipal (·.tenant)

/-- `GetTenants` (query.go:26-29). -/
def getTenants (w : Mgr) (o : Ord) (site : List Val) (p : Val) : List Data :=
  w.search o site { principal := p } filterTenantsByPrincipal

/-- `GetDescendantTenant` (query.go:31-37). -/
def descendantTenant (w : Mgr) (o : Ord) (fuel : Nat) (site : List Val) (desc : Val) : Out (List Val) :=
  match w.tenants.get (toStr desc) with
  | none => .ok []
  | some c => (w.descendants o fuel site c).map (·.map Val.str)

/-- The inner loop of `GetImplicitTenants` (query.go:53-57). -/
def addDescs (E : List Str) : List Val → Out (List Str)
  | [] => .ok E
  | .nil :: rest => addDescs E rest
  | .str s :: rest => addDescs (if s ∈ E then E else E ++ [s]) rest
  | _ :: _ => .panic

/-- The outer loop of `GetImplicitTenants` (query.go:46-59). -/
def implicitLoop (o : Ord) (fuel : Nat) (site : List Val) :
    Nat → List Data → List Str → Mgr → Out (List Str × Mgr)
  | _, [], E, w => .ok (E, w)
  | i, rs :: rest, E, w =>
    match rs.tenant with
    | .str t =>
      if t ∈ E then implicitLoop o fuel site (i + 1) rest E w
      else if rs.manage = .bool true then
        (w.tenantChildren o fuel (site ++ [.int i]) t).bind fun x =>
        (addDescs (E ++ [t]) x.1).bind fun E' => implicitLoop o fuel site (i + 1) rest E' x.2
      else implicitLoop o fuel site (i + 1) rest (E ++ [t]) w
    | _ => .panic

/-- `GetImplicitTenants` (query.go:39-62): the result is the key set of the returned map. -/
def implicitTenants (w : Mgr) (o : Ord) (fuel : Nat) (site : List Val) (p : Str) : Out (List Str × Mgr) :=
  match w.pcache.get p with
  | some I => .ok (I, w)
  | none =>
    (implicitLoop o fuel (site ++ [.int 1]) 0
      (w.search o (site ++ [.int 0]) { principal := .str p } filterTenantsByPrincipal) [] w).map fun x =>
        (x.1, { x.2 with pcache := x.2.pcache.set p x.1 })

/-- `GetScopesByPrincipal` (query.go:64-67). -/
def scopesByPrincipal (w : Mgr) (o : Ord) (site : List Val) (p : Val) : List Data :=
  w.search o site { principal := p } filterScopeByPrincipal

/-- `GetRolesByTenant` (query.go:77-80): the filter row has no role. -/
def rolesByTenant (w : Mgr) (o : Ord) (site : List Val) (t : Val) : List Data :=
  w.search o site { tenant := t } filterRoleByTenant

/-- `GetNamespacesForPrincipalByTenant`, `GetNamespaceForPrincipalByTenant`
(query.go:90-93, 139-141; same body). -/
def namespacesForPrincipalByTenant (w : Mgr) (o : Ord) (site : List Val) (p t : Val) : List Data :=
  w.search o site { tenant := t, principal := p } filterNamespaceForPrincipalByTenant

/-- A Go loop appending the results of one call per element. -/
def concatI {α : Type} (f : Nat → α → List Data) : Nat → List α → List Data
  | _, [] => []
  | i, x :: xs => f i x ++ concatI f (i + 1) xs

/-- `GetNamespacesByPrincipal` (query.go:82-88). -/
def namespacesByPrincipal (w : Mgr) (o : Ord) (site : List Val) (p : Val) : List Data :=
  concatI (fun i t => w.namespacesForPrincipalByTenant o (site ++ [.int 1, .int i]) p t) 0
    (w.tenantsByPrincipal o (site ++ [.int 0]) p)

/-- `GetNamespacesByTenant`, `GetNamespaceByTenant` (query.go:95-98, 135-137). -/
def namespacesByTenant (w : Mgr) (o : Ord) (site : List Val) (t : Val) : List Data :=
  w.search o site { tenant := t } filterNamespaceByTenant

/-- `GetScopesByTenant` (query.go:100-103). -/
def scopesByTenant (w : Mgr) (o : Ord) (site : List Val) (t : Val) : List Data :=
  w.search o site { tenant := t } filterScopeByTenant

/-- `GetScopesForPrincipalByTenant` (query.go:105-108). -/
def scopesForPrincipalByTenant (w : Mgr) (o : Ord) (site : List Val) (p t : Val) : List Data :=
  w.search o site { tenant := t, principal := p } filterScopeForPrincipalByTenant

/-- `GetScopesForPrincipalByTenantAndNamespace` (query.go:119-121). -/
def scopesForPrincipalByTenantAndNamespace (w : Mgr) (o : Ord) (site : List Val) (p t n : Val) : List Data :=
  w.search o site { principal := p, tenant := t, namespace_ := n } filterScopeForPrincipalByTenantAndNamespace

/-- `GetScopeForPrincipalByNamespace` (query.go:110-117). -/
def scopeForPrincipalByNamespace (w : Mgr) (o : Ord) (site : List Val) (p n : Val) : List Data :=
  concatI (fun i t => w.search o (site ++ [.int 1, .int i]) { principal := p, tenant := t, namespace_ := n }
      filterScopeForPrincipalByTenantAndNamespace) 0
    (w.tenantsByPrincipal o (site ++ [.int 0]) p)

/-- `GetRolesForPrincipalByTenantNamespaceAndScope` (query.go:123-125). -/
def rolesForPrincipalTNS (w : Mgr) (o : Ord) (site : List Val) (p t n s : Val) : List Data :=
  w.search o site { principal := p, tenant := t, namespace_ := n, scope := s }
    filterRoleForPrincipalByTenantNamespaceAndScope

/-- `GetRolesForPrincipalByTenantAndNamespace` (query.go:127-129). -/
def rolesForPrincipalTN (w : Mgr) (o : Ord) (site : List Val) (p t n : Val) : List Data :=
  w.search o site { principal := p, tenant := t, namespace_ := n } filterRoleForPrincipalByTenantAndNamespace

/-- `GetRolesForPrincipalByTenantAndScope` (query.go:131-133). -/
def rolesForPrincipalTS (w : Mgr) (o : Ord) (site : List Val) (p t s : Val) : List Data :=
  w.search o site { principal := p, tenant := t, scope := s } filterRoleForPrincipalByTenantAndScope

end Mgr

/-- The loop shared by `GetTenantIDs`, `GetPrincipalIDs`, `GetRoleIDs`, `GetNamespaceIDs`, `GetScopeIDs`
(role_manager.go:48-106): first occurrences, in order. -/
def getIDs (field : Data → Val) (seen data : List Val) : List Data → List Val
  | [] => data
  | r :: rs =>
    if field r ∈ seen then getIDs field seen data rs
    else getIDs field (field r :: seen) (data ++ [field r]) rs

/-- `Option` (options.go:3-9). -/
structure Request where
  tenant : Val := .nil
  namespace_ : Val := .nil
  scope : Val := .nil
  group : Val := .nil
  activity : Val := .nil
  deriving DecidableEq, Repr

/-- The option constructors `WithTenant`, `WithNamespace`, `WithScope`, `WithAttributeGroup`,
`WithActivity` (tenant.go:9-13, namespace.go:3-7, scope.go:3-7, activity_group.go:7-11,
activity.go:3-7). The fields of `Option` are unexported, so callers have no other options. -/
inductive Opt where
  | tenant (v : Val) | namespace_ (v : Val) | scope (v : Val) | group (v : Val) | activity (v : Val)
  deriving DecidableEq, Repr

def Opt.apply (r : Request) : Opt → Request
  | .tenant v => { r with tenant := v }
  | .namespace_ v => { r with namespace_ := v }
  | .scope v => { r with scope := v }
  | .group v => { r with group := v }
  | .activity v => { r with activity := v }

/-- The booleans of `Authorize` (authorize.go:25-30). -/
structure Flags where
  noActivity : Bool
  t : Bool
  tn : Bool
  ts : Bool
  tns : Bool
  ns : Bool

/-- authorize.go:25-30. -/
def flagsOf (r : Request) : Flags where
  noActivity := !(r.group ≠ .nil && r.activity ≠ .nil)
  t := r.tenant ≠ .nil && r.namespace_ = .nil && r.scope = .nil
  tn := r.tenant ≠ .nil && r.namespace_ ≠ .nil && r.scope = .nil
  ts := r.tenant ≠ .nil && r.namespace_ = .nil && r.scope ≠ .nil
  tns := r.tenant ≠ .nil && r.namespace_ ≠ .nil && r.scope ≠ .nil
  ns := r.tenant = .nil && r.namespace_ ≠ .nil && r.scope ≠ .nil

/-- `slices.Compact` of the Go standard library on strings: drops adjacent repetitions. -/
def slicesCompact : List Str → List Str
  | [] => []
  | [x] => [x]
  | x :: y :: rest => if x = y then slicesCompact (y :: rest) else x :: slicesCompact (y :: rest)

/-- What the argument slice of `slices.Compact` holds afterwards: the kept elements, then zero values
(the standard library clears the tail since Go 1.22, the version go.mod requires). -/
def slicesCompactRest (l : List Str) : List Str :=
  slicesCompact l ++ List.replicate (l.length - (slicesCompact l).length) []

namespace Mgr

/-- One registry check of `validateResources` (authorize.go:54-58, 59-63, 64-68). -/
def validOne (m : GoMap Str Nat) (v : Val) : Out Bool :=
  match v with
  | .nil => .ok true
  | .str s => .ok (m.get s).isSome
  | _ => .panic

/-- `validateResources` (authorize.go:53-70). -/
def validateResources (w : Mgr) (r : Request) : Out Bool :=
  (validOne w.tenants r.tenant).bind fun a =>
  if a then
    (validOne w.namespaces r.namespace_).bind fun b =>
    if b then validOne w.scopes r.scope else .ok false
  else .ok false

/-- `checkNoActivity` (authorize.go:72-89). -/
def checkNoActivity (w : Mgr) (o : Ord) (site : List Val) (p : Str) (r : Request) (f : Flags) : Bool :=
  if f.t then contains r.tenant (w.tenantsByPrincipal o site (.str p))
  else if f.tn then
    contains r.namespace_ (getIDs (·.namespace_) [] [] (w.namespacesForPrincipalByTenant o site (.str p) r.tenant))
  else if f.ts then
    contains r.scope (getIDs (·.scope) [] [] (w.scopesForPrincipalByTenant o site (.str p) r.tenant))
  else if f.ns then
    contains r.scope (getIDs (·.scope) [] [] (w.scopeForPrincipalByNamespace o site (.str p) r.namespace_))
  else if f.tns then
    contains r.scope (getIDs (·.scope) [] []
      (w.scopesForPrincipalByTenantAndNamespace o site (.str p) r.tenant r.namespace_))
  else false

/-- The loops of the `collectRoles*` functions: append `d.Role.(string)` of the rows that pass the
`if`s (authorize.go:131-138, 143-147, 148-154, ...). -/
def appendRoles (keep : Data → Bool) : List Data → Out (List Str)
  | [] => .ok []
  | d :: ds =>
    if keep d && d.role ≠ .nil then
      match d.role with
      | .str s => (appendRoles keep ds).map (s :: ·)
      | _ => .panic
    else appendRoles keep ds

/-- `collectRoles` (authorize.go:130-140): roles and allowed roles. -/
def collectRoles (w : Mgr) (o : Ord) (site : List Val) (p : Str) (t : Val) : Out (List Str × List Str) :=
  let rows := w.rolesByTenant o (site ++ [.int 0]) t
  (appendRoles (fun d => d.principal = .str p) rows).bind fun roles =>
  (appendRoles (fun _ => true) rows).map fun allowed => (roles, allowed)

/-- `collectRolesByTenantAndNamespace` (authorize.go:142-156). -/
def collectRolesTN (w : Mgr) (o : Ord) (site : List Val) (p : Str) (t n : Val) : Out (List Str × List Str) :=
  (appendRoles (fun _ => true) (w.rolesByTenant o (site ++ [.int 0]) t)).bind fun allowed =>
  (appendRoles (fun d => d.namespace_ = .nil || d.namespace_ = n)
    (w.rolesForPrincipalTN o (site ++ [.int 1]) (.str p) t n)).map fun roles => (roles, allowed)

/-- `collectRolesByTenantAndScope` (authorize.go:158-172). -/
def collectRolesTS (w : Mgr) (o : Ord) (site : List Val) (p : Str) (t s : Val) : Out (List Str × List Str) :=
  (appendRoles (fun _ => true) (w.rolesByTenant o (site ++ [.int 0]) t)).bind fun allowed =>
  (appendRoles (fun d => d.scope = .nil || d.scope = s)
    (w.rolesForPrincipalTS o (site ++ [.int 1]) (.str p) t s)).map fun roles => (roles, allowed)

/-- `collectRolesByTenantNamespaceAndScope` (authorize.go:192-206). -/
def collectRolesTNS (w : Mgr) (o : Ord) (site : List Val) (p : Str) (t n s : Val) : Out (List Str × List Str) :=
  (appendRoles (fun _ => true) (w.rolesByTenant o (site ++ [.int 0]) t)).bind fun allowed =>
  (appendRoles (fun d => (d.namespace_ = .nil || d.namespace_ = n) && (d.scope = .nil || d.scope = s))
    (w.rolesForPrincipalTNS o (site ++ [.int 1]) (.str p) t n s)).map fun roles => (roles, allowed)

/-- The loop of `collectRolesByNamespaceAndScope` (authorize.go:175-189): its body is the body of
`collectRolesByTenantNamespaceAndScope` with the tenant of the visited row. -/
def collectRolesNSLoop (w : Mgr) (o : Ord) (site : List Val) (p : Str) (n s : Val) :
    Nat → List Data → Out (List Str × List Str)
  | _, [] => .ok ([], [])
  | i, t :: ts =>
    (w.collectRolesTNS o (site ++ [.int i]) p t.tenant n s).bind fun x =>
    (collectRolesNSLoop w o site p n s (i + 1) ts).map fun y => (x.1 ++ y.1, x.2 ++ y.2)

/-- `collectRolesByNamespaceAndScope` (authorize.go:174-190). -/
def collectRolesNS (w : Mgr) (o : Ord) (site : List Val) (p : Str) (n s : Val) : Out (List Str × List Str) :=
  w.collectRolesNSLoop o (site ++ [.int 1]) p n s 0 (w.getTenants o (site ++ [.int 0]) (.str p))

/-- The final loop of `checkActivity` (authorize.go:122-127). `allowed` is the current content of the
`allowedRoles` slice, which every `slices.Compact` call rewrites in place. -/
def roleLoop (w : Mgr) (o : Ord) (fuel : Nat) (site : List Val) (r : Request) :
    Nat → List Str → List Str → Out Bool
  | _, _, [] => .ok false
  | i, allowed, role :: rest =>
    match w.roles.get role with
    | none => roleLoop w o fuel site r (i + 1) allowed rest
    | some a =>
      match r.group, r.activity with
      | .str g, .str act =>
        (w.heap.has o g act (slicesCompact allowed) fuel (site ++ [.int i]) a).bind fun b =>
        if b then .ok true
        else roleLoop w o fuel site r (i + 1) (slicesCompactRest allowed) rest
      | _, _ => .panic

/-- `x` if the flag is set, else keep the old value (the chain of `if`s, authorize.go:102-116). -/
def pick (b : Bool) (x : Out (List Str × List Str)) (old : List Str × List Str) : Out (List Str × List Str) :=
  if b then x else .ok old

/-- `checkActivity` (authorize.go:91-128). -/
def checkActivity (w : Mgr) (o : Ord) (fuel : Nat) (site : List Val) (p : Str) (r : Request) (f : Flags) :
    Out Bool :=
  if r.group = .nil then .ok false
  else if r.activity = .nil then .ok false
  else
    (pick f.t (w.collectRoles o (site ++ [.int 0]) p r.tenant) ([], [])).bind fun x =>
    (pick f.tn (w.collectRolesTN o (site ++ [.int 1]) p r.tenant r.namespace_) x).bind fun x =>
    (pick f.ts (w.collectRolesTS o (site ++ [.int 2]) p r.tenant r.scope) x).bind fun x =>
    (pick f.ns (w.collectRolesNS o (site ++ [.int 3]) p r.namespace_ r.scope) x).bind fun x =>
    (pick f.tns (w.collectRolesTNS o (site ++ [.int 4]) p r.tenant r.namespace_ r.scope) x).bind fun x =>
    if x.1.length = 0 then .ok false
    else w.roleLoop o fuel (site ++ [.int 5]) r 0 x.2 (slicesCompact x.1)

/-- `authorize` (authorize.go:46-51). -/
def check (w : Mgr) (o : Ord) (fuel : Nat) (site : List Val) (p : Str) (r : Request) (f : Flags) : Out Bool :=
  if f.noActivity then .ok (w.checkNoActivity o site p r f)
  else w.checkActivity o fuel site p r f

/-- The fallback loop of `Authorize` (authorize.go:34-42): the request's tenant is overwritten. -/
def fallback (w : Mgr) (o : Ord) (fuel : Nat) (site : List Val) (p : Str) (f : Flags) :
    Nat → Request → List Str → Out Bool
  | _, _, [] => .ok false
  | i, r, t :: ts =>
    if r.tenant = .str t && r.tenant ≠ .nil then fallback w o fuel site p f (i + 1) r ts
    else
      (w.check o fuel (site ++ [.int i]) p { r with tenant := .str t } f).bind fun b =>
      if b then .ok true else fallback w o fuel site p f (i + 1) { r with tenant := .str t } ts

/-- `Authorize` (authorize.go:9-44). -/
def authorize (w : Mgr) (o : Ord) (fuel : Nat) (site : List Val) (p : Str) (opts : List Opt) : Out (Bool × Mgr) :=
  if (w.principals.get p).isNone then .ok (false, w)
  else
    let r := opts.foldl Opt.apply {}
    (w.implicitTenants o fuel (site ++ [.int 0]) p).bind fun x =>
    if x.1.length = 0 then .ok (false, x.2)
    else
      (x.2.validateResources r).bind fun v =>
      if !v then .ok (false, x.2)
      else
        (x.2.check o fuel (site ++ [.int 1]) p r (flagsOf r)).bind fun b =>
        if b then .ok (true, x.2)
        else
          (x.2.fallback o fuel (site ++ [.int 2]) p (flagsOf r) 0 r (o.ord (site ++ [.int 3]) _ x.1)).map
            fun b => (b, x.2)

end Mgr
end Verif
