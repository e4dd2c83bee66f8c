import Verif.Model.V1

/-!
# Model of the bulk registrations, lookups, constructors and summaries
(/repo/tenant.go, namespace.go, scope.go, principal.go, permission.go, activity.go, activity_group.go, role_manager.go,
query.go:70-75, v1/role_manager.go:57-258 and 745-783, v1/permission.go)

Conventions as in `Verif.Model.Manager` and `Verif.Model.V1`.
-/

namespace Verif

/-- `NewAttribute` (permission.go:46-51, v1/permission.go:51-56). -/
def newAttribute (resource action : Str) : Attr := { resource := resource, action := action }

/-- `NewAttributes` (permission.go:39-44, v1/permission.go:44-49). The nil slice is `[]`. -/
def newAttributes (resource : Str) (actions : List Str) : List Attr :=
  actions.foldl (fun attrs action => attrs ++ [newAttribute resource action]) []

/-- One field of a JSON object: `"name":value` for a non-negative integer. -/
def jsonField (e : Str × Nat) : Str := str "\"" ++ e.1 ++ str "\":" ++ str (toString e.2)

/-- `encoding/json` of a struct whose fields are all non-negative integers: names and values in declaration order.
(The standard library is not modelled beyond this case.) -/
def jsonCounts : List (Str × Nat) → Str
  | [] => str "{}"
  | f :: fs =>
    str "{" ++ fs.foldl (fun acc e => acc ++ str "," ++ jsonField e) (jsonField f) ++ str "}"

/-- `Summary` (role_manager.go:153-161, v1/role_manager.go:745-753), fields in declaration order. -/
structure Summary where
  tenants : Nat
  principals : Nat
  namespaces : Nat
  scopes : Nat
  roles : Nat
  attrGroups : Nat
  attrs : Nat
  deriving DecidableEq, Repr

/-- `String` (role_manager.go:187-191, v1/role_manager.go:779-783) of a summary, with the JSON names of
role_manager.go:154-160 and v1/role_manager.go:746-752. -/
def Summary.text (s : Summary) : Str :=
  jsonCounts [(str "tenants", s.tenants), (str "principals", s.principals), (str "namespaces", s.namespaces),
    (str "scopes", s.scopes), (str "roles", s.roles), (str "attribute_groups", s.attrGroups),
    (str "attributes", s.attrs)]

namespace Mgr

/-- `AddTenants` (tenant.go:152-156). -/
def addTenants (w : Mgr) (as : List Nat) : Out Mgr := Out.loop (fun w a => (w.addTenant a).map (·.2)) w as

/-- `AddNamespaces` (namespace.go:25-29). -/
def addNamespaces (w : Mgr) (xs : List (Str × Nat)) : Mgr := xs.foldl (fun w x => (w.addNamespace x.1 x.2).2) w

/-- `AddScopes` (scope.go:25-29). -/
def addScopes (w : Mgr) (xs : List (Str × Nat)) : Mgr := xs.foldl (fun w x => (w.addScope x.1 x.2).2) w

/-- `AddPrincipals` (principal.go:20-24). -/
def addPrincipals (w : Mgr) (xs : List (Str × Nat)) : Mgr := xs.foldl (fun w x => (w.addPrincipal x.1 x.2).2) w

/-- `AddRoles` (permission.go:66-70). -/
def addRoles (w : Mgr) (rs : List Nat) : Out Mgr := Out.loop (fun w r => (w.addRole r).map (·.2)) w rs

/-- `AddAttributes` (activity.go:17-21). -/
def addAttributes (w : Mgr) (xs : List (Attr × Nat)) : Mgr := xs.foldl (fun w x => (w.addAttribute x.1 x.2).2) w

/-- `AddAttributeGroups` (activity_group.go:21-25). -/
def addAttributeGroups (w : Mgr) (gs : List Nat) : Out Mgr :=
  Out.loop (fun w g => (w.addAttributeGroup g).map (·.2)) w gs

/-- `GetTenant` (tenant.go:158-160). -/
def getTenant (w : Mgr) (id : Str) : Option Nat := w.tenants.get id
/-- `GetNamespace` (namespace.go:31-33). -/
def getNamespace (w : Mgr) (id : Str) : Option Nat := w.namespaces.get id
/-- `GetScope` (scope.go:31-33). -/
def getScope (w : Mgr) (id : Str) : Option Nat := w.scopes.get id
/-- `GetPrincipal` (principal.go:26-28). -/
def getPrincipal (w : Mgr) (id : Str) : Option Nat := w.principals.get id
/-- `GetRole` (permission.go:72-74). -/
def getRole (w : Mgr) (id : Str) : Option Nat := w.roles.get id
/-- `GetAttribute` (activity.go:23-25). -/
def getAttribute (w : Mgr) (id : Str) : Option Nat := w.attributes.get id
/-- `GetAttributeGroup` (activity_group.go:27-29). -/
def getAttributeGroup (w : Mgr) (id : Str) : Option Nat := w.attrGroups.get id

/-- `Summary` (role_manager.go:163-173). -/
def summaryOf (w : Mgr) : Summary where
  tenants := w.tenants.length
  namespaces := w.namespaces.length
  scopes := w.scopes.length
  principals := w.principals.length
  roles := w.roles.length
  attrGroups := w.attrGroups.length
  attrs := w.attributes.length

/-- `SummaryMap` (role_manager.go:175-185). -/
def summaryMap (w : Mgr) : GoMap Str Nat :=
  [(str "tenants", w.tenants.length), (str "namespaces", w.namespaces.length), (str "scopes", w.scopes.length),
   (str "principals", w.principals.length), (str "roles", w.roles.length),
   (str "attribute_groups", w.attrGroups.length), (str "attributes", w.attributes.length)]

/-- `GetImplicitScopesByPrincipal` (query.go:70-75): the returned rows, the numbers printed, the new state. The
type assertion panics unless the argument is a string. -/
def implicitScopes (w : Mgr) (o : Ord) (fuel : Nat) (site : List Val) : Val → Out (List Data × List Nat × Mgr)
  | .str p =>
    (w.implicitTenants o fuel (site ++ [.int 0]) p).map fun x =>
      ([], (o.ord (site ++ [.int 1]) _ x.1).map fun t => (x.2.scopesByTenant o (site ++ [.int 2, .str t]) (.str t)).length,
        x.2)
  | _ => .panic

end Mgr

namespace V1

/-- `AddTenants` (v1/role_manager.go:164-168). -/
def addTenants (w : V1) (as : List Nat) : Out V1 := Out.loop (fun w a => (w.addTenant a).map (·.2)) w as

/-- `AddNamespaces` (v1/role_manager.go:190-194). -/
def addNamespaces (w : V1) (as : List Nat) : Out V1 := Out.loop (fun w a => (w.addNamespace a).map (·.2)) w as

/-- `AddScopes` (v1/role_manager.go:242-246). -/
def addScopes (w : V1) (xs : List (Str × Nat)) : V1 := xs.foldl (fun w x => (w.addScope x.1 x.2).2) w

/-- `AddPrincipals` (v1/role_manager.go:216-220). -/
def addPrincipals (w : V1) (xs : List (Str × Nat)) : V1 := xs.foldl (fun w x => (w.addPrincipal x.1 x.2).2) w

/-- `AddRoles` (v1/role_manager.go:137-141). -/
def addRoles (w : V1) (rs : List Nat) : Out V1 := Out.loop (fun w r => (w.addRole r).map (·.2)) w rs

/-- `AddAttributes` (v1/role_manager.go:65-69). -/
def addAttributes (w : V1) (xs : List (Attr × Nat)) : V1 := xs.foldl (fun w x => (w.addAttribute x.1 x.2).2) w

/-- `AddAttributeGroups` (v1/role_manager.go:87-91). -/
def addAttributeGroups (w : V1) (gs : List Nat) : Out V1 :=
  Out.loop (fun w g => (w.addAttributeGroup g).map (·.2)) w gs

/-- `GetTenant` (v1/role_manager.go:170-172). -/
def getTenant (w : V1) (id : Str) : Option Nat := w.tenants.get id
/-- `GetNamespace` (v1/role_manager.go:196-198). -/
def getNamespace (w : V1) (id : Str) : Option Nat := w.namespaces.get id
/-- `GetScope` (v1/role_manager.go:248-250). -/
def getScope (w : V1) (id : Str) : Option Nat := w.scopes.get id
/-- `GetPrincipal` (v1/role_manager.go:222-224). -/
def getPrincipal (w : V1) (id : Str) : Option Nat := w.principals.get id
/-- `GetRole` (v1/role_manager.go:143-145). -/
def getRole (w : V1) (id : Str) : Option Nat := w.roles.get id
/-- `GetAttribute` (v1/role_manager.go:71-73). -/
def getAttribute (w : V1) (id : Str) : Option Nat := w.attrs.get id
/-- `GetAttributeGroup` (v1/role_manager.go:93-95). -/
def getAttributeGroup (w : V1) (id : Str) : Option Nat := w.attrGroups.get id

/-- `Summary` (v1/role_manager.go:755-765). -/
def summaryOf (w : V1) : Summary where
  tenants := w.tenants.length
  namespaces := w.namespaces.length
  scopes := w.scopes.length
  principals := w.principals.length
  roles := w.roles.length
  attrGroups := w.attrGroups.length
  attrs := w.attrs.length

/-- `SummaryMap` (v1/role_manager.go:767-777). -/
def summaryMap (w : V1) : GoMap Str Nat :=
  [(str "tenants", w.tenants.length), (str "namespaces", w.namespaces.length), (str "scopes", w.scopes.length),
   (str "principals", w.principals.length), (str "roles", w.roles.length),
   (str "attribute_groups", w.attrGroups.length), (str "attributes", w.attrs.length)]

end V1
end Verif
