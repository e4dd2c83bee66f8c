import Verif.Model.Trie

/-!
# Model of /repo/filters.go: rows and filter predicates
-/

namespace Verif

/-- `Data` (filters.go:7-14). -/
structure Data where
  tenant : Val := .nil
  namespace_ : Val := .nil
  scope : Val := .nil
  principal : Val := .nil
  role : Val := .nil
  manage : Val := .nil
  deriving DecidableEq, Repr

/-- `DataKeyExtractor` (filters.go:16-28) on a non-nil row; never a nil slice. -/
def dataKeys (d : Data) : Option (List Val) :=
  some [d.tenant, d.namespace_, d.scope, d.principal, d.role, d.manage]

/-- `utils.IsNil` (utils/filters.go:3-5). -/
def isNil (v : Val) : Bool := v = .nil

/-- `MatchTenant` (filters.go:153-158), with `utils.Match` (utils/filters.go:7-9). -/
def matchTenant (row filter : Data) : Bool :=
  if isNil row.tenant then false else decide (row.tenant = filter.tenant)
/-- `MatchNamespace` (filters.go:160-165). -/
def matchNamespace (row filter : Data) : Bool :=
  if isNil row.namespace_ then false else decide (row.namespace_ = filter.namespace_)
/-- `MatchScope` (filters.go:167-172). -/
def matchScope (row filter : Data) : Bool :=
  if isNil row.scope then false else decide (row.scope = filter.scope)
/-- `MatchPrincipal` (filters.go:174-179). -/
def matchPrincipal (row filter : Data) : Bool :=
  if isNil row.principal then false else decide (row.principal = filter.principal)
/-- `MatchRole` (filters.go:181-186). -/
def matchRole (row filter : Data) : Bool :=
  if isNil row.role then false else decide (row.role = filter.role)

/-- `FilterFunc` (filters.go:30-50). -/
def filterFunc (filter row : Data) : Bool :=
  if !isNil filter.tenant && !matchTenant row filter then false
  else if !isNil filter.principal && !matchPrincipal row filter then false
  else if !isNil filter.role && !matchRole row filter then false
  else if !isNil filter.namespace_ && !matchNamespace row filter then false
  else if !isNil filter.scope && !matchScope row filter then false
  else if !isNil filter.manage && decide (filter.manage ≠ row.manage) then false
  else true

/-- `filterTenantsByPrincipal` (filters.go:52-54). -/
def filterTenantsByPrincipal (filter row : Data) : Bool :=
  matchPrincipal row filter && !isNil row.tenant

/-- `filterTenant` (filters.go:56-58). -/
def filterTenant (filter row : Data) : Bool :=
  matchTenant row filter && !isNil row.tenant

/-- `filterScopeByPrincipal` (filters.go:60-62). -/
def filterScopeByPrincipal (filter row : Data) : Bool :=
  matchPrincipal row filter && !isNil row.scope && !isNil row.tenant

/-- `filterRoleByTenant` (filters.go:64-66). -/
def filterRoleByTenant (filter row : Data) : Bool :=
  matchTenant row filter && matchRole row filter

/-- `filterNamespaceByTenant` (filters.go:68-70). -/
def filterNamespaceByTenant (filter row : Data) : Bool :=
  matchTenant row filter && !isNil row.namespace_

/-- `filterScopeByTenant` (filters.go:72-74). -/
def filterScopeByTenant (filter row : Data) : Bool :=
  matchTenant row filter && !isNil row.scope

/-- `filterScopeByTenantAndNamespace` (filters.go:76-78). -/
def filterScopeByTenantAndNamespace (filter row : Data) : Bool :=
  matchTenant row filter && matchNamespace row filter && !isNil row.scope

/-- `filterPrincipalByTenantAndNamespace` (filters.go:80-82). -/
def filterPrincipalByTenantAndNamespace (filter row : Data) : Bool :=
  matchTenant row filter && matchNamespace row filter && matchPrincipal row filter

/-- `filterScopeForPrincipalByTenant` (filters.go:84-89). -/
def filterScopeForPrincipalByTenant (filter row : Data) : Bool :=
  if isNil filter.tenant && isNil filter.principal || isNil row.scope then false
  else matchTenant row filter && (isNil row.principal || matchPrincipal row filter)

/-- `filterScopeForPrincipalByNamespace` (filters.go:91-96). -/
def filterScopeForPrincipalByNamespace (filter row : Data) : Bool :=
  if isNil filter.namespace_ && isNil filter.principal || isNil row.scope then false
  else !isNil row.tenant && (isNil row.principal || matchPrincipal row filter)

/-- `filterScopeForPrincipalByTenantAndNamespace` (filters.go:98-105). -/
def filterScopeForPrincipalByTenantAndNamespace (filter row : Data) : Bool :=
  if isNil filter.tenant && isNil filter.principal && isNil filter.namespace_ || isNil row.scope then false
  else matchTenant row filter && (isNil row.namespace_ && isNil row.principal ||
    matchNamespace row filter && isNil row.principal || matchPrincipal row filter)

/-- `filterRoleForPrincipalByTenantNamespaceAndScope` (filters.go:107-114). -/
def filterRoleForPrincipalByTenantNamespaceAndScope (filter row : Data) : Bool :=
  if isNil filter.tenant && isNil filter.principal && isNil filter.namespace_ && isNil filter.scope ||
      isNil row.role then false
  else (matchTenant row filter && matchPrincipal row filter) ||
    (matchNamespace row filter && matchPrincipal row filter) ||
    (matchScope row filter && matchPrincipal row filter)

/-- `filterRoleForPrincipalByTenantAndNamespace` (filters.go:116-122). -/
def filterRoleForPrincipalByTenantAndNamespace (filter row : Data) : Bool :=
  if isNil filter.tenant && isNil filter.principal && isNil filter.namespace_ || isNil row.role then false
  else (matchTenant row filter && matchPrincipal row filter) || matchNamespace row filter

/-- `filterRoleForPrincipalByTenantAndScope` (filters.go:124-129). -/
def filterRoleForPrincipalByTenantAndScope (filter row : Data) : Bool :=
  if isNil filter.tenant && isNil filter.principal && isNil filter.scope || isNil row.role then false
  else (matchTenant row filter && matchPrincipal row filter) || matchScope row filter

/-- `filterNamespaceForPrincipalByTenant` (filters.go:131-137). -/
def filterNamespaceForPrincipalByTenant (filter row : Data) : Bool :=
  if isNil filter.tenant && isNil filter.principal || isNil row.namespace_ then false
  else matchTenant row filter && (isNil row.principal || matchPrincipal row filter)

/-- `filterPrincipalByTenant` (filters.go:139-144). -/
def filterPrincipalByTenant (filter row : Data) : Bool :=
  if isNil filter.tenant && isNil filter.principal then false
  else matchPrincipal row filter && matchTenant row filter

/-- `filterScopePrincipalByTenant` (filters.go:146-151). -/
def filterScopePrincipalByTenant (filter row : Data) : Bool :=
  if isNil filter.tenant && isNil filter.principal then false
  else matchPrincipal row filter && matchTenant row filter && !isNil row.scope && !isNil row.role

/-- The trie a `RoleManager` creates (role_manager.go:34). -/
def dataTrie : Trie Data := Trie.new filterFunc dataKeys

end Verif
