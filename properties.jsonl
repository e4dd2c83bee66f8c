{"id": "C01", "title": "Literal permissions match only themselves", "statement": "For a pattern with no '*' and no ':' byte, MatchResource(value, pattern) returns, and returns true exactly when value equals pattern byte for byte.", "quantifier": "every value string and every wildcard-free pattern", "why_tests_cant": "The input space is infinite; a finite table of examples cannot exclude one bad input.", "anchors": ["utils/str.go: MatchResource"]}
{"id": "C02", "title": "Parameter patterns match exactly the documented language", "statement": "For a pattern with no '*', MatchResource returns and answers true exactly when value can be split along the pattern: literal bytes match themselves, and each ':name' (up to the next '/') matches one arbitrary byte followed by bytes other than '/'.", "quantifier": "every value and every '*'-free pattern", "why_tests_cant": "The input space is infinite; a finite table of examples cannot exclude one bad input.", "anchors": ["utils/str.go: MatchResource"]}
{"id": "C03", "title": "MatchResource terminates", "statement": "MatchResource returns for every value and pattern. (Violated: a '*' followed later by a non-'*' byte that still occurs in the rest of the value loops for ever; the exact set of diverging inputs, and of patterns that diverge on some input, is characterised.)", "quantifier": "every value and every pattern", "why_tests_cant": "Non-termination is not observable by a finite run; and the set of bad inputs is infinite.", "anchors": ["utils/str.go: MatchResource"]}
{"id": "C04", "title": "Trailing star is prefix matching", "statement": "A pattern consisting of a wildcard-free literal prefix followed by one or more '*' matches exactly the values that start with that prefix.", "quantifier": "every literal prefix, number of trailing stars and value", "why_tests_cant": "The input space is infinite; a finite table of examples cannot exclude one bad input.", "anchors": ["utils/str.go: MatchResource"]}
{"id": "C05", "title": "A granted permission is granted for its action only", "statement": "If a permission (resource, action) matches a request (resource', action') then the actions agree. (Violated when the last path segment of the resource has a ':param', because the parameter name swallows ' ACTION'; proved that this is the only case.)", "quantifier": "every permission and request", "why_tests_cant": "The input space is infinite; a finite table of examples cannot exclude one bad input.", "anchors": ["utils/str.go: MatchResource", "role.go: Attribute.String", "v2/v2.go: matchPermission"]}
{"id": "C06", "title": "A parameter stands for one path segment", "statement": "In a '*'-free pattern whose parameters each follow a '/', a matching value with no empty path segment has exactly as many '/'-separated segments as the pattern. (Without the no-empty-segment condition a parameter can swallow a '/'.)", "quantifier": "every '*'-free pattern and every value", "why_tests_cant": "The input space is infinite; a finite table of examples cannot exclude one bad input.", "anchors": ["utils/str.go: MatchResource"]}
{"id": "C07", "title": "Search returns exactly the surviving rows, once each", "statement": "After any sequence of Insert calls on a fresh Trie, SearchFunc(filter, cb) returns, in some order, each row that satisfies cb and was not overwritten by a later row with the same sequence of non-nil keys, exactly once, and nothing else.", "quantifier": "every insertion history, filter, callback and child iteration order", "why_tests_cant": "It must hold after every history of API calls; tests run a few scripted ones. Go map iteration order is unspecified and may change on every run; a test sees a few orders only.", "anchors": ["trie/trie.go: Insert, search, SearchFunc, Search, Data"]}
{"id": "C08", "title": "First finds a match iff there is one", "statement": "First/FirstFunc returns a row iff Search with the same arguments would return at least one, and the row it returns is one of those.", "quantifier": "every insertion history, filter, callback and iteration order", "why_tests_cant": "It must hold after every history of API calls; tests run a few scripted ones. Go map iteration order is unspecified and may change on every run; a test sees a few orders only.", "anchors": ["trie/trie.go: first, First, FirstFunc"]}
{"id": "C09", "title": "Inserted rows are not lost", "statement": "A row stays retrievable after later insertions of different rows. (Violated: nil fields are dropped from the key, so e.g. a namespace row and a scope row of one tenant with equal ids overwrite each other; the exact collision condition is proved, and no loss is proved when ids of different kinds are disjoint.)", "quantifier": "every pair of rows and every insertion history", "why_tests_cant": "It must hold after every history of API calls; tests run a few scripted ones.", "anchors": ["trie/trie.go: Insert", "filters.go: DataKeyExtractor", "tenant.go: AddNamespace, AddScope"]}
{"id": "C10", "title": "Insertion order of rows with different keys is irrelevant", "statement": "Two insertion histories that are permutations of each other, with pairwise different non-nil key sequences, answer every search with the same multiset of rows; re-inserting an already stored row changes nothing.", "quantifier": "every history, permutation, filter and iteration order", "why_tests_cant": "It must hold after every history of API calls; tests run a few scripted ones. Go map iteration order is unspecified and may change on every run; a test sees a few orders only.", "anchors": ["trie/trie.go: Insert, search"]}
{"id": "C11", "title": "Default search filters by the non-nil fields", "statement": "Search with the package's FilterFunc returns exactly the stored rows that agree with the filter on every field the filter sets (tenant, principal, role, namespace, scope, manage flag).", "quantifier": "every stored row set and filter", "why_tests_cant": "The input space is infinite; a finite table of examples cannot exclude one bad input.", "anchors": ["filters.go: FilterFunc, MatchTenant, MatchNamespace, MatchScope, MatchPrincipal, MatchRole", "trie/trie.go: Search"]}
{"id": "C12", "title": "Compact removes duplicates and nothing else", "statement": "utils.Compact returns a list without duplicates, with the same elements, in order of first occurrence; a second application changes nothing.", "quantifier": "every slice", "why_tests_cant": "The input space is infinite; a finite table of examples cannot exclude one bad input.", "anchors": ["utils/str.go: Compact"]}
{"id": "C13", "title": "JoinSlices is the relational join", "statement": "JoinSlices(left, right, on, combine) returns combine(l, r) for exactly the pairs satisfying on, in left-major order, with multiplicity.", "quantifier": "every pair of slices, join predicate and combiner", "why_tests_cant": "The input space is infinite; a finite table of examples cannot exclude one bad input.", "anchors": ["utils/filters.go: JoinSlices"]}
{"id": "C14", "title": "Intersection and Union are set operations up to serialisation", "statement": "Intersection keeps exactly the elements of b whose serialisation occurs in a; Union is a followed by the elements of b whose serialisation does not occur in a. They agree with set operations iff the serialisation separates the elements; the serialisation of structs is not injective.", "quantifier": "every pair of slices and every struct value", "why_tests_cant": "The input space is infinite; a finite table of examples cannot exclude one bad input.", "anchors": ["utils/str.go: Intersection, Union, Serialize"]}
{"id": "C15", "title": "ds.Link is a list", "statement": "Any value built with Empty, Append and Concat has AsSlice equal to the same construction on slices, and IsEmpty is true exactly when AsSlice is empty.", "quantifier": "every finite construction sequence", "why_tests_cant": "The input space is infinite; a finite table of examples cannot exclude one bad input.", "anchors": ["ds/ds.go"]}
{"id": "C16", "title": "Role.Has decides inherited permission", "statement": "When Role.Has(group, activity, allowed...) returns, its answer is: the role has the group, and the activity is listed in or matched by that group in the role itself or in some transitive descendant that has the group and (if allowed is non-empty) whose id is allowed.", "quantifier": "every role graph, group, activity, allow-list and map iteration order", "why_tests_cant": "Go map iteration order is unspecified and may change on every run; a test sees a few orders only. Role graphs are unbounded.", "anchors": ["role.go: Has, GetDescendantRoles", "v1/role.go: Has, GetDescendantRoles"]}
{"id": "C17", "title": "Role.Has terminates on role hierarchies", "statement": "Role.Has returns whenever the descendant graph below the role has no infinite chain and no stored pattern diverges on the activity; with a cycle below the role the descendant walk never returns, and AddDescendant accepts cycles.", "quantifier": "every role graph", "why_tests_cant": "Unbounded recursion depth cannot be tested; a cyclic graph crashes the test process.", "anchors": ["role.go: Has, GetDescendantRoles, AddDescendant", "v1/role.go"]}
{"id": "C18", "title": "Listed implicit permissions are usable", "statement": "Every permission listed by GetAllImplicitPermissions is granted by Has. (Violated: Has denies inherited permissions when the role itself lacks the group; proved when the role has the group; the listing is characterised exactly.)", "quantifier": "every role graph and group", "why_tests_cant": "Go map iteration order is unspecified and may change on every run; a test sees a few orders only.", "anchors": ["role.go: GetAllImplicitPermissions, GetPermissions, GetResourceGroupPermissions, Has", "v1/role.go"]}
{"id": "C19", "title": "A locked role rejects changes", "statement": "On a locked role AddPermission, AddPermissionResourceGroup and AddDescendant return an error and change nothing at all; on an unlocked role they never fail.", "quantifier": "every state and every argument list", "why_tests_cant": "It must hold after every history of API calls; tests run a few scripted ones.", "anchors": ["role.go: Lock, Unlock, AddDescendant, AddPermission, AddPermissionResourceGroup", "v1/role.go"]}
{"id": "C20", "title": "A locked role's permissions stay fixed", "statement": "No API call on other objects changes what a locked role grants. (Violated: a shared attribute group can be extended through another role or through AddAttributes; proved for roles whose groups are not shared.)", "quantifier": "every state and every call", "why_tests_cant": "It must hold after every history of API calls; tests run a few scripted ones.", "anchors": ["role.go: AddPermission, AddPermissionResourceGroup, AddAttributes"]}
{"id": "C21", "title": "AddPermissionsToRole is checked and atomic", "statement": "AddPermissionsToRole fails and changes nothing when the role or the group is unknown, an attribute is not in the group, or the role is locked; otherwise the role afterwards holds every given attribute under that group.", "quantifier": "every manager state and argument list", "why_tests_cant": "It must hold after every history of API calls; tests run a few scripted ones.", "anchors": ["role.go: AddPermissionsToRole, AddPermission", "v1/role_manager.go: AddPermissionsToRole"]}
{"id": "C22", "title": "Registration is first-wins and idempotent", "statement": "AddTenant/AddNamespace/AddScope/AddPrincipal/AddRole/AddAttribute/AddAttributeGroup keep the first object registered under an id, return the stored one, never forget an id, and the Total*/Summary counts equal the number of distinct ids registered.", "quantifier": "every history of registrations", "why_tests_cant": "It must hold after every history of API calls; tests run a few scripted ones.", "anchors": ["principal.go", "namespace.go", "scope.go", "tenant.go: AddTenant", "permission.go: AddRole", "activity.go", "activity_group.go", "role_manager.go: Summary"]}
{"id": "C23", "title": "GetDescendants lists the tenant subtree", "statement": "When GetDescendants returns, it lists exactly the ids reachable through one or more descendant links; it returns iff no infinite chain of links starts at the tenant.", "quantifier": "every tenant graph and iteration order", "why_tests_cant": "Go map iteration order is unspecified and may change on every run; a test sees a few orders only.", "anchors": ["tenant.go: GetDescendants, AddDescendant", "v1/tenant.go: GetDescendantTenants"]}
{"id": "C24", "title": "GetImplicitTenants is sound", "statement": "A freshly computed GetImplicitTenants(p) contains only tenants in which p has a row, or descendants of a tenant in which p has a row with ManageDescendants=true, and contains every tenant in which p has a row.", "quantifier": "every state and iteration order", "why_tests_cant": "Go map iteration order is unspecified and may change on every run; a test sees a few orders only.", "anchors": ["query.go: GetImplicitTenants", "role_manager.go: TenantChildren"]}
{"id": "C25", "title": "GetImplicitTenants does not depend on map order", "statement": "Descendants of a tenant that p manages are always included. (Violated: only the first visited row of a tenant decides; two orders give different answers, and Authorize differs with them. Proved when all rows of p in one tenant carry the same flag.)", "quantifier": "every state and iteration order", "why_tests_cant": "Go map iteration order is unspecified and may change on every run; a test sees a few orders only.", "anchors": ["query.go: GetImplicitTenants"]}
{"id": "C26", "title": "Authorize denies the unknown", "statement": "Authorize returns false for an unregistered principal, and never returns true when the request names an unregistered tenant, namespace or scope, or the principal has no tenant.", "quantifier": "every state, request and iteration order", "why_tests_cant": "It must hold after every history of API calls; tests run a few scripted ones.", "anchors": ["authorize.go: Authorize, validateResources"]}
{"id": "C27", "title": "Authorize without activity: exact decision", "statement": "When Authorize is called without a complete (group, activity) pair and returns, the answer is true exactly when the principal is known and has an implicit tenant, the named resources exist and, in the requested tenant or in one of the implicit tenants, a stored row grants the requested tenant / namespace / scope combination.", "quantifier": "every state, request and iteration order", "why_tests_cant": "It must hold after every history of API calls; tests run a few scripted ones. Go map iteration order is unspecified and may change on every run; a test sees a few orders only.", "anchors": ["authorize.go: Authorize, checkNoActivity", "query.go", "filters.go"]}
{"id": "C28", "title": "Authorize with activity: exact decision", "statement": "When Authorize is called with group and activity and returns, the answer is true exactly when additionally a role selected by the stored rows for the tenant/namespace/scope combination is registered and grants the activity.", "quantifier": "every state, request and iteration order", "why_tests_cant": "It must hold after every history of API calls; tests run a few scripted ones. Go map iteration order is unspecified and may change on every run; a test sees a few orders only.", "anchors": ["authorize.go: checkActivity, collectRoles*", "query.go", "filters.go"]}
{"id": "C29", "title": "Tenant isolation", "statement": "Authorize for tenant T answers true only if the principal has a grant in T or in a managing ancestor. (Violated: every other tenant of the principal is tried as a fallback; a tenant-only request is granted for any registered tenant to any principal with some tenant.)", "quantifier": "every state and request", "why_tests_cant": "It must hold after every history of API calls; tests run a few scripted ones.", "anchors": ["authorize.go: Authorize"]}
{"id": "C30", "title": "Role grants work for tenant-wide activity requests", "statement": "A principal with a role in a tenant is granted that role's activities for a tenant-only request. (Violated: GetRolesByTenant always returns nothing, so tenant + activity without namespace or scope is always denied.)", "quantifier": "every state and request", "why_tests_cant": "It must hold after every history of API calls; tests run a few scripted ones.", "anchors": ["query.go: GetRolesByTenant", "filters.go: filterRoleByTenant", "authorize.go: collectRoles"]}
{"id": "C31", "title": "Roles are not borrowed from other principals", "statement": "An activity is granted only through roles held by the requesting principal. (Violated for tenant+namespace and tenant+scope requests; proved for tenant+namespace+scope and namespace+scope requests.)", "quantifier": "every state and request", "why_tests_cant": "It must hold after every history of API calls; tests run a few scripted ones.", "anchors": ["filters.go: filterRoleForPrincipalByTenantAndNamespace, filterRoleForPrincipalByTenantAndScope", "authorize.go"]}
{"id": "C32", "title": "A grant takes effect", "statement": "After AddPrincipalWithRole succeeds, a tenant request for that tenant is authorized. (Violated: a call made before the first grant caches an empty tenant set for ever and every later request of that principal is denied; proved when nothing was cached or the cached set is non-empty.)", "quantifier": "every history", "why_tests_cant": "It must hold after every history of API calls; tests run a few scripted ones.", "anchors": ["query.go: GetImplicitTenants", "tenant.go: AddPrincipalWithRole", "authorize.go"]}
{"id": "C33", "title": "Authorize is repeatable and only writes caches", "statement": "Authorize changes nothing but the two internal caches, and two Authorize calls with the same arguments and no call in between give the same answer whenever both return, whatever the iteration orders.", "quantifier": "every state, request and pair of iteration orders", "why_tests_cant": "Go map iteration order is unspecified and may change on every run; a test sees a few orders only.", "anchors": ["authorize.go", "query.go: GetImplicitTenants", "role_manager.go: TenantChildren"]}
{"id": "C34", "title": "Incomplete requests are denied", "statement": "Requests naming only a namespace, only a scope, or nothing are never authorized.", "quantifier": "every state and request of that shape", "why_tests_cant": "It must hold after every history of API calls; tests run a few scripted ones.", "anchors": ["authorize.go: Authorize, checkNoActivity, checkActivity"]}
{"id": "C35", "title": "Grant calls validate and roll forward predictably", "statement": "AddPrincipalWithRole / AddScopeToPrincipal fail without effect for unknown principal, role or scope; AddPrincipal and AssignScopesToPrincipal apply exactly the prefix before the first unknown id.", "quantifier": "every state and argument list", "why_tests_cant": "It must hold after every history of API calls; tests run a few scripted ones.", "anchors": ["tenant.go: AddPrincipalWithRole, AddPrincipal, AddScopeToPrincipal, AssignScopesToPrincipal"]}
{"id": "C36", "title": "v1: stored assignments decode to what was stored", "statement": "getTenantPrincipals(hash) returns the stored principal, role, tenant, namespace, scope and flag whenever none of the ids contains '_'. (Otherwise an assignment decodes to a different principal/role; shown.)", "quantifier": "every id and flag", "why_tests_cant": "The input space is infinite; a finite table of examples cannot exclude one bad input.", "anchors": ["v1/role_manager.go: AddPrincipalRole, getTenantPrincipals"]}
{"id": "C37", "title": "v1: resource requests: exact decision", "statement": "v1 Authorize for each of the option shapes tenant, namespace, scope, tenant+namespace, tenant+scope, namespace+scope, tenant+namespace+scope (without group and activity) is characterised exactly by the stored assignments and registrations.", "quantifier": "every state, request and iteration order", "why_tests_cant": "It must hold after every history of API calls; tests run a few scripted ones.", "anchors": ["v1/role_manager.go: Authorize, authorizeFor*"]}
{"id": "C38", "title": "v1: tenant requests respect assignments", "statement": "v1 Authorize(p, tenant) is true only if p is assigned in the tenant. (Violated: any registered principal is authorized for any registered tenant.)", "quantifier": "every state and request", "why_tests_cant": "It must hold after every history of API calls; tests run a few scripted ones.", "anchors": ["v1/role_manager.go: authorizeForTenant"]}
{"id": "C39", "title": "v1: namespace/scope requests use the principal's own assignments", "statement": "(Violated for tenant+namespace+scope: any principal's assignment in the tenant is used; proved for the other shapes.)", "quantifier": "every state and request", "why_tests_cant": "It must hold after every history of API calls; tests run a few scripted ones.", "anchors": ["v1/role_manager.go: authorizeForTenantNamespaceAndScope"]}
{"id": "C40", "title": "v1: GetAllowedRoles exact", "statement": "The result of v1 GetAllowedRoles is characterised: nil exactly in the listed cases, otherwise the namespace's roles (or the principal's tenant-wide roles when the namespace has none) plus the roles assigned for exactly that namespace and scope, all of them roles of the tenant.", "quantifier": "every state, assignment list, namespace and scope", "why_tests_cant": "It must hold after every history of API calls; tests run a few scripted ones. Go map iteration order is unspecified and may change on every run; a test sees a few orders only.", "anchors": ["v1/role_manager.go: GetAllowedRoles"]}
{"id": "C41", "title": "v1: activity requests: exact decision", "statement": "v1 Authorize with group/activity is true exactly when the tenant exists, named namespace/scope exist in it, and some registered role among all of the principal's assignments in that tenant grants the activity under the computed allow-list.", "quantifier": "every state, request and iteration order", "why_tests_cant": "It must hold after every history of API calls; tests run a few scripted ones.", "anchors": ["v1/role_manager.go: authorizeComplex, getAllowedRoleIDs, authorizeForActivity"]}
{"id": "C42", "title": "v1: a refusal by GetAllowedRoles denies", "statement": "When GetAllowedRoles yields no role, an activity request is denied. (Violated: an empty allow-list means 'no restriction', so scope and namespace of the assignment are ignored.)", "quantifier": "every state and request", "why_tests_cant": "It must hold after every history of API calls; tests run a few scripted ones.", "anchors": ["v1/role_manager.go: authorizeComplex, GetAllowedRoles", "v1/role.go: Has"]}
{"id": "C43", "title": "v1: assignments only to known roles and scopes", "statement": "v1 AddPrincipal, AddPrincipalInNamespace, AssignScopesToPrincipal and AssignScopesWithRole store only assignments whose tenant role / namespace / scope is registered in the tenant (or empty), and never remove one.", "quantifier": "every history", "why_tests_cant": "It must hold after every history of API calls; tests run a few scripted ones.", "anchors": ["v1/tenant.go"]}
{"id": "C44", "title": "v2: the role graph stays acyclic", "statement": "After any history of AddChildRole calls no role reaches itself through child edges; a rejected call changes nothing.", "quantifier": "every history of AddChildRole calls", "why_tests_cant": "It must hold after every history of API calls; tests run a few scripted ones.", "anchors": ["v2/role.go: AddChildRole, checkCircularDependency"]}
{"id": "C45", "title": "v2: cycle check terminates and is exact up to sharing", "statement": "checkCircularDependency returns on every graph; it accepts exactly when the parent is not reachable from the new children and no role is reached twice. (So diamonds are wrongly rejected.)", "quantifier": "every graph, parent and child list", "why_tests_cant": "The input space is infinite; a finite table of examples cannot exclude one bad input.", "anchors": ["v2/role.go: checkCircularDependency"]}
{"id": "C46", "title": "v2: ResolvePermissions is the closure", "statement": "With no cached entry, ResolvePermissions(r) terminates on every graph and returns exactly the permissions of the registered roles reachable from r through registered roles.", "quantifier": "every graph, permission assignment and iteration order", "why_tests_cant": "The input space is infinite; a finite table of examples cannot exclude one bad input.", "anchors": ["v2/role.go: ResolvePermissions, ResolveChildRoles"]}
{"id": "C47", "title": "v2: permission changes take effect", "statement": "After RemovePermission / AddPermission / AddChildRole the next Authorize uses the new permissions. (Violated: the first resolution is cached for ever, and Can and Authorize share one cache so each corrupts the other; proved for roles not yet resolved.)", "quantifier": "every history", "why_tests_cant": "It must hold after every history of API calls; tests run a few scripted ones.", "anchors": ["v2/role.go: ResolvePermissions, ResolveChildRoles"]}
{"id": "C48", "title": "v2: RemovePrincipalRole removes exactly the matching assignments", "statement": "(Violated: exactly when a removed assignment precedes a kept one the list is left with nil entries and truncated, and the next Authorize of any request that reaches resolution panics; when the removed assignments form a suffix the call is exact. The index map is always updated exactly.)", "quantifier": "every assignment list and target", "why_tests_cant": "The input space is infinite; a finite table of examples cannot exclude one bad input.", "anchors": ["v2/v2.go: RemovePrincipalRole"]}
{"id": "C49", "title": "v2: Authorize exact decision", "statement": "When v2 Authorize returns, it is true exactly when some target tenant has the (default) namespace, the requested scope belongs to it, and some permission of the scoped assignments - or of the unscoped ones when no scoped permission exists - in the tenant or a managed child matches the request.", "quantifier": "every state, request, clock and iteration order", "why_tests_cant": "It must hold after every history of API calls; tests run a few scripted ones. Go map iteration order is unspecified and may change on every run; a test sees a few orders only.", "anchors": ["v2/v2.go: Authorize, findTargetTenants, resolvePrincipalPermissions, matchPermission"]}
{"id": "C50", "title": "v2: unknown tenant, namespace or scope is denied", "statement": "v2 Authorize and Can return false when the named tenant is unknown, and never grant when the namespace or scope does not exist in any target tenant.", "quantifier": "every state and request", "why_tests_cant": "It must hold after every history of API calls; tests run a few scripted ones.", "anchors": ["v2/v2.go: Authorize, Can, findTargetTenants"]}
{"id": "C51", "title": "v2: expired assignments grant nothing", "statement": "An assignment whose expiry lies before the call contributes no permission and no role. (An expired managing assignment still opens child tenants.)", "quantifier": "every state, request and clock", "why_tests_cant": "It must hold after every history of API calls; tests run a few scripted ones.", "anchors": ["v2/v2.go: IsExpired, resolvePrincipalPermissions, resolvePrincipalRoles"]}
{"id": "C52", "title": "v2: inactive tenants are not authorized", "statement": "A request never succeeds through a tenant whose status is not active. (Violated for explicitly named or default tenants; proved for requests without tenant.)", "quantifier": "every state and request", "why_tests_cant": "It must hold after every history of API calls; tests run a few scripted ones.", "anchors": ["v2/v2.go: findTargetTenants, findPrincipalTenants"]}
{"id": "C53", "title": "v2: more assignments never mean less access", "statement": "Adding an assignment does not turn a granted request into a denied one. (Violated: one scoped permission hides all unscoped ones; proved for assignments that are unscoped or when scoped permissions are already present.)", "quantifier": "every state, added assignment and request", "why_tests_cant": "It must hold after every history of API calls; tests run a few scripted ones.", "anchors": ["v2/v2.go: resolvePrincipalPermissions"]}
{"id": "C54", "title": "v2: Can exact decision", "statement": "When v2 Can returns, it is true exactly when in some target tenant (namespace and scope valid) one of the listed roles is held, directly or through child roles, by a non-expired assignment of the principal in the tenant or a managed child - whatever the assignment's scope.", "quantifier": "every state, request and role list", "why_tests_cant": "It must hold after every history of API calls; tests run a few scripted ones.", "anchors": ["v2/v2.go: Can, resolvePrincipalRoles"]}
{"id": "C55", "title": "v2: child tenant traversal terminates", "statement": "Resolution terminates on every tenant graph, including cyclic ones.", "quantifier": "every tenant graph", "why_tests_cant": "The input space is infinite; a finite table of examples cannot exclude one bad input.", "anchors": ["v2/v2.go: resolvePrincipalPermissions, resolvePrincipalRoles"]}
{"id": "C56", "title": "v2: all tenants of a principal are considered", "statement": "Without tenant in the request and without default, the target tenants are exactly the registered active tenants in which the principal has an assignment, each once, however many there are.", "quantifier": "every state and request", "why_tests_cant": "It must hold after every history of API calls; tests run a few scripted ones. Go map iteration order is unspecified and may change on every run; a test sees a few orders only.", "anchors": ["v2/v2.go: findTargetTenants, findPrincipalTenants"]}
{"id": "C57", "title": "v2: concurrent Authorize calls do not mix", "statement": "Each of several concurrent Authorize calls gets the answer it would get alone. (Violated: the permission map is returned to the pool before it is read; an interleaving grants one caller the other's permission. Proved when no other resolution starts between a call's resolution and its check.)", "quantifier": "every interleaving", "why_tests_cant": "Schedules cannot be enumerated by tests.", "anchors": ["v2/v2.go: resolvePrincipalPermissions, Authorize", "utils/pool.go: Pool"]}
{"id": "C58", "title": "v2: role permission sets", "statement": "AddPermission/RemovePermission leave exactly the set union/difference, keyed by 'resource action'.", "quantifier": "every sequence of calls", "why_tests_cant": "It must hold after every history of API calls; tests run a few scripted ones.", "anchors": ["v2/role.go: AddPermission, RemovePermission"]}
{"id": "C59", "title": "v2: the audit log ends with the decision", "statement": "With a logger, every Authorize/Can call writes as its last record the decision it returns, and exactly one decision record.", "quantifier": "every state and request", "why_tests_cant": "It must hold after every history of API calls; tests run a few scripted ones.", "anchors": ["v2/v2.go: Authorize, Can, Log"]}
{"id": "C60", "title": "v2: expiry setters", "statement": "SetExpiry rejects past times without change; after a success the assignment is expired exactly after that time; SetExpiryDuration with an unparsable string changes nothing and reports success.", "quantifier": "every clock and argument", "why_tests_cant": "The input space is infinite; a finite table of examples cannot exclude one bad input.", "anchors": ["v2/v2.go: SetExpiry, SetExpiryDuration, IsExpired, ClearExpiry"]}
{"id": "C61", "title": "Request options set their own field", "statement": "After all options of an Authorize call are applied, every field of the request holds the value of the last option of its kind, nil if there is none.", "quantifier": "every list of options", "why_tests_cant": "The input space is infinite; a finite table of examples cannot exclude one bad input.", "anchors": ["tenant.go: WithTenant", "namespace.go: WithNamespace", "scope.go: WithScope", "activity_group.go: WithAttributeGroup", "activity.go: WithActivity"]}
{"id": "C62", "title": "Queries return exactly the matching rows", "statement": "Every query of query.go returns exactly the stored rows its filter describes, each once; queries over a principal's tenants visit each own tenant once; GetRolesByTenant always returns nothing; the id collectors keep first occurrences in order; GetDescendantTenant lists exactly the transitive descendants.", "quantifier": "every state, argument and iteration order", "why_tests_cant": "It must hold after every history of API calls; tests run a few scripted ones. Go map iteration order is unspecified and may change on every run; a test sees a few orders only.", "anchors": ["query.go", "role_manager.go: GetTenantIDs, GetPrincipalIDs, GetRoleIDs, GetNamespaceIDs, GetScopeIDs"]}
{"id": "C63", "title": "Role report is exact", "statement": "GetRolesForAvailablePermissions has one entry per attribute and category that some registered role holds directly or by inheritance, naming exactly those roles, each once; it returns exactly when no registered role starts an endless chain. (Naming each role once is violated when the attribute is also inherited; proved for roles without descendants.)", "quantifier": "every state and iteration order", "why_tests_cant": "It must hold after every history of API calls; tests run a few scripted ones. Go map iteration order is unspecified and may change on every run; a test sees a few orders only.", "anchors": ["permission.go: GetRolesForAvailablePermissions"]}
{"id": "C64", "title": "Scope report is exact", "statement": "GetScopesWithRolesForPrincipal reports on one tenant, lists each scope once and exactly the roles of the principal's rows; every reported scope belongs to the requested tenant and is not tied to another principal, and no reported role is nil. (The last part is violated; proved for tenants whose scope rows are not tied to others and principals whose rows all name a role.)", "quantifier": "every state, argument and iteration order", "why_tests_cant": "It must hold after every history of API calls; tests run a few scripted ones. Go map iteration order is unspecified and may change on every run; a test sees a few orders only.", "anchors": ["activity_group.go: GetScopesWithRolesForPrincipal", "utils/filters.go: JoinSlices"]}
{"id": "C65", "title": "Role mutators do exactly what they say", "statement": "On an unlocked role AddDescendant keeps the descendant an id has and otherwise stores the first given role with that id; AddPermissionResourceGroup stores the group unless its id is taken; AddPermission adds, in the group object the role shares or in a new one, the first given attribute of every new text; AddAttributes lets the last given attribute of a text win; new roles and groups are empty and unlocked. Nothing else changes.", "quantifier": "every heap of roles and groups and every argument list", "why_tests_cant": "The input space is infinite; a finite table of examples cannot exclude one bad input.", "anchors": ["role.go: AddDescendant, AddPermission, AddPermissionResourceGroup, AddAttributes", "permission.go: NewRole, NewAttributeGroup"]}
{"id": "C66", "title": "Attribute texts identify attributes", "statement": "Two different attributes have different texts, so adding one is never ignored because of another. (Violated when resource and action contain spaces; proved when either part is free of spaces.)", "quantifier": "every pair of attributes", "why_tests_cant": "The input space is infinite; a finite table of examples cannot exclude one bad input.", "anchors": ["role.go: Attribute.String, AddPermission"]}
{"id": "C67", "title": "Texts, field filters and row keys", "statement": "ToString keeps strings, maps nil to the empty text, booleans to true and false, integers to their decimal numeral; FilterByFields accepts exactly the rows that agree with the filter in every given field with none nil; a row's key is its non-nil fields in the order tenant, namespace, scope, principal, role, manage; the general filter and the remaining row filters accept exactly the described rows.", "quantifier": "every value, row, filter and field list", "why_tests_cant": "The input space is infinite; a finite table of examples cannot exclude one bad input.", "anchors": ["utils/str.go: ToString", "utils/filters.go: IsNil, Match, FilterByFields", "filters.go"]}
{"id": "C68", "title": "v1 getters list exactly the matching assignments", "statement": "In v1 GetPrincipalRoles, GetTenantRoles, GetPrincipalRolesByTenant, GetScopesForPrincipal, GetTenantScopesForPrincipal, GetRolePermissions, GetPermissionsForPrincipal and GetTenantsForPrincipal fail exactly for the documented unregistered arguments and otherwise list exactly the matching assignments; GetTenantsForPrincipal lists each tenant once. (The last part is violated; proved for principals with assignments in at most one tenant.)", "quantifier": "every reachable v1 state, argument and iteration order", "why_tests_cant": "It must hold after every history of API calls; tests run a few scripted ones. Go map iteration order is unspecified and may change on every run; a test sees a few orders only.", "anchors": ["v1/role_manager.go: GetPrincipalRoles, GetTenantRoles, GetPrincipalRolesByTenant, GetScopesForPrincipal, GetTenantScopesForPrincipal, GetRolePermissions, GetPermissionsForPrincipal, GetTenantsForPrincipal"]}
{"id": "C69", "title": "v1 implicit roles and descendant tenants", "statement": "In v1 GetDescendantTenants lists exactly the transitive descendants and returns exactly when no endless chain of descendants starts at the tenant; GetImplicitPrincipalRoles lists only assignments of the requested principal. (The last part is violated: assignments of other principals in descendant tenants are listed; the exact content is proved, and the claim for tenants whose descendants hold assignments of the principal only.)", "quantifier": "every reachable v1 state, argument and iteration order", "why_tests_cant": "It must hold after every history of API calls; tests run a few scripted ones. Go map iteration order is unspecified and may change on every run; a test sees a few orders only.", "anchors": ["v1/role_manager.go: GetImplicitPrincipalRoles", "v1/tenant.go: GetDescendantTenants, AddDescendent"]}
{"id": "C70", "title": "v1 registries: first registration wins", "statement": "In v1, after any history of calls, looking up an id in any of the seven registries gives the object of the first registration of that id; counts and listings report every registered id exactly once; each registering call returns the stored object, and AddTenant puts even a refused duplicate under management.", "quantifier": "every history of v1 calls, every id and iteration order", "why_tests_cant": "It must hold after every history of API calls; tests run a few scripted ones. Go map iteration order is unspecified and may change on every run; a test sees a few orders only.", "anchors": ["v1/role_manager.go: AddAttribute, AddAttributeGroup, AddRole, AddTenant, AddNamespace, AddPrincipal, AddScope, Total*, Attributes, Roles, Tenants, Namespaces, Principals, Scopes"]}
{"id": "C71", "title": "v1 tenant and namespace setup does exactly what it says", "statement": "In v1 Tenant.AddNamespace, AddRole, AddDescendent and AddScopes keep what an id already has and otherwise store the first given object, AddScopes also in the default namespace; SetDefaultNamespace ignores unknown namespaces; AddRolesToNamespace and AddScopesToNamespace process the ids before the first unknown one; Namespace.AddRoles and AddScopes overwrite. Nothing else changes.", "quantifier": "every v1 state, tenant, namespace and argument list", "why_tests_cant": "The input space is infinite; a finite table of examples cannot exclude one bad input.", "anchors": ["v1/tenant.go: AddDescendent, SetDefaultNamespace, AddNamespace, AddRole, AddScopes, AddScopesToNamespace, AddRolesToNamespace, Namespace.AddRoles, Namespace.AddScopes", "v1/permission.go: NewTenant, NewNamespace"]}
{"id": "C72", "title": "Tenant setup does exactly what it says", "statement": "NewTenant makes a tenant without manager, descendants and default namespace; AddTenant gives it the manager and registers it unless its id is taken; AddNamespace, AddScopesToNamespace, AddPrincipalInNamespace, AddRole, AddScope and their list forms insert exactly one row per argument; SetDefaultNamespace ignores unregistered namespaces; AddDescendant keeps the descendant an id has, otherwise links the first given one, and passes a default namespace on to all given tenants. A tenant without manager panics where the manager is needed. Nothing else changes.", "quantifier": "every reachable state, tenant and argument list", "why_tests_cant": "It must hold after every history of API calls; tests run a few scripted ones.", "anchors": ["tenant.go: AddNamespace, AddNamespaces, AddDescendant, AddScopesToNamespace, SetDefaultNamespace, AddPrincipalInNamespace, AddRole, AddRoles, AddScope, AddScopes, RoleManager.AddTenant", "permission.go: NewTenant"]}
{"id": "C73", "title": "v2: setup does exactly what it says", "statement": "In v2 NewTenant, AddNamespace, AddScopeToNamespace, AddChildTenant, AddTenant, AddTenants and AddPrincipalRole change exactly what they name: namespaces are kept, scopes are added or refused for a missing namespace, children and registered tenants are replaced by the last one given, children get their parent recorded, assignments are appended in order to the list and to the index; as long as nothing is removed, or removals select the last assignments, index and list agree.", "quantifier": "every v2 state, history and argument list", "why_tests_cant": "It must hold after every history of API calls; tests run a few scripted ones.", "anchors": ["v2/entities.go: NewTenant", "v2/role.go: AddNamespace, AddScopeToNamespace, AddChildTenant", "v2/init.go: AddTenant, AddTenants", "v2/v2.go: AddPrincipalRole"]}
{"id": "C74", "title": "v2: other principals do not influence decisions", "statement": "In v2 the decisions of Authorize and Can for a principal depend only on its own assignments, the tenants and the roles; calls about other principals - assignments added, removed or changed, decisions made for them - change no decision for it. (Violated: Can for one principal prunes shared role inheritance, and a removal can leave a nil entry that makes every decision panic; proved for histories without the other decision call and without removals that leave a nil entry.)", "quantifier": "every two v2 states agreeing on the principal, every history of calls about other principals, every iteration order", "why_tests_cant": "It must hold after every history of API calls; tests run a few scripted ones. Go map iteration order is unspecified and may change on every run; a test sees a few orders only.", "anchors": ["v2/v2.go: Authorize, Can, resolvePrincipalRoles, AddPrincipalRole, RemovePrincipalRole"]}
{"id": "C75", "title": "Other principals do not influence decisions", "statement": "The decision of Authorize for a principal depends only on its own rows, the rows of no principal, the registries and the roles; grants to other principals and decisions for them change no decision for it. (Violated: requests with an activity, a tenant and exactly one of namespace and scope use the roles of all principals, and a row of another principal with the same values in order overwrites its row; proved for all other requests and histories without such rows.)", "quantifier": "every two states agreeing on the principal, every history of calls about other principals, every iteration order", "why_tests_cant": "It must hold after every history of API calls; tests run a few scripted ones. Go map iteration order is unspecified and may change on every run; a test sees a few orders only.", "anchors": ["authorize.go: Authorize", "tenant.go: AddPrincipal, AddPrincipalWithRole, AddScopeToPrincipal, AssignScopesToPrincipal, AddPrincipalInNamespace"]}
{"id": "C76", "title": "v1: other principals do not influence decisions", "statement": "In v1 the answer for a principal depends only on its own assignments, the registries, tenants, namespaces and roles; assignments to other principals change no answer for it. (Violated: requests with tenant, namespace and scope only use the assignments of all principals, and an assignment to a principal named p_... is read back as one of p; proved for all other requests and assignments to principals whose ids do not start with p_, whatever the other ids contain.)", "quantifier": "every two reachable v1 states agreeing on the principal, every history of assignments to other principals, every request, every iteration order", "why_tests_cant": "It must hold after every history of API calls; tests run a few scripted ones. Go map iteration order is unspecified and may change on every run; a test sees a few orders only.", "anchors": ["v1/role_manager.go: Authorize, AddPrincipalRole, getTenantPrincipals", "v1/tenant.go: AddPrincipal, AddPrincipalInNamespace, AssignScopesToPrincipal, AssignScopesWithRole"]}
{"id": "C77", "title": "v1: pooled slices do not leak between calls", "statement": "In v1 GetAllowedRoles returns the described list whatever earlier calls left in the shared slice pools and whichever slices the pools hand out, and a returned list stays what it was; decisions are those of the description with values. (Staying what it was is violated: the returned slice is already back in the pool, so a later call rewrites it, and a call in another goroutine can turn a denied request into a granted one; proved as long as no later call is handed the array, in particular for decisions in a program with one goroutine.)", "quantifier": "every v1 state, pool content, choice of slices and growth, every sequence of further calls", "why_tests_cant": "It must hold after every history of API calls; tests run a few scripted ones. Which slice sync.Pool hands out and how append grows arrays is up to the runtime.", "anchors": ["v1/role_manager.go: GetAllowedRoles, authorizeForActivity, authorizeComplex", "v1/util.go", "utils/pool.go: NewSlicePool, Get, Put"]}
{"id": "C78", "title": "Bulk registrations, lookups and summaries", "statement": "AddTenants, AddNamespaces, AddScopes, AddPrincipals, AddRoles, AddAttributes and AddAttributeGroups of the root package and of v1 are the single calls in order: an id keeps its object or gets the first argument with that id, other registries and data stay, and AddTenants puts exactly its arguments under management. The lookups return the first registered object; Summary, SummaryMap and String report the number of distinct ids per kind, and different counts have different texts; NewAttributes makes one attribute per action in order; GetImplicitScopesByPrincipal returns nothing and only fills the caches.", "quantifier": "every state, history and argument list", "why_tests_cant": "It must hold after every history of API calls; tests run a few scripted ones.", "anchors": ["tenant.go: AddTenants, GetTenant", "namespace.go: AddNamespaces, GetNamespace", "scope.go: AddScopes, GetScope", "principal.go: AddPrincipals, GetPrincipal", "permission.go: AddRoles, GetRole, NewAttributes", "activity.go: AddAttributes, GetAttribute", "activity_group.go: AddAttributeGroups, GetAttributeGroup", "role_manager.go: Summary, SummaryMap, String", "query.go: GetImplicitScopesByPrincipal", "v1/role_manager.go: AddTenants, AddNamespaces, AddScopes, AddPrincipals, AddRoles, AddAttributes, AddAttributeGroups, Summary, SummaryMap, String"]}
{"id": "C79", "title": "v2: audit records identify the request", "statement": "In v2 an audit record carries the non-empty fields of the request, each once and in a fixed order, and nothing else; requests with equal records are equal; the message tells a grant from every refusal. The five tenant statuses have different texts, and printing any other status panics.", "quantifier": "every request, every status value", "why_tests_cant": "The input space is infinite; a finite table of examples cannot exclude one bad input.", "anchors": ["v2/v2.go: Log", "v2/entities.go: TenantStatus.String"]}
{"id": "C80", "title": "Serialize gives a map one text", "statement": "The text Serialize gives a map does not depend on map order or on how sort.Slice orders equal keys; for string keys it lists the entries in bytewise key order. (Violated for keys that are not strings: they all sort alike, so the text is not determined; proved for maps whose keys have different sort texts, in particular string keys.)", "quantifier": "every map, every order of its keys, every result the sort may give", "why_tests_cant": "Go map iteration order is unspecified and may change on every run; a test sees a few orders only.", "anchors": ["utils/str.go: Serialize"]}
{"id": "C81", "title": "No call takes access away", "statement": "Once the root Authorize has granted a request, it grants it after any further calls whatsoever and in whatever order maps and rows are walked. (Violated: a later row with the same values in order replaces an older one; proved that this is the only cause.)", "quantifier": "every state, every later history of calls, every iteration order", "why_tests_cant": "It must hold after every history of API calls; tests run a few scripted ones.", "anchors": ["authorize.go: Authorize", "tenant.go: AddScopeToPrincipal", "role.go: AddPermission", "trie/trie.go: Insert"]}
{"id": "C82", "title": "v1: granted requests stay granted", "statement": "Once v1 Authorize has granted a request, it grants it after any further calls. (True for requests without group and activity; violated for activities: giving a principal a role for the whole tenant can remove an inherited activity; proved for calls that keep the list of allowed roles.)", "quantifier": "every state, every later history of calls, every iteration order", "why_tests_cant": "It must hold after every history of API calls; tests run a few scripted ones.", "anchors": ["v1/role_manager.go: Authorize", "v1/role_manager.go: GetAllowedRoles", "v1/tenant.go: AddPrincipal"]}
{"id": "C83", "title": "v2: concurrent calls never deadlock", "statement": "Whatever calls goroutines make on one v2 authorizer, its roles and its tenants: some call can always proceed until all have returned, no schedule goes on for ever, every call releases the locks it takes, and a write lock is never shared.", "quantifier": "every initial state, every number of goroutines, every list of calls for each, every schedule", "why_tests_cant": "Deadlocks and leaked locks need particular interleavings of particular calls; a test runs some.", "anchors": ["v2/role.go: AddPermission, RemovePermission, AddNamespace, AddScopeToNamespace, AddChildTenant, AddRole, AddChildRole, ResolvePermissions, ResolveChildRoles", "v2/init.go: AddTenant, GetTenant, GetRole", "v2/v2.go: AddPrincipalRole, RemovePrincipalRole, Authorize, Can"]}
{"id": "C84", "title": "v2: concurrent calls have no data races", "statement": "No two goroutines access the same shared data of v2 at the same time, one of them writing. (Violated: GetRole, ResolvePermissions, Authorize, Can, RemovePrincipalRole, SetDefaultTenant, SetExpiry and AddTenant skip locks; proved for every location as long as no call runs that skips its lock, and for child links, resolution cache, parent cache and constructor-set fields without condition.)", "quantifier": "every initial state, every number of goroutines, every list of calls for each, every schedule", "why_tests_cant": "The race detector sees only the accesses of the schedules that were run.", "anchors": ["v2/role.go", "v2/init.go: GetRole, AddTenant", "v2/v2.go: SetDefaultTenant, AddPrincipalRole, RemovePrincipalRole, SetExpiry, Authorize, Can"]}
{"id": "C85", "title": "v2: concurrent resolutions return what they should", "statement": "However goroutines are scheduled, resolving a role returns exactly the permissions (or the names) of the roles below it in the graph as it was at some moment of the run, and all resolutions of a role return the same set, as they do one after the other. (The last part is violated: two goroutines both miss the cache and compute before and after a change; proved as long as the graph does not change. The first part is proved for runs without permission changes.)", "quantifier": "every initial state, every number of goroutines, every list of calls for each, every schedule", "why_tests_cant": "The outcome depends on where in each other's loops the goroutines are; tests run a few schedules.", "anchors": ["v2/role.go: ResolvePermissions, ResolveChildRoles, AddRole, AddChildRole"]}
{"id": "C86", "title": "v2: concurrent changes of the role graph keep it sound", "statement": "Whatever goroutines call on a v2 authorizer in whatever order: the role graph stays free of cycles; links and registered roles are never lost; a call that returned has left its roles, or its links unless it was refused; of two calls that would close a loop at most one is accepted; and nothing appears that no call was given.", "quantifier": "every initial state with an acyclic graph, every number of goroutines, every list of calls for each, every schedule", "why_tests_cant": "A cycle check outside the lock, or a lost update, shows only in particular interleavings.", "anchors": ["v2/role.go: AddRole, AddRoles, AddChildRole, checkCircularDependency", "v2/init.go: AddRole, AddRoles, AddChildRole"]}
{"id": "C87", "title": "v2: concurrent calls act one at a time", "statement": "Concurrent v2 calls leave the state, and return the results, of the same calls made one at a time in some order in which a call that returned before another began comes first. (Violated: RemovePrincipalRole takes no lock and overwrites an assignment registered meanwhile; proved for all calls that do their work under one write lock, AddTenant included while no children are added to the same tenant. A call by itself, whatever it locks, does what the sequential description says.)", "quantifier": "every reachable initial state, every number of goroutines, every list of calls for each, every schedule", "why_tests_cant": "Lost updates need two calls to overlap at particular points; a test runs few interleavings and cannot compare with all orders.", "anchors": ["v2/v2.go: AddPrincipalRole, RemovePrincipalRole, SetExpiry", "v2/role.go: AddPermission, RemovePermission, AddNamespace, AddScopeToNamespace, AddChildTenant, AddRole, AddChildRole, ResolvePermissions, ResolveChildRoles", "v2/init.go: AddTenant, GetTenant"]}
{"id": "C88", "title": "Concurrent insertions leave the trie of some order", "statement": "Goroutines that insert rows into one trie at once leave the rows that inserting one at a time in some order leaves. (Violated: two goroutines that need the same new node both create it and one row is lost; proved when rows of different goroutines need no common new node, in particular for one goroutine. Without condition: only given rows appear, a row stored at the start keeps its place and is replaced only by rows with the same key, and the trie is well formed when all have returned.)", "quantifier": "every trie, every number of goroutines, every list of rows for each, every schedule", "why_tests_cant": "The outcome depends on where exactly goroutines are interrupted; a test runs a few interleavings.", "anchors": ["trie/trie.go: Insert, insert, addChild"]}
{"id": "C89", "title": "Searches during insertions return matching rows", "statement": "A search that runs while other goroutines insert never panics by itself and returns only rows that match. (Violated: a node is marked before its row is set, so a nil row reaches the filter or the caller, and the row is read twice, so a row that does not match can be returned; proved when rows are only replaced and the filter depends only on what replacement keeps. Without condition: only rows that were stored or given are returned, none twice, and every matching row present throughout is found; a search for one row returns one at most, and one if a matching row is present throughout. While nobody inserts, searches return exactly the matching rows and leave the trie as it is.)", "quantifier": "every trie, every number of goroutines, every list of calls for each, every filter, every schedule and map order", "why_tests_cant": "The outcome depends on where exactly goroutines are interrupted; a test runs a few interleavings.", "anchors": ["trie/trie.go: Search, SearchFunc, Data, search", "filters.go: FilterFunc"]}
{"id": "C90", "title": "Concurrent registrations agree", "statement": "Whoever registers an id in the root package, and however the goroutines are scheduled, all callers get the object that is registered under the id from then on. (Violated: two goroutines that both find nothing both register, and the first keeps an object that is not the registered one; proved when no two goroutines register the same new id. Without condition: registered objects stay and are what every call returns; a new id only ever has objects given under it, and has one as soon as a registration has returned; a call that is not interrupted returns what is registered or registers its object.)", "quantifier": "every registry, every number of goroutines, every list of calls for each, every schedule", "why_tests_cant": "The outcome depends on where exactly goroutines are interrupted; a test runs a few interleavings.", "anchors": ["tenant.go: AddTenant", "namespace.go: AddNamespace", "scope.go: AddScope", "principal.go: AddPrincipal", "permission.go: AddRole", "activity.go: AddAttribute", "activity_group.go: AddAttributeGroup", "role.go: AddDescendant"]}
{"id": "C91", "title": "Concurrent grants are not lost", "statement": "What AddPermission has granted the role has, however other goroutines change roles and groups at the same time. (Violated: two goroutines that create the same group both store theirs, and the grant in the first is lost; proved, for the moment of return and for ever after, when the group exists from the start or only one goroutine changes it. Without condition: roles keep what they have at the start, nothing appears that was not given to the role or to a group object it shares, and a call that is not interrupted does what the sequential description says.)", "quantifier": "every heap of roles and groups, every number of goroutines, every list of calls for each, every schedule", "why_tests_cant": "The outcome depends on where exactly goroutines are interrupted; a test runs a few interleavings.", "anchors": ["role.go: AddPermission, AddPermissionResourceGroup, AddDescendant, AddAttributes, Lock, Unlock", "v1/role.go"]}
{"id": "C92", "title": "A locked role does not change", "statement": "Once Lock has returned and as long as nobody calls Unlock the role keeps its groups, descendants and permissions, and every call that would change them is refused. (Violated: a call that has passed the check before still changes the role; proved when no goroutine has passed the check at that moment, for permissions in groups that no other role shares and nobody fills directly.)", "quantifier": "every situation of every number of goroutines, every list of calls for each, every schedule", "why_tests_cant": "The outcome depends on where exactly goroutines are interrupted; a test runs a few interleavings.", "anchors": ["role.go: Lock, Unlock, AddPermission, AddPermissionResourceGroup, AddDescendant"]}
{"id": "C93", "title": "Concurrent calls come to an end", "statement": "In the root package a goroutine inside an insertion, a search, a registration or a change of a role never waits for another goroutine; no schedule goes on for ever; and when nobody can go on, every goroutine has made all its calls in its order, except searches whose filter panicked.", "quantifier": "every trie, registry and heap of roles, every number of goroutines, every list of calls for each, every schedule and map order", "why_tests_cant": "Endless or stuck runs need particular interleavings; a test runs a few and cannot tell slow from endless.", "anchors": ["trie/trie.go: Insert, addChild, Search, SearchFunc, First, FirstFunc, Data, search", "role.go: AddPermission, AddPermissionResourceGroup, AddDescendant, AddAttributes, Lock, Unlock", "tenant.go: AddTenant", "permission.go: AddRole"]}
{"id": "C94", "title": "v2: role setup does exactly what it says", "statement": "In v2 NewRole makes an empty role; AddPermission and RemovePermission add and remove exactly the texts of the permissions passed, each listed once whatever its category; AddRole and AddRoles register the last role passed under each name, replacing an older one, and GetRole returns it; AddChildRole appends the children to those of the parent or reports an error and changes nothing; a new authorizer knows nothing; SetDefaultTenant names the default tenant. Nothing else changes.", "quantifier": "every v2 state, history and argument list", "why_tests_cant": "It must hold after every history of API calls; tests run a few scripted ones.", "anchors": ["v2/entities.go: NewPermission, NewRole", "v2/role.go: AddPermission, RemovePermission, NewRoleDAG, AddRole, AddChildRole, Permission.String", "v2/init.go: AddRoles, AddRole, GetRole, AddChildRole, GetTenant", "v2/v2.go: NewAuthorizer, SetDefaultTenant, GetDefaultTenant, Request.String"]}
{"id": "C95", "title": "v2: access comes from standing assignments", "statement": "Whatever was called before, Authorize and Can of v2 say yes only because of an assignment of the requesting principal that the history registered with AddPrincipalRole, that no later RemovePrincipalRole selected, and that has not expired, for a tenant, namespace and scope the request is about. A principal to which nothing was assigned, or whose assignments were all removed since, is refused everything.", "quantifier": "every history of v2 calls, every request, every clock and map order", "why_tests_cant": "It must hold after every history of API calls; tests run a few scripted ones.", "anchors": ["v2/v2.go: AddPrincipalRole, RemovePrincipalRole, Authorize, Can, SetExpiry", "v2/entities.go: PrincipalRole"]}
{"id": "C96", "title": "v2: every granted action was given to a role", "statement": "Whatever was called before, what Authorize of v2 grants is covered by a permission that some AddPermission call gave to a role. (Violated: Can caches the names of roles where Authorize expects permissions, so a role named * that has no permission grants everything after a call of Can. Proved for histories without Can, and then the assigned role had the permission, itself or through roles below it, at some moment of the history; in general the text is a permission given to a role or the name of a role.)", "quantifier": "every history of v2 calls, every request, every clock and map order", "why_tests_cant": "It must hold after every history of API calls; tests run a few scripted ones.", "anchors": ["v2/role.go: AddPermission, ResolvePermissions, ResolveChildRoles", "v2/v2.go: Authorize, Can"]}
{"id": "C97", "title": "v1: activity requests are answered", "statement": "Authorize of v1 answers every request with a group or an activity. (Violated: if the principal has an assignment in a tenant that is not registered, a request naming only an activity panics; if a role is its own descendant, a request for an activity it does not have never ends. Proved when the principal's tenants are registered, no chain of descendants below the roles asked is infinite and no pattern in the group loops on the activity; the stack needed does not depend on map orders.)", "quantifier": "every v1 state reachable by any history, every request, every map order", "why_tests_cant": "Which order a map is walked in, and how deep a role graph is, cannot be enumerated; a test cannot tell slow from endless.", "anchors": ["v1/role_manager.go: Authorize, GetAllowedRoles, GetTenantsForPrincipal", "v1/role.go: Has, GetDescendantRoles"]}
{"id": "C98", "title": "v1: map orders of past calls do not matter", "statement": "Two histories of the same v1 calls that differ only in the order in which AddPrincipalInNamespace, AssignScopesToPrincipal and AssignScopesWithRole walk through the assignments end the same way, with the same assignments and otherwise equal states; Authorize then answers alike.", "quantifier": "every history of v1 calls, every choice of map orders in the calls and in the request, every request", "why_tests_cant": "Go map iteration order is unspecified and may change on every run; a test sees a few orders only.", "anchors": ["v1/tenant.go: AddPrincipalInNamespace, AssignScopesToPrincipal, AssignScopesWithRole", "v1/role_manager.go: AddPrincipalRole, GetPrincipalRoles, Authorize"]}
{"id": "C99", "title": "Access comes from grants", "statement": "Whatever was called before, the root Authorize says yes to a principal only if some call of the history gave that principal a row in a tenant: AddData of such a row, AddPrincipalInNamespace, or AddPrincipal, AddPrincipalWithRole, AddScopeToPrincipal or AssignScopesToPrincipal with a principal, role or scope registered at that moment; the row carries the tenant, role, scope, default namespace and manage flag of that call. A principal no call gave anything to is denied every request. The role behind a granted activity in a namespace and scope was given to the principal for them.", "quantifier": "every history of calls, every request, every map order", "why_tests_cant": "It must hold after every history of API calls; tests run a few scripted ones.", "anchors": ["tenant.go: AddPrincipal, AddPrincipalWithRole, AddScopeToPrincipal, AssignScopesToPrincipal, AddPrincipalInNamespace, AddDescendant", "role_manager.go: AddData", "authorize.go: Authorize"]}
{"id": "C100", "title": "Every granted activity was listed", "statement": "Whatever was called before, an activity the root Authorize grants equals or matches the text of an attribute that some AddPermission, AddAttributes or AddPermissionsToRole call put into a group with the requested id, on a role that was not locked at that moment or on the group itself. An activity no such call lists is denied to everybody.", "quantifier": "every history of calls, every request, every map order", "why_tests_cant": "It must hold after every history of API calls; tests run a few scripted ones.", "anchors": ["role.go: AddPermission, AddPermissionResourceGroup, AddAttributes, AddPermissionsToRole, Has", "authorize.go: Authorize"]}
{"id": "C101", "title": "v1: access comes from assignments", "statement": "Whatever was called before, v1 Authorize says yes to a principal only if some call of the history assigned something to that principal, in the requested tenant, and, for requests without group and activity, for the requested scope and - unless only a namespace is requested - namespace. (Violated: a request with only a tenant needs no assignment, one with only tenant, namespace and scope uses anybody's, and an assignment to a principal named p_... counts for p. Proved for all other requests and with assignments to p_... counted; every assignment that is read back goes back to a call, with the tenant, role, scope, default namespace and flag of that call.)", "quantifier": "every history of v1 calls, every request, every map order", "why_tests_cant": "It must hold after every history of API calls; tests run a few scripted ones.", "anchors": ["v1/role_manager.go: AddPrincipalRole, Authorize, getTenantPrincipals", "v1/tenant.go: AddPrincipalRole, AddPrincipal, AddPrincipalInNamespace, AssignScopesToPrincipal, AssignScopesWithRole, AddScopesToNamespace"]}
{"id": "C102", "title": "v1: every granted activity was listed", "statement": "Whatever was called before, an activity v1 Authorize grants equals or matches the text of an attribute that some AddPermission, AddAttributes or AddPermissionsToRole call put into a group with the requested id, on a role that was not locked at that moment or on the group itself. An activity no such call lists is denied to everybody.", "quantifier": "every history of v1 calls, every request, every map order", "why_tests_cant": "It must hold after every history of API calls; tests run a few scripted ones.", "anchors": ["v1/role.go: AddPermission, AddPermissionResourceGroup, Has", "v1/role_manager.go: AddPermissionsToRole, Authorize"]}
{"id": "C103", "title": "Concurrent decisions are those of single calls", "statement": "However many goroutines call Authorize of the root package at once (and nothing else), and however they are scheduled: every answer is the one the same request gets when it is made alone in the initial state, with the tenants that some call for the same principal finds in its map order; only the two caches change, cached entries stay, and the caches remain right; calls that return when made alone do not panic or hang; and no call waits for another - it ends after two steps for every row of its principal and six more.", "quantifier": "every reachable state, every number of goroutines, every list of requests for each, every schedule and map order", "why_tests_cant": "The outcome depends on where exactly goroutines are interrupted; a test runs a few interleavings.", "anchors": ["authorize.go: Authorize", "query.go: GetImplicitTenants", "role_manager.go: TenantChildren"]}
{"id": "C104", "title": "Concurrent decisions agree", "statement": "While nothing is changed, all answers to the same request agree, whichever goroutine asks, as they do when calls are made one after the other (C33). (Violated: two goroutines that both find nothing cached compute the tenants in different map orders, and the second replaces what the first cached, so that one goroutine asking twice gets two answers. Proved when the tenants of the principal are cached before, and under the conditions of C25.)", "quantifier": "every reachable state, every number of goroutines, every list of requests for each, every schedule and map order", "why_tests_cant": "The outcome depends on where exactly goroutines are interrupted; a test runs a few interleavings.", "anchors": ["authorize.go: Authorize", "query.go: GetImplicitTenants", "role_manager.go: TenantChildren"]}
{"id": "C105", "title": "v1: concurrent use of the assignments is free of races", "statement": "Goroutines that assign roles to principals and read assignments (getters, Authorize) through one v1 manager never access the map of assignments while another writes it. (Violated: the map has no lock. Proved exactly when it can happen: when one goroutine assigns something not stored yet and another makes any call; so reading and deciding, and repeating known assignments, is safe and changes nothing.)", "quantifier": "every content of the map, every number of goroutines, every list of calls for each, every schedule", "why_tests_cant": "The outcome depends on where exactly goroutines are interrupted; a test runs a few interleavings.", "anchors": ["v1/role_manager.go: tenantPrincipals, AddPrincipalRole, GetPrincipalRoles, Authorize"]}
{"id": "C106", "title": "AsString tells the rows", "statement": "Whatever was called before, the text AsString returns lists exactly the stored rows, each once, and tells them: two managers that show the same text store the same rows, whatever quotes, separators or control characters the ids contain. (Violated for ids that are not UTF-8, which are shown alike. Proved exactly which lists of rows have the same text, and the claim for UTF-8 ids.)", "quantifier": "every history of calls, every map order, all ids, in particular those containing JSON syntax", "why_tests_cant": "The input space is infinite; a finite table of examples cannot exclude one bad input.", "anchors": ["role_manager.go: AsString", "trie/trie.go: Data", "filters.go: Data"]}
{"id": "C107", "title": "ToInt64 tells strings apart", "statement": "Different strings have different ToInt64 values. (Violated, as there are more strings than values. Proved: strings that differ in at most four neighbouring bytes, for example in the order of two of them, have different values, and a common end neither causes nor removes an agreement.)", "quantifier": "all strings of any length", "why_tests_cant": "The input space is infinite; a finite table of examples cannot exclude one bad input.", "anchors": ["utils/str.go: ToInt64"]}
{"id": "C108", "title": "Use of the trie without data races", "statement": "Goroutines that add rows to one trie and search it never access the same unsynchronised field of a node at the same time, one of them writing. (Violated: isEnd and data are plain fields. Proved exactly for which calls a race can be reached: one goroutine inserts a row and another one searches, or inserts a row of the same identity; so goroutines that insert rows of different identities, or only search, never race.)", "quantifier": "every sound trie, all calls of any number of goroutines, every interleaving", "why_tests_cant": "The outcome depends on where exactly goroutines are interrupted; a test runs a few interleavings.", "anchors": ["trie/trie.go: Insert", "trie/trie.go: search"]}
{"id": "C109", "title": "Use of roles without data races", "statement": "Goroutines that change and lock roles never access the lock flag of a role at the same time, one of them writing. (Violated: lock is a plain field. Proved exactly for which calls a race can be reached: one goroutine locks or unlocks the role and another one locks, unlocks or changes it; otherwise no interleaving has a race on it.)", "quantifier": "every sound heap of roles, all calls of any number of goroutines, every interleaving", "why_tests_cant": "The outcome depends on where exactly goroutines are interrupted; a test runs a few interleavings.", "anchors": ["role.go: Lock", "role.go: Unlock", "role.go: AddDescendant", "role.go: AddPermission", "role.go: AddPermissionResourceGroup"]}
{"id": "C110", "title": "Managers that share no tenants do not affect each other", "statement": "If no tenant of a manager is added to another manager or linked with a tenant of another, then after any calls on any managers and tenants the manager has the registries, rows, caches and tenants, and makes the decisions, that it has after its own calls alone (those on it, on its tenants, on roles and groups, and the permissions others add to roles). In full, without the condition on tenants, this is false.", "quantifier": "every number of managers, made at any time, every manager, every history of calls", "why_tests_cant": "It must hold after every history of API calls; tests run a few scripted ones.", "anchors": ["role_manager.go: New", "tenant.go: Tenant, AddTenant, AddDescendant and the other methods", "authorize.go: Authorize"]}
{"id": "C111", "title": "Rows go to the manager a tenant was added to last", "statement": "After any calls a tenant points to the manager it was added to last; a method of it takes effect there as if there were no other manager, and in no other one; AddDescendant reaches only the managers of the descendants. That a row added through a tenant is stored in every manager that has the tenant is false.", "quantifier": "every number of managers, made at any time, every history of calls, every tenant and method", "why_tests_cant": "It must hold after every history of API calls; tests run a few scripted ones.", "anchors": ["tenant.go: AddTenant, AddDescendant, AddNamespace, AddPrincipalInNamespace, AddPrincipalWithRole, AddScopeToPrincipal"]}
{"id": "C112", "title": "Concurrent tenant calls act one at a time", "statement": "However calls of tenant methods and registrations in the root package interleave, once they have returned there is an order of them, keeping calls that did not overlap in their order, in which the same calls made one at a time give the same errors, the same tenants, the same registered ids and the same rows. (Violated by AddDescendant, which reads the default namespace of the parent up to three times; proved when no default namespace is changed while a descendant is being added to its tenant and no tenant gets two descendants with the same id; in particular when nobody calls AddDescendant. Without condition: no interleaving of calls on registered tenants dereferences a nil pointer, and once a call has returned without error its row has been inserted.)", "quantifier": "every manager state, every number of goroutines, every choice of calls at every moment, every interleaving", "why_tests_cant": "The outcome depends on where exactly goroutines are interrupted; a test runs a few interleavings.", "anchors": ["tenant.go: AddPrincipalWithRole, AddScopeToPrincipal, SetDefaultNamespace, AddDescendant, AddNamespace, AddScopesToNamespace, AddPrincipalInNamespace, AddRole, AddScope, AddTenant", "namespace.go: AddNamespace", "scope.go: AddScope", "principal.go: AddPrincipal", "permission.go: AddRole"]}
{"id": "C113", "title": "Use of tenants without data races", "statement": "Goroutines that use tenants of the root package never access the field manager or defaultNamespace of a tenant at the same time, one of them writing. (Violated: both are plain fields. Proved exactly between which calls a race can be reached: AddTenant and any other call that uses the manager of the same tenant; SetDefaultNamespace on a tenant, or AddDescendant with it as the descendant, and another such call, a grant in it, or AddDescendant on it. In a run without such pairs there is none.)", "quantifier": "every manager state, every number of goroutines, every choice of calls at every moment, every interleaving", "why_tests_cant": "The outcome depends on where exactly goroutines are interrupted; a test runs a few interleavings.", "anchors": ["tenant.go: Tenant, AddTenant, SetDefaultNamespace, AddDescendant, AddPrincipalWithRole, AddScopeToPrincipal"]}
{"id": "C114", "title": "The answers the repository's tests and examples expect", "statement": "After the setups of examples/main.go, examples/trie.go, examples/v2.go, v1/permission_test.go and v2/v2_test.go the requests made there are answered as these files expect (examples/v2.go and examples/trie.go print answers without an expectation; there they are true, true, false, true, true, and one row), in every iteration order of the maps, with every clock, whatever was asked before, and, in the root package, whatever other goroutines ask meanwhile.", "quantifier": "every map order, every clock, every stack that suffices, every history of requests before; for the root package every number of goroutines and every interleaving", "why_tests_cant": "The tests of the repository check one map order, one moment and one order of the requests per run; map order and interleaving vary from run to run.", "anchors": ["examples/main.go: mai1n", "examples/trie.go: mai2n", "examples/v2.go: main", "v1/permission_test.go: TestAuthorize, TestAllFunctions", "v2/v2_test.go: TestAuthorize_*"]}
{"id": "C115", "title": "Which orders search results can have", "statement": "The lists that Search and SearchFunc can return after given insertions are exactly the lists of the matching rows, each once, in which a row comes before those whose keys start with its keys, and rows whose keys start alike are not separated by others. The rows First can return are exactly the matching ones whose keys do not start with the keys of another matching row.", "quantifier": "every history of insertions, every filter, every list, every map order", "why_tests_cant": "Go map iteration order is unspecified and may change on every run; a test sees a few orders only.", "anchors": ["trie/trie.go: Search, SearchFunc, First, FirstFunc, search"]}
{"id": "C116", "title": "Which implicit tenants and decisions depend on map order", "statement": "If no link leads to an unregistered tenant and the cached lists of descendants are right, then for a principal whose tenants are not cached yet the tenants GetImplicitTenants includes in some map order are the principal's own and those below a tenant where one of its rows that can come first has ManageDescendants; those included in every order are its own and those below one where every such row has it. A row can come first if its values do not start with those of another row of the principal in the tenant. The requests allowed in some order, and in every order, are the ones allowed with these tenants; the answer depends on the order exactly if a request is among the first but not among the second.", "quantifier": "every reachable state, every principal, every request, every map order", "why_tests_cant": "Go map iteration order is unspecified and may change on every run; a test sees a few orders only.", "anchors": ["query.go: GetImplicitTenants", "trie/trie.go: SearchFunc, search", "authorize.go: Authorize"]}
{"id": "C117", "title": "Decisions during changes answer as at one moment", "statement": "A call of Authorize of the root package answers as the same call made at one moment between its beginning and its return, whatever other goroutines do meanwhile. (Violated: a computation of the tenants of the principal that began earlier can overwrite the cached list during the call, so that something is granted which is granted at no moment; and where rows are replaced by others with the same values in order, something can be refused that is granted at every moment. Proved when no row is replaced and the tenants of the principal were cached before the goroutines began: a grant is the answer at the return, a refusal that at the beginning. When no row is replaced: what is granted is allowed at the return by tenants the principal is entitled to, and what is refused was not allowed at the beginning in the principal's tenants of before the goroutines began.)", "quantifier": "every reachable state, every number of goroutines, every list of calls for each, every schedule and map order", "why_tests_cant": "The outcome depends on where exactly goroutines are interrupted; a test runs a few interleavings.", "anchors": ["authorize.go: Authorize, validateResources, check, checkActivity, checkNoActivity", "query.go: GetImplicitTenants", "role_manager.go: TenantChildren", "trie/trie.go: SearchFunc, search", "role.go: Has, GetDescendantRoles"]}
{"id": "C118", "title": "What a recovered panic leaves", "statement": "When a program recovers from panics of calls of the root package, caused by nil pointers, unregistered tenants or values of a wrong type, the manager is as if only calls had been made that returned (one of them possibly the linking of a descendant without the rest of AddDescendant), and decisions afterwards are exactly the right ones for what is stored. A call about one object, a grant, AddPermissionsToRole and TenantChildren that panic change nothing; a call about several objects keeps the objects before the one that panics and does not look at those after it; GetImplicitTenants and Authorize change only what is cached, and a GetImplicitTenants that panics caches no list for the principal; AddDescendant that panics for a descendant without manager leaves the link and nothing else; AddPermission with a nil attribute keeps the attributes before it if the role has the group, and otherwise nothing. A registration panics exactly for a nil object; a call on a role exactly for a nil role, or, unless the role is locked, for a nil argument; AddPermissionsToRole exactly for a registered role and group with a nil attribute after associated ones only; a call on a tenant exactly for want of a manager or for a nil argument; AddDescendant exactly for a nil tenant, or for a descendant without manager when there is a default namespace; TenantChildren never; GetImplicitTenants exactly when nothing is cached and a row of the principal has a tenant that is not a string; Authorize, if the roles in the rows are strings, exactly for a registered principal when an option is nil, when GetImplicitTenants panics, or when the principal has tenants and the first requested resource that is not registered is not a string, or all are registered and a registered role is asked about a group or activity that is not a string; so never where all values are strings.", "quantifier": "every history of calls with nil pointers anywhere among the arguments, every panic recovered from, every map order", "why_tests_cant": "The input space is infinite; a finite table of examples cannot exclude one bad input.", "anchors": ["tenant.go", "role.go: AddDescendant, AddPermission, AddPermissionResourceGroup, AddAttributes, AddPermissionsToRole", "permission.go: AddRole", "principal.go", "namespace.go", "scope.go", "activity.go", "activity_group.go", "role_manager.go: AddData, TenantChildren", "query.go: GetImplicitTenants", "authorize.go: Authorize"]}
{"id": "C119", "title": "v2: what a recovered panic leaves", "statement": "When a program recovers from panics of v2 calls caused by nil pointers, Authorize afterwards gives exactly the right answer for what is stored. (Violated: AddPrincipalRole stores a nil pointer before it dereferences it and panics; from then on Authorize and Can, which walk through all assignments, grant nothing to anybody and panic for requests that were granted, until RemovePrincipalRole is called with an empty target, which removes all assignments. Proved: whatever panics were recovered from, nothing is granted that is not right for what is stored; decisions are exactly right as long as no nil pointer was passed to AddPrincipalRole; and what each call that panics leaves: nothing, or the objects before the nil pointer, or only what is cached; and for every call exactly when it panics: a decision, with the stack it needs, just when a nil pointer is among the assignments and the request names no tenant, or one that has its namespace and scope.)", "quantifier": "every history of v2 calls with nil pointers anywhere among the arguments, every panic recovered from, every map order, every clock", "why_tests_cant": "The input space is infinite; a finite table of examples cannot exclude one bad input.", "anchors": ["v2/v2.go: AddPrincipalRole, RemovePrincipalRole, Authorize, Can, AddTenant, SetExpiry", "v2/role.go: AddPermission, RemovePermission, AddNamespace, AddScopesToNamespace, AddChildTenant, AddRole, AddChildRole, ResolvePermissions, ResolveChildRoles"]}
{"id": "C120", "title": "v1: what a recovered panic leaves", "statement": "When a program recovers from panics of v1 calls caused by nil pointers or tenants without a manager, the manager is exactly as some calls that returned would have left it: its representation is sound, no assignment is lost, and no request granted without group and activity is refused afterwards. A call about one object, every call that assigns roles or scopes, AddRolesToNamespace, AddPermissionsToRole and Authorize leave nothing when they panic; a call about several objects leaves what the objects before the first bad one leave. The exception is AddScopesToNamespace of a tenant without a manager: it panics just when the tenant has the first scope and the namespace, and leaves that scope in the namespace; the namespace may be shared with a registered tenant, and the scope can then give its principals inherited activities they were refused. For every call it is said exactly when it panics; Authorize just for a nil option, or when a registered principal with an assignment in an unregistered tenant asks for an activity only.", "quantifier": "every history of v1 calls with nil pointers anywhere among the arguments, every panic recovered from, every map order", "why_tests_cant": "The input space is infinite; a finite table of examples cannot exclude one bad input.", "anchors": ["v1/tenant.go: AddScopesToNamespace, AddPrincipal, AddPrincipalInNamespace, AssignScopesToPrincipal, AssignScopesWithRole, AddRolesToNamespace, AddScopes, AddRole, AddNamespace, AddDescendent", "v1/role_manager.go: AddTenants, AddPrincipals, AddPrincipalRole, AddPermissionsToRole, Authorize, GetAllowedRoles", "v1/role.go: AddPermission, AddDescendent", "v1/tenant.go: AddRoles, AddScopes of Namespace"]}
{"id": "C121", "title": "What the repository's benchmarks measure", "statement": "The three benchmarks of test/permission_test.go ask the same request of the three packages after what is meant to be the same set-up, and never look at the answer. In the root package it is granted every time; in v1 and v2 it is refused every time: v1 lacks the scope in the namespace, and v2 passes the id of the tenant as its default namespace, so that adding the scopes fails. With the scope added to the namespace, and with the namespace in place of the id, both would be granted every time. The benchmark of the trie finds its row once, however often it was inserted.", "quantifier": "every number of repetitions, every map order, every clock, every stack that suffices; for the root package every number of goroutines and every interleaving", "why_tests_cant": "A benchmark does not check an answer, and a test would check it in one map order.", "anchors": ["test/permission_test.go: BenchmarkV2, BenchmarkMain, BenchmarkV1", "v2/entities.go: NewTenant", "trie/trie_test.go: BenchmarkInsert"]}
{"id": "C122", "title": "How many calls Role.Has makes", "statement": "The number of calls of Role.Has, recursive ones included, that answering one question takes is bounded by a polynomial in the number of roles. (Violated: Has asks every role returned by GetDescendantRoles, which already lists all transitive descendants, and each of them does the same; in a chain of n + 1 roles that have the group but no matching permission, the topmost role makes exactly 2^n calls. Proved, for every hierarchy: at most 1 + the sum of 2^k over all walks of k + 1 links, with equality when the question is refused and every role has the group; at most one call per direct descendant when these have no descendants of their own; at most (2N + 1)^H for N direct descendants and height H.)", "quantifier": "every heap of roles, every question, every list of allowed descendants, every map order, every stack", "why_tests_cant": "Tests use three or four roles, where 2^n is small; the bound is about all hierarchies.", "anchors": ["role.go: Has, GetDescendantRoles", "v1/role.go: Has, GetDescendantRoles"]}
{"id": "C123", "title": "How often listings of descendants repeat", "statement": "No role or tenant is listed twice by Role.GetDescendantRoles, Tenant.GetDescendants and, in v1, GetDescendantTenants. (Violated: a descendant is listed exactly as often as there are walks down to it, so a team shared by two departments appears twice. Proved: this count, for all three; no repetition exactly when there is one walk at most to each; none when every role has one parent at most.)", "quantifier": "every reachable manager or heap, every object, every map order, every stack", "why_tests_cant": "A test looks at one hierarchy; the count is a sum over all walks of any hierarchy.", "anchors": ["role.go: GetDescendantRoles", "tenant.go: GetDescendants", "v1/role.go: GetDescendantRoles", "v1/tenant.go: GetDescendantTenants"]}
{"id": "C124", "title": "How often implicit permissions repeat", "statement": "GetAllImplicitPermissions lists no attribute twice under a group. (Violated already by a chain of three roles: the permission of the lowest is listed twice for the topmost, and 2^n times in a chain of n + 2. Proved, for every hierarchy: once for the role itself and 2^i times for each walk of i + 1 links down to a role that has the attribute in its own group of that name; once at most if the direct descendants have no descendants of their own and only one of the roles has it.)", "quantifier": "every heap of roles, every role, every map passed in, every map order, every stack", "why_tests_cant": "The existing use looks at one hierarchy of two levels, where nothing repeats.", "anchors": ["role.go: GetAllImplicitPermissions", "v1/role.go: GetAllImplicitPermissions"]}
{"id": "C125", "title": "v1: calls take effect in the manager a tenant was added to last", "statement": "With several v1 managers that share tenants, namespaces and roles: a tenant points to the manager it was added to last and to none before; a method of it takes effect there as if there were no other manager, and changes no registry and no assignment of another one. Every assignment a manager has, and every access it grants that needs one, comes from a call that reached it; every manager decides exactly by its own registries and assignments. That an assignment made through a tenant is one in every manager that has the tenant is false.", "quantifier": "every number of managers, made at any time, every history of calls, every tenant and method, every request, every map order", "why_tests_cant": "It must hold after every history of API calls; tests run a few scripted ones with one manager.", "anchors": ["v1/role_manager.go: New, AddTenant, AddPrincipalRole, Authorize", "v1/tenant.go: AddPrincipalRole, AddPrincipal, AddPrincipalInNamespace, AssignScopesToPrincipal, AssignScopesWithRole, AddScopesToNamespace"]}
{"id": "C126", "title": "v1: calls that do not reach a manager do not change its answers", "statement": "With several v1 managers, a call that does not reach a manager changes none of its answers. (Violated: a permission another manager adds to a shared role is granted by both. Proved for every call that concerns no role registered with the manager (C131), no tenant registered with it and no namespace of such a tenant, in particular for all registrations and assignments with another manager, also through a tenant both have.)", "quantifier": "every number of managers, every history of calls, every call, every request, every map order", "why_tests_cant": "It must hold after every history of API calls; tests run a few scripted ones with one manager.", "anchors": ["v1/role_manager.go: New, AddTenant, AddPermissionsToRole, Authorize", "v1/tenant.go: all methods"]}
{"id": "C127", "title": "v2: each of several authorizers works as if it were alone", "statement": "With several v2 authorizers that share roles, tenants and assignments: every call on an authorizer or an object has the outcome, and leaves the state, it has for an authorizer that is alone in its program and notices the calls on objects and the calls on itself in the order of the program. A call on one authorizer changes no object and nothing of another; whatever is done to the others, Authorize and Can do not change; every grant is exact for the registries of the authorizer asked.", "quantifier": "every number of authorizers, made at any time, every history of calls, every request, every clock and map order", "why_tests_cant": "It must hold after every history of API calls; tests run a few scripted ones with one authorizer.", "anchors": ["v2/v2.go: NewAuthorizer, AddPrincipalRole, RemovePrincipalRole, Authorize, Can", "v2/init.go: all methods", "v2/role.go: all methods"]}
{"id": "C128", "title": "v2: authorizers given the same registrations agree", "statement": "Two v2 authorizers on which the same things were registered, in the same order, grant the same requests. (Violated: one that was asked before a shared role lost a permission still grants it, the other does not. Proved: what is registered depends on the calls on the authorizer alone, not on what happened meanwhile to the objects, elsewhere, or on the decisions asked; and the two agree if the roles of the principal that are cached are cached with their current permissions, in particular in every program that changes no role after the first decision and does not call Can.)", "quantifier": "every number of authorizers, every history of calls, every pair of authorizers, every request, every clock without expiry during the call, every map order, tenant ids that identify tenants", "why_tests_cant": "It must hold after every history of API calls; tests run a few scripted ones with one authorizer.", "anchors": ["v2/v2.go: NewAuthorizer, AddPrincipalRole, RemovePrincipalRole, Authorize", "v2/role.go: ResolvePermissions, RemovePermission"]}
{"id": "C129", "title": "MatchResource does linear work when it returns", "statement": "A call of MatchResource that returns has gone round its loop at most once more than the pattern is long and has read at most five bytes for each byte of the pattern and two for each byte of the value: there is no backtracking. A call that hangs reads without end.", "quantifier": "every value, every pattern, every number of iterations", "why_tests_cant": "A benchmark measures a few pairs; the bound is about all pairs of strings.", "anchors": ["utils/str.go: MatchResource"]}
{"id": "C130", "title": "v2: the work of a decision is polynomial", "statement": "Authorize and Can of v2 call traverse, for each registered tenant, at most 1 + (assignments \u00d7 child links) times, and read at most 2 \u00d7 assignments \u00d7 tenants assignments there, whatever the tenant graph, also with cycles and shared children; if a tenant is named, for this tenant only. Resolving a role takes at most 1 + (role links) rounds.", "quantifier": "every reachable authorizer, every request, every clock, map order and stack", "why_tests_cant": "Tests use three or four tenants; the bound is about all tenant graphs.", "anchors": ["v2/v2.go: resolvePrincipalPermissions, resolvePrincipalRoles, Authorize, Can", "v2/role.go: ResolvePermissions, ResolveChildRoles"]}
{"id": "C131", "title": "Calls on other roles and groups do not change what a role grants", "statement": "The answers of Has, GetDescendantRoles, GetAllImplicitPermissions and GetPermissions for a role are not changed by any history of calls that concern neither the role, nor a descendant of it, nor a group one of these has; a call on another role concerns it only by adding permissions to a group they share. Making roles and groups, locking and unlocking, and calls on locked roles never change an answer. Such calls change no decision of a manager in which the role is not registered, in the root package and in v1. That calls on other roles never matter, whatever groups they share, is false.", "quantifier": "every heap of roles and groups, every history of calls, every role, every question, map order and stack; every reachable manager", "why_tests_cant": "It must hold for every history and every sharing of groups; tests look at one role at a time.", "anchors": ["role.go: Has, GetDescendantRoles, GetAllImplicitPermissions, GetPermissions, AddDescendant, AddPermission, AddPermissionResourceGroup, Lock, Unlock, AddAttributes of AttributeGroup", "v1/role.go: the same", "authorize.go: checkActivity", "v1/role_manager.go: Authorize"]}
{"id": "C132", "title": "What a search of the trie costs", "statement": "Search, SearchFunc and Data visit each node of the trie exactly once: the root and one node for every beginning of the keys of an inserted row; they pass each stored row to the callback exactly once and return the accepted ones in the order in which they were passed. First and FirstFunc visit no node twice, pass no row twice, and stop at the first accepted row; if there is none they visit all nodes. No search visits more than one node plus one for every non-nil key of every inserted row.", "quantifier": "every history of insertions (any row type, key extractor and match function), every callback, every map order", "why_tests_cant": "A test or benchmark looks at one trie in one map order.", "anchors": ["trie/trie.go: Insert, First, FirstFunc, Search, SearchFunc, search, Data"]}
{"id": "C133", "title": "How often Authorize of the root package searches the trie", "statement": "Authorize searches the trie of assignments once for the tenants of the principal, unless they are cached, and then makes one check for the request and, until one succeeds, one for each tenant of the principal; a refused request is checked for all of them, except that a tenant it names is left out if it happens to come first. A check searches once or twice if the request names a tenant, and once plus twice for every assignment (without activity: once for every tenant) of the principal if it names only namespace and scope; such a check does not depend on the tenant, but is repeated for every tenant.", "quantifier": "every history of calls, every principal and request, every map order and stack", "why_tests_cant": "Tests look at answers, not at work; the count is for every state.", "anchors": ["authorize.go: Authorize, authorize, checkNoActivity, checkActivity, collectRoles, collectRolesByTenantAndNamespace, collectRolesByTenantAndScope, collectRolesByNamespaceAndScope, collectRolesByTenantNamespaceAndScope", "query.go: search, GetImplicitTenants, GetTenantsByPrincipal, GetScopeForPrincipalByNamespace"]}
{"id": "C134", "title": "How often the first decision for a principal walks the tenant hierarchy", "statement": "A decision of the root package calls Tenant.GetDescendants polynomially often in the number of tenants and assignments. (Violated: a managed tenant is listed with one call for every walk down from it, so with n + 1 tenants of which each has all earlier ones as descendants, and a single assignment, the first decision makes 2^n calls. Proved: this count, for every hierarchy; only tenants the principal manages and whose list is not cached are listed, each once; after one decision for a principal there are no more calls; at most assignments \u00d7 tenants calls if every tenant has one parent at most; at most (N + 1)^H for each assignment with N children at most and height H.)", "quantifier": "every history of calls, every principal and request, every map order and stack", "why_tests_cant": "Tests use three or four tenants in a line; the count is about all hierarchies.", "anchors": ["tenant.go: GetDescendants, AddDescendant", "role_manager.go: TenantChildren", "query.go: GetImplicitTenants", "authorize.go: Authorize"]}
{"id": "C135", "title": "v2: the expiry of an assignment gives no access", "statement": "A request a v2 authorizer refuses is not granted later because an assignment has expired in between. (Violated: permissions for the requested scope hide those of unscoped assignments, so when the assignment for the scope expires the unscoped ones come back. Proved for requests without scope and for Can; and for a named tenant a request granted later is refused now exactly if there are permissions for the requested scope, none of them for the request, that are all gone later.)", "quantifier": "every reachable authorizer, every request, every two times, every map order, tenant ids that identify tenants, no expiry during a call", "why_tests_cant": "Tests look at one time; the claim compares all pairs of times for all assignments.", "anchors": ["v2/v2.go: Authorize, Can, resolvePrincipalPermissions, IsExpired"]}
{"id": "C136", "title": "v2: removing an assignment gives no access", "statement": "A request a v2 authorizer refuses is not granted after RemovePrincipalRole. (Violated: removing the assignment for a scope uncovers the unscoped permissions it was hiding. Proved for requests without scope and for Can; and for a named tenant exactly when a removal gives access.)", "quantifier": "every reachable authorizer, every removal, every request, every clock and map order, tenant ids that identify tenants", "why_tests_cant": "Tests check that a removal takes access away; that it never gives any is about all sets of assignments.", "anchors": ["v2/v2.go: RemovePrincipalRole, Authorize, Can, resolvePrincipalPermissions"]}
{"id": "C137", "title": "v2: removing a permission from a role gives no access", "statement": "A request a v2 authorizer refuses is not granted after RemovePermission on a role. (Violated: when the role assigned for a scope loses its last permission the unscoped ones come back. Proved for requests without scope and for Can; and for a named tenant exactly when it happens, whatever the role cache holds.)", "quantifier": "every reachable authorizer, every role object and list of permissions, every request, every clock and map order, tenant ids that identify tenants", "why_tests_cant": "Tests remove one permission and ask for that one.", "anchors": ["v2/role.go: RemovePermission, ResolvePermissions", "v2/v2.go: Authorize, Can, resolvePrincipalPermissions"]}
{"id": "C138", "title": "v2: giving a role more takes no access away", "statement": "A request a v2 authorizer grants is granted after AddPermission on a role and after AddChildRole. (Violated: the first permission of a role assigned for a scope, its own or from a child role, hides all unscoped permissions. Proved for requests without scope and for Can; and for a named tenant exactly when access is lost.)", "quantifier": "every reachable authorizer, every role object and list of permissions, every parent and child roles, every request, every clock and map order, tenant ids that identify tenants", "why_tests_cant": "Tests add a permission and ask for that one, not for the others.", "anchors": ["v2/role.go: AddPermission, AddChildRole, ResolvePermissions", "v2/v2.go: Authorize, Can, resolvePrincipalPermissions"]}
{"id": "C139", "title": "v2: an assignment given an expiry duration ends", "statement": "When SetExpiryDuration of v2 reports no error, the assignment ends. (Violated: a text that is no duration is ignored without an error, so an assignment given \"1d\" never ends. Proved, for time.ParseDuration as modelled: the texts read are exactly an optional sign followed by 0 or by terms of a decimal number and one of the units h, m, s, ms, us, ns that add up, in 64 bits, to what a duration can hold; these set the expiry to that sum after now, where a term without fraction counts exactly and one with a fraction, computed in float64, to less than two nanoseconds; any other text changes nothing in the authorizer.)", "quantifier": "every text of any length, every assignment, every time", "why_tests_cant": "A test sets a few well-formed durations.", "anchors": ["v2/v2.go: SetExpiryDuration", "v2/v2.go: IsExpired"]}
{"id": "C140", "title": "Decisions keep a bounded amount of memory", "statement": "However many calls of Authorize are made, whatever they ask, nothing is kept of them but entries of the two caches of the root package, at most one for each registered principal and one for each registered tenant, each a set of tenants that the principal is a member of or manages, or that lie below the tenant; so the caches cannot grow beyond a bound given by what is registered. The same for Authorize and Can of v2: at most one set for each role of an assignment, of names and permissions of registered roles at or below it. (GetImplicitTenants and ResolvePermissions called directly have no such bound: both are proved to keep an entry for every unknown text they are asked about.)", "quantifier": "every reachable state, every number of decisions, every request, every clock and map order", "why_tests_cant": "A test makes a few calls; the bound is about any number of them.", "anchors": ["authorize.go: Authorize", "query.go: GetImplicitTenants", "role_manager.go: TenantChildren", "v2/v2.go: Authorize, Can, resolvePrincipalPermissions, resolvePrincipalRoles", "v2/role.go: ResolvePermissions, ResolveChildRoles"]}
{"id": "C141", "title": "Ids have no meaning in the root package", "statement": "If in a history of calls every id of a tenant, namespace, scope, principal or role and every group name is replaced, different ids by different ids, then the renamed history completes, panics or does not return exactly as the first one does, and afterwards every request and its renamed form have the same outcome: no id is treated specially, whatever its characters or length, the empty one included, and no two ids are confused. All kinds of ids have to be renamed alike: a scope with the id of a namespace of the same tenant takes the place of its row.", "quantifier": "every history of calls, every injective renaming, every later request, every choice of map orders (the renamed calls run in the corresponding orders) and stack", "why_tests_cant": "The claim compares two runs for all texts that ids can be; a test uses a few harmless ids.", "anchors": ["authorize.go: Authorize", "query.go: all queries", "role_manager.go: RoleManager, TenantChildren, AddData", "tenant.go: all methods", "role.go: Has, AddDescendant, AddPermission, AddPermissionsToRole", "filters.go: all filters", "trie/trie.go: Insert, SearchFunc"]}
{"id": "C142", "title": "Ids have no meaning in v2", "statement": "If in a history of v2 calls the ids of tenants, principals, namespaces, scopes and roles are replaced, for each kind different ids by different ids (the empty text, which stands for none, stays), then afterwards every request and its renamed form have the same outcome, and the audit log holds the renamed records. (Violated for role names: Can leaves role names in the cache from which Authorize takes permissions, so a role that is named like a request grants it, and under another name it does not. Proved for all other ids; and for role names too, for Authorize after histories without Can and for Can after histories without Authorize.)", "quantifier": "every history of calls, every injective renaming of each kind, every later request, every choice of map orders and clock readings (the renamed calls run in the corresponding ones) and stack", "why_tests_cant": "The claim compares two runs for all texts that ids can be; a test uses a few harmless ids.", "anchors": ["v2/v2.go: Authorize, Can, resolvePrincipalPermissions, resolvePrincipalRoles, findTargetTenants, AddPrincipalRole, RemovePrincipalRole, Log", "v2/role.go: all methods", "v2/init.go: all methods"]}
{"id": "C143", "title": "Ids have no meaning in v1", "statement": "If in a history of v1 calls the ids of tenants, principals, namespaces, scopes and roles and the group names are replaced, for each kind different ids by different ids (the empty text, which stands for none, stays), then afterwards every request and its renamed form have the same outcome. (Violated for ids with an underscore: assignments are stored as texts that are cut at every underscore, so the principal a_b with role r in tenant t is taken for a with role b in tenant r. Proved whenever neither the old nor the new ids of assignments contain one: then the two histories complete alike, and queries list the same tenants, rows and roles under their new names.)", "quantifier": "every history of calls, every injective renaming of each kind, every later request, every choice of map orders (the renamed calls run in the corresponding orders) and stack", "why_tests_cant": "The claim compares two runs for all texts that ids can be; a test uses a few harmless ids.", "anchors": ["v1/role_manager.go: Authorize, GetAllowedRoles, GetTenantsForPrincipal, GetPrincipalRoles, AddPrincipalRole, getTenantPrincipals", "v1/tenant.go: all methods", "v1/role.go: Has"]}
{"id": "C144", "title": "Repeating a call changes nothing (root package)", "statement": "A call that changes the manager, a tenant, a role or a group, made twice in a row instead of once, ends in the same state: all later calls, queries and decisions have the same outcome. This holds for every such call but the constructors, also for calls that fail with an error halfway (a list with an unknown role), that link tenants to themselves or to each other, or that were made with locked roles. The two calls must follow each other: a namespace added again after a scope with the same id changes a decision.", "quantifier": "every history of calls before and after, every repeated call with every argument, every later request, map order and stack", "why_tests_cant": "The claim compares two runs from every reachable state for every call; a test repeats a few calls in a few states.", "anchors": ["tenant.go: all methods", "role_manager.go: AddData", "role.go: AddDescendant, AddPermission, AddPermissionResourceGroup, AddPermissionsToRole, Lock, UnLock", "activity_group.go: AddAttributeGroup", "activity.go: AddAttribute", "trie/trie.go: Insert"]}
{"id": "C145", "title": "v1: repeating a call changes nothing", "statement": "A v1 call that changes the manager, a tenant, a namespace, a role or a group, made twice in a row instead of once, ends in the same state: all later calls, queries and decisions have the same outcome. (Violated by AssignScopesToPrincipal: it stores an assignment without a role, which a second call takes for another role and repeats in the default namespace; the list of allowed roles of a later request is then empty, which means no restriction, so a request refused after one call is granted after two. Proved for every other call but the constructors, and for AssignScopesToPrincipal if the tenant has no default namespace or the principal already has an assignment without a role there; in all cases a third call changes nothing.)", "quantifier": "every history of calls before and after, every repeated call with every argument and in every map order, every later request, map order and stack", "why_tests_cant": "The claim compares two runs from every reachable state for every call; a test repeats a few calls in a few states.", "anchors": ["v1/tenant.go: all methods", "v1/role_manager.go: AddTenant, AddNamespace, AddScope, AddPrincipal, AddRole, AddAttribute, AddAttributeGroup, AddPrincipalRole, AddPermissionsToRole, GetPrincipalRoles, GetTenantRoles", "v1/role.go: AddDescendent, AddPermission, AddPermissionResourceGroup"]}
{"id": "C146", "title": "v2: repeating a call changes nothing", "statement": "A v2 call that changes the authorizer, a tenant, a role or an assignment, made twice in a row instead of once, ends in the same state: all later calls and decisions have the same outcome. (Violated by AddChildRole: it stores the link twice, and when later the parent is to become the child of another role the two links are taken for a cycle and the call is refused, so that role does not get the permissions. Proved for every other call but AddPrincipalRole and the constructors, where RemovePrincipalRole reports an error the second time or panics at a nil entry the first one left; and for all calls, AddChildRole and AddPrincipalRole too, the decisions made right after the second call are those made right after the first.)", "quantifier": "every reachable authorizer, every repeated call with every argument, every later call; for the appending calls every request, clock and map order, tenant ids that identify tenants", "why_tests_cant": "The claim compares two runs from every reachable state for every call; a test repeats a few calls in a few states.", "anchors": ["v2/role.go: all methods", "v2/init.go: all methods", "v2/v2.go: SetExpiry, SetExpiryDuration, ClearExpiry, SetDefaultTenant, AddPrincipalRole, RemovePrincipalRole, Authorize, Can"]}
{"id": "C147", "title": "Earlier questions do not change later answers", "statement": "Calls of Authorize, GetImplicitTenants and TenantChildren of the root package made earlier do not change the answer to a later request. (Violated: the tenants of a principal and the descendants of a tenant are kept from the first time they are looked up. A principal asked about before its first grant is refused for ever, one that is put in another tenant after it was asked about does not get what that tenant gives, and a question about one principal, asked before the hierarchy is complete, can deny a request of another. Proved: leaving out all questions leads to the same state but for the two caches; in every decision rows, roles and registrations count as they are now, the tenants of the principal as they were at the one moment of their first look-up; the answer is what it would be without earlier questions if only the named tenant grants the request and the principal is in some tenant now and was then, and if all questions were asked after all other calls and the answer does not depend on the order of maps.)", "quantifier": "every history of calls, every later request, every map order and stack", "why_tests_cant": "The claim compares every history with the one without its questions; a test asks once, after the setup.", "anchors": ["authorize.go: Authorize", "query.go: GetImplicitTenants", "role_manager.go: TenantChildren", "tenant.go: all methods"]}
{"id": "C148", "title": "v2: earlier questions do not change later answers", "statement": "Calls of Authorize and Can of a v2 authorizer made earlier do not change the answer to a later one. (Violated: what a role grants is kept from the first time a decision goes by it, and Can keeps role names where Authorize looks for permissions; asking Can makes a later Authorize deny what it would have granted, and the other way round. Proved: leaving out all decisions leads to the same state but for the role cache and the log, and no other call fails or succeeds differently; in every decision a role counts with what the first decision that went by it found - its permissions and those below it at that moment for an Authorize, the names of the roles at and below it for a Can - and a role no decision has gone by with what it grants now; the answer is what it would be without earlier questions if the principal's roles were gone by only by decisions of the same kind and grant what they granted then.)", "quantifier": "every history of calls, every later request, every clock and map order; for the comparison of answers tenant ids that identify tenants and no assignment that expires during the call", "why_tests_cant": "The claim compares every history with the one without its decisions; a test asks once, after the setup.", "anchors": ["v2/role.go: all methods", "v2/v2.go: Authorize, Can, resolvePrincipalPermissions, resolvePrincipalRoles, AddPrincipalRole, RemovePrincipalRole", "v2/init.go: all methods"]}
{"id": "C149", "title": "The order of grants does not matter", "statement": "In the root package a block of grants - AddData and the methods of a tenant that store rows - made in another order leads to the same answers. (Violated: rows are keyed by their texts without the fields, so giving a tenant a namespace and a scope with one id leaves only the one given last. Proved: a block in another order goes through if the block does and stores the same rows; if no two of its rows have one id in different fields, the same rows are stored afterwards and every request whose answer does not depend on the order of maps has the same answer. Setting the default namespace is not such a call: set before a grant it is granted too, set after it is not.)", "quantifier": "every reachable state, every block of grants and every permutation of it, grants that fail with an error included, every later request, map order and stack", "why_tests_cant": "A test makes its grants in one order; the claim is about all permutations of all blocks.", "anchors": ["tenant.go: AddNamespace, AddScopesToNamespace, AddPrincipalInNamespace, AddRole, AddScope, AddPrincipalWithRole, AddPrincipal, AddScopeToPrincipal, AssignScopesToPrincipal, SetDefaultNamespace", "role_manager.go: AddData", "trie/trie.go: Insert", "authorize.go: Authorize"]}
{"id": "C150", "title": "v2: the order of grants does not matter", "statement": "In v2 a block of grants - AddPermission on roles, AddChildRole, AddPrincipalRole - made in another order leads to the same answers of Authorize and Can. (Violated: AddChildRole takes a role met twice on the way down for a cycle, so a role can get two children that share one only if they share it later; in the other order the call is refused and the principals of the role do not get its permissions. Proved: a block adds exactly its permissions, its assignments and the links of its AddChildRole calls that are not refused; if the same links are made in both orders, in particular if nothing is refused in either, all answers are the same; without AddChildRole a block that goes through does so in every order.)", "quantifier": "every reachable authorizer, whatever its role cache holds, every block of grants and every permutation of it, every later request, clock and map order, tenant ids that identify tenants, no expiry during a call", "why_tests_cant": "A test makes its grants in one order; the claim is about all permutations of all blocks.", "anchors": ["v2/role.go: AddPermission, AddChildRole, checkCircularDependency", "v2/v2.go: AddPrincipalRole, Authorize, Can"]}
{"id": "C151", "title": "v1: the order of grants does not matter", "statement": "In v1 a block of grants - AddPrincipalRole of the manager and AddPrincipalRole, AddPrincipal, AddPrincipalInNamespace, AssignScopesToPrincipal and AssignScopesWithRole of tenants - made in another order leads to the same answers. (Violated: AssignScopesToPrincipal gives the scopes to the roles the principal has, so called before the first role it assigns nothing, without an error. Proved for grants that do not go by assignments made in the block: AddPrincipalRole, AddPrincipal, AddPrincipalInNamespace with a list of roles, and AssignScopesWithRole for principals that have an assignment in the tenant before the block: such a block that goes through does so in every order, the same assignments are stored, and every request has the same answer. For all grants only the order of the grants for one principal matters, as long as the ids of the principals have no underscore; with one, an assignment can be read as one of another principal, and the order of grants for different principals matters too.)", "quantifier": "every reachable state, every block of such grants and every permutation of it, every later request, map order and stack", "why_tests_cant": "A test makes its grants in one order; the claim is about all permutations of all blocks.", "anchors": ["v1/role_manager.go: AddPrincipalRole, Authorize", "v1/tenant.go: AddPrincipalRole, AddPrincipal, AddPrincipalInNamespace, AssignScopesToPrincipal, AssignScopesWithRole"]}
{"id": "C152", "title": "v2: taking back what was granted undoes it", "statement": "In v2 a grant that is taken back right away - AddPrincipalRole and RemovePrincipalRole of the same assignment, AddPermission and RemovePermission of the same permissions, SetExpiry and ClearExpiry - leaves all answers as they were before. (Violated: what is taken back is not told from what was there already. A role assigned a second time and taken back is gone, a permission given again and taken back is gone, and an expiry set and cleared makes an assignment that had ended count again. Proved: the authorizer is exactly as before, but for the index of assignments, which no decision reads, if and only if nothing of the kind was there already; then all answers are as before.)", "quantifier": "every reachable authorizer without nil entries in its list of assignments, every grant, every later request, clock and map order; for the answers tenant ids that identify tenants, no expiry during a call", "why_tests_cant": "A test takes back what it granted in a fresh authorizer; the claim is about all authorizers.", "anchors": ["v2/v2.go: AddPrincipalRole, RemovePrincipalRole, SetExpiry, ClearExpiry, Authorize, Can", "v2/role.go: AddPermission, RemovePermission"]}
{"id": "C153", "title": "v2: granting again what was taken away restores access", "statement": "In v2 an assignment or a permission that was there, taken away and granted again right away - RemovePrincipalRole and AddPrincipalRole of the assignments it selects, RemovePermission and AddPermission of the same permissions - leaves all answers as they were before. (Violated: if an assignment that is taken away stands before one that stays, RemovePrincipalRole leaves a nil entry in the list, which the new grant does not mend, and every later decision that comes to the assignments panics, whoever it is about. Proved for permissions, and for assignments if those taken away are the last ones: the same assignments and permissions are there again, and all answers are as before.)", "quantifier": "every reachable authorizer without nil entries in its list of assignments, whatever its role cache holds, every assignment target and list of permissions, every later request, clock and map order; for the answers tenant ids that identify tenants, no expiry during a call", "why_tests_cant": "A test revokes the one assignment it made; the fault shows only if another one follows it in the list.", "anchors": ["v2/v2.go: RemovePrincipalRole, AddPrincipalRole, Authorize, Can", "v2/role.go: RemovePermission, AddPermission"]}
{"id": "C154", "title": "v2: setting up more takes no access away", "statement": "In v2 adding a namespace to a tenant (not as its default), adding scopes to a namespace, or registering a tenant takes no access away: what Authorize and Can granted before is granted afterwards. (Violated: a request without namespace about a tenant without default namespace goes by the only namespace, so adding a second one refuses all such requests, whatever was granted; and AddTenant puts a tenant in the place of another one with the same id. Proved for all other cases: adding scopes takes nothing away, adding a namespace only from requests that name none and only if the tenant has exactly one namespace and no default, registering a tenant only if another one has its id.)", "quantifier": "every reachable authorizer, whatever its role cache holds, every such call, every later request, clock and map order; tenant ids that identify tenants, no expiry during a call", "why_tests_cant": "A test sets everything up before it asks; the claim compares the answers before and after each call in every state.", "anchors": ["v2/role.go: AddNamespace, AddScopeToNamespace", "v2/init.go: AddTenant", "v2/v2.go: findTargetTenants, Authorize, Can"]}
{"id": "C155", "title": "v2: linking child tenants takes no access away", "statement": "In v2 AddChildTenant with tenants that do not take the place of other children takes no access away: what Authorize and Can granted before is granted afterwards. (Violated: permissions for the requested scope that a principal has in the new child keep its permissions without scope from being used; who may read in every scope of a tenant and its children is refused in one as soon as a tenant is linked in which the same principal has another role for a scope of that name. Proved: requests without scope and all calls of Can lose nothing; a request with scope is refused afterwards only if there was no permission for the scope before, there is one now and none of those there now is for the request, and for a named tenant exactly then.)", "quantifier": "every reachable authorizer, whatever its role cache holds, every such call, every later request, clock and map order; tenant ids that identify tenants, no expiry during a call", "why_tests_cant": "A test links its tenants before it asks; the claim compares the answers before and after the call in every state.", "anchors": ["v2/role.go: AddChildTenant", "v2/v2.go: Authorize, Can, resolvePrincipalPermissions, resolvePrincipalRoles"]}
{"id": "C156", "title": "v2: objects that are not registered have no effect", "statement": "In v2 creating roles, tenants and assignments, and changing roles that are not registered, tenants that are neither registered nor below a registered one, and assignments that have not been added, changes no answer of Authorize and Can, however many such calls there are; all that is registered is as before.", "quantifier": "every reachable authorizer, every list of such calls, every later request, clock and map order; tenant ids that identify tenants, no expiry during a call", "why_tests_cant": "A test registers what it creates; the claim is about every object that is not and every call on it.", "anchors": ["v2/entities.go: NewRole, NewTenant", "v2/role.go: AddPermission, RemovePermission, AddNamespace, AddScopeToNamespace, AddChildTenant", "v2/v2.go: SetExpiry, SetExpiryDuration, ClearExpiry, Authorize, Can"]}
