import Verif.Model.Manager

/-!
# Model of /repo/v1 (tenant.go, role_manager.go, options.go, permission.go)

Package `v1` keeps assignments as strings in a set and decodes them on every query.  Its roles and
attribute groups are those of `Verif.Model.Role` (v1/role.go is role.go with `AddDescendent` for
`AddDescendant`), its options those of `Request` / `Opt` (v1/options.go:3-39; `WithResourceGroup` sets
`group`).

Tenants and namespaces are mutable objects reached through pointers: they live in a heap and a pointer is
an index.  Scopes and principals are never mutated and are stored under their own id, so a pointer to one
is an opaque token beside the id.  Nil pointers passed by a caller (all panic) are not modelled, except
the nil namespace and nil scope that `AddPrincipalRole` accepts.  There is one `RoleManager`
(several: `Model/V1Managers.lean`); a tenant whose `manager` field is nil has `managed = false`.  `stringSlice` and `principalRoleSlice` are pools of
scratch slices, handed out empty (utils/pool.go:11-25); the model uses fresh lists.  The slice returned by
`GetAllowedRoles` shares memory with the pool, but both callers copy it before the next `Get`.
-/

namespace Verif

/-- `TenantPrincipal` (v1/role_manager.go:24-31): one assignment. -/
structure TP where
  tenant : Str := []
  principal : Str := []
  role : Str := []
  namespace_ : Str := []
  scope : Str := []
  manage : Bool := false
  deriving DecidableEq, Repr

/-- `Namespace` (v1/tenant.go:185-189). -/
structure NsObj where
  id : Str
  roles : GoMap Str Nat := []
  scopes : GoMap Str Nat := []
  deriving DecidableEq, Repr

/-- `Tenant` (v1/tenant.go:7-15); maps hold heap addresses (scopes: tokens). -/
structure T1Obj where
  id : Str
  namespaces : GoMap Str Nat := []
  roles : GoMap Str Nat := []
  scopes : GoMap Str Nat := []
  desc : GoMap Str Nat := []
  defNs : Option Nat := none
  managed : Bool := false
  deriving DecidableEq, Repr

/-- `RoleManager` (v1/role_manager.go:33-42; `New`, v1/role_manager.go:44-55, makes an empty one) with the objects it can reach.  `tps` are the keys of
`tenantPrincipals`.  `log` is not in the code: it records what `AddPrincipalRole` was asked to store. -/
structure V1 where
  heap : RHeap := {}
  nsobjs : List NsObj := []
  tobjs : List T1Obj := []
  tenants : GoMap Str Nat := []
  namespaces : GoMap Str Nat := []
  scopes : GoMap Str Nat := []
  principals : GoMap Str Nat := []
  roles : GoMap Str Nat := []
  attrs : GoMap Str Nat := []
  attrGroups : GoMap Str Nat := []
  tps : List Str := []
  log : List TP := []
  deriving DecidableEq, Repr

/-- `strings.Split(s, sep)` for a one-byte separator: never empty. -/
def splitByte (sep : UInt8) : Str → List Str
  | [] => [[]]
  | c :: cs =>
    if c = sep then [] :: splitByte sep cs
    else
      match splitByte sep cs with
      | [] => [[c]]
      | p :: ps => (c :: p) :: ps

namespace V1

/-- `fmt.Sprintf("%s_%s_%s_%s_%s_%v", …)` of `AddPrincipalRole` (v1/role_manager.go:295). -/
def encode (x : TP) : Str :=
  x.principal ++ str "_" ++ x.role ++ str "_" ++ x.tenant ++ str "_" ++ x.namespace_ ++ str "_" ++ x.scope ++
    str "_" ++ (if x.manage then str "true" else str "false")

/-- `getTenantPrincipals` (v1/role_manager.go:274-288): `parts[5]` panics on fewer than six parts. -/
def decode (hash : Str) : Out TP :=
  match splitByte 95 hash with
  | p :: r :: t :: n :: s :: f :: _ =>
    .ok { tenant := t, principal := p, role := r, namespace_ := n, scope := s, manage := decide (f = str "true") }
  | _ => .panic

/-! ### Registration -/

/-- `NewTenant` (v1/permission.go:7-15). The address is `tobjs.length`. -/
def newTenant (w : V1) (id : Str) : V1 := { w with tobjs := w.tobjs ++ [{ id := id }] }

/-- `NewNamespace` (v1/permission.go:16-22). The address is `nsobjs.length`. -/
def newNamespace (w : V1) (id : Str) : V1 := { w with nsobjs := w.nsobjs ++ [{ id := id }] }

/-- `AddAttribute` (v1/role_manager.go:57-63). -/
def addAttribute (w : V1) (a : Attr) (obj : Nat) : Nat × V1 :=
  match w.attrs.get a.toStr with
  | some d => (d, w)
  | none => (obj, { w with attrs := w.attrs.set a.toStr obj })

/-- `AddAttributeGroup` (v1/role_manager.go:79-85). -/
def addAttributeGroup (w : V1) (ga : Nat) : Out (Nat × V1) :=
  match w.heap.groups[ga]? with
  | none => .panic
  | some g =>
    match w.attrGroups.get g.id with
    | some d => .ok (d, w)
    | none => .ok (ga, { w with attrGroups := w.attrGroups.set g.id ga })

/-- `AddRole` (v1/role_manager.go:129-135). -/
def addRole (w : V1) (r : Nat) : Out (Nat × V1) :=
  match w.heap.roles[r]? with
  | none => .panic
  | some ro =>
    match w.roles.get ro.id with
    | some d => .ok (d, w)
    | none => .ok (r, { w with roles := w.roles.set ro.id r })

/-- `AddTenant` (v1/role_manager.go:155-162): the manager is set even if the id is taken. -/
def addTenant (w : V1) (a : Nat) : Out (Nat × V1) :=
  match w.tobjs[a]? with
  | none => .panic
  | some t =>
    let w := { w with tobjs := w.tobjs.set a { t with managed := true } }
    match w.tenants.get t.id with
    | some d => .ok (d, w)
    | none => .ok (a, { w with tenants := w.tenants.set t.id a })

/-- `AddNamespace` (v1/role_manager.go:182-188). -/
def addNamespace (w : V1) (a : Nat) : Out (Nat × V1) :=
  match w.nsobjs[a]? with
  | none => .panic
  | some n =>
    match w.namespaces.get n.id with
    | some d => .ok (d, w)
    | none => .ok (a, { w with namespaces := w.namespaces.set n.id a })

/-- `AddPrincipal` (v1/role_manager.go:208-214). -/
def addPrincipal (w : V1) (id : Str) (obj : Nat) : Nat × V1 :=
  match w.principals.get id with
  | some d => (d, w)
  | none => (obj, { w with principals := w.principals.set id obj })

/-- `AddScope` (v1/role_manager.go:234-240). -/
def addScope (w : V1) (id : Str) (obj : Nat) : Nat × V1 :=
  match w.scopes.get id with
  | some d => (d, w)
  | none => (obj, { w with scopes := w.scopes.set id obj })

/-- The counts `TotalTenants`, `TotalNamespaces`, `TotalScopes`, `TotalPrincipals`, `TotalRoles`,
`TotalAttributeGroups`, `TotalAttributes` (v1/role_manager.go:75-77, 97-119), in this order. -/
def totals (w : V1) : List Nat :=
  [w.tenants.length, w.namespaces.length, w.scopes.length, w.principals.length, w.roles.length,
   w.attrGroups.length, w.attrs.length]

/-- The listings `Attributes`, `Roles`, `Tenants`, `Namespaces`, `Principals`, `Scopes` (v1/role_manager.go:121-127,
147-153, 174-180, 200-206, 226-232, 252-258), each over its own registry. The nil slice is `[]`. -/
def listIds (o : Ord) (site : List Val) (m : GoMap Str Nat) : List Str :=
  (o.ord site _ m).foldl (fun data e => data ++ [e.1]) []

/-- `getNamespaceID` (v1/role_manager.go:260-265). -/
def nsID (w : V1) : Option Nat → Out Str
  | none => .ok []
  | some n =>
    match w.nsobjs[n]? with
    | none => .panic
    | some no => .ok no.id

/-- Put one assignment into the set (v1/role_manager.go:295-298). -/
def store (w : V1) (x : TP) : V1 :=
  { w with tps := if encode x ∈ w.tps then w.tps else w.tps ++ [encode x], log := w.log ++ [x] }

/-- `RoleManager.AddPrincipalRole` (v1/role_manager.go:290-299, `getScopeID` v1/role_manager.go:267-272). -/
def addPrincipalRole (w : V1) (p r : Str) (c : Nat) (ns : Option Nat) (sc : Option Str) (manage : List Bool) :
    Out V1 :=
  match w.tobjs[c]? with
  | none => .panic
  | some t =>
    (w.nsID ns).map fun n =>
      w.store { tenant := t.id, principal := p, role := r, namespace_ := n, scope := sc.getD []
                manage := manage.headD true }

/-! ### Tenant and namespace methods -/

/-- Read a tenant object. -/
def withT {α : Type} (w : V1) (c : Nat) (f : T1Obj → Out α) : Out α :=
  match w.tobjs[c]? with
  | none => .panic
  | some t => f t

/-- Write a tenant object. -/
def setT (w : V1) (c : Nat) (t : T1Obj) : V1 := { w with tobjs := w.tobjs.set c t }

/-- Write a namespace object. -/
def setNs (w : V1) (n : Nat) (no : NsObj) : V1 := { w with nsobjs := w.nsobjs.set n no }

/-- `if _, ok := m.Get(k); !ok { m.Set(k, v) }`. -/
def setAbsent (m : GoMap Str Nat) (k : Str) (v : Nat) : GoMap Str Nat :=
  match m.get k with
  | some _ => m
  | none => m.set k v

/-- `Tenant.AddDescendent` (v1/tenant.go:32-39). -/
def tAddDescendent (w : V1) (c : Nat) (ds : List Nat) : Out V1 :=
  Out.loop (fun w d => w.withT c fun t => w.withT d fun dt =>
    .ok (w.setT c { t with desc := setAbsent t.desc dt.id d })) w ds

/-- `Tenant.SetDefaultNamespace` (v1/tenant.go:41-45). -/
def tSetDefaultNamespace (w : V1) (c : Nat) (n : Str) : Out V1 :=
  w.withT c fun t =>
    match t.namespaces.get n with
    | some a => .ok (w.setT c { t with defNs := some a })
    | none => .ok w

/-- `Tenant.AddNamespace` (v1/tenant.go:47-53). -/
def tAddNamespace (w : V1) (c : Nat) (ns : List Nat) : Out V1 :=
  Out.loop (fun w a => w.withT c fun t =>
    match w.nsobjs[a]? with
    | none => .panic
    | some no => .ok (w.setT c { t with namespaces := setAbsent t.namespaces no.id a })) w ns

/-- `Tenant.AddRole` (v1/tenant.go:55-61). -/
def tAddRole (w : V1) (c : Nat) (rs : List Nat) : Out V1 :=
  Out.loop (fun w a => w.withT c fun t =>
    match w.heap.roles[a]? with
    | none => .panic
    | some ro => .ok (w.setT c { t with roles := setAbsent t.roles ro.id a })) w rs

/-- `Tenant.AddScopes` (v1/tenant.go:63-74); a scope is given by id and token. -/
def tAddScopes (w : V1) (c : Nat) (ss : List (Str × Nat)) : Out V1 :=
  Out.loop (fun w s => w.withT c fun t =>
    let w := w.setT c { t with scopes := setAbsent t.scopes s.1 s.2 }
    match t.defNs with
    | none => .ok w
    | some a =>
      match w.nsobjs[a]? with
      | none => .panic
      | some no => .ok (w.setNs a { no with scopes := setAbsent no.scopes s.1 s.2 })) w ss

/-- `Tenant.AddPrincipalRole` (v1/tenant.go:107-109). -/
def tAddPrincipalRole (w : V1) (c : Nat) (p r : Str) (d : Nat) (ns : Option Nat) (sc : Option Str)
    (manage : List Bool) : Out V1 :=
  w.withT c fun t => if t.managed then w.addPrincipalRole p r d ns sc manage else .panic

/-- `Tenant.AddScopesToNamespace` (v1/tenant.go:76-89): stops at the first unknown scope. -/
def tAddScopesToNamespace (w : V1) (c : Nat) (n : Str) : List Str → Out V1
  | [] => .ok w
  | s :: ss =>
    w.withT c fun t =>
      match t.scopes.get s with
      | none => .ok w
      | some obj =>
        match t.namespaces.get n with
        | none => tAddScopesToNamespace w c n ss
        | some a =>
          match w.nsobjs[a]? with
          | none => .panic
          | some no =>
            ((w.setNs a { no with scopes := setAbsent no.scopes s obj }).tAddPrincipalRole
              c [] [] c (some a) (some s) []).bind fun w => tAddScopesToNamespace w c n ss

/-- `Tenant.AddRolesToNamespace` (v1/tenant.go:91-105): stops at the first unknown role. -/
def tAddRolesToNamespace (w : V1) (c : Nat) (n : Str) : List Str → Out V1
  | [] => .ok w
  | r :: rs =>
    w.withT c fun t =>
      match t.roles.get r with
      | none => .ok w
      | some obj =>
        match t.namespaces.get n with
        | none => .ok w
        | some a =>
          match w.nsobjs[a]? with
          | none => .panic
          | some no => tAddRolesToNamespace (w.setNs a { no with roles := setAbsent no.roles r obj }) c n rs

/-- `Namespace.AddRoles` (v1/tenant.go:195-199): overwrites. -/
def nsAddRoles (w : V1) (n : Nat) (rs : List Nat) : Out V1 :=
  Out.loop (fun w a =>
    match w.nsobjs[n]?, w.heap.roles[a]? with
    | some no, some ro => .ok (w.setNs n { no with roles := no.roles.set ro.id a })
    | _, _ => .panic) w rs

/-- `Namespace.AddScopes` (v1/tenant.go:201-205): overwrites. -/
def nsAddScopes (w : V1) (n : Nat) (ss : List (Str × Nat)) : Out V1 :=
  Out.loop (fun w s =>
    match w.nsobjs[n]? with
    | some no => .ok (w.setNs n { no with scopes := no.scopes.set s.1 s.2 })
    | _ => .panic) w ss

/-! ### Queries over the assignments -/

/-- `for tp := range u.tenantPrincipals { unmarshalled := getTenantPrincipals(tp); ... }`: the decoded
assignments in iteration order. -/
def rows (w : V1) (o : Ord) (site : List Val) : Out (List TP) :=
  Out.collectI (fun _ h => (decode h).map fun x => [x]) 0 (o.ord site _ w.tps)

/-- `GetTenantsForPrincipal` (v1/role_manager.go:301-310): the error is always nil. -/
def tenantsForPrincipal (w : V1) (o : Ord) (site : List Val) (p : Str) : Out (List Str) :=
  (w.rows o site).map fun l => slicesCompact ((l.filter fun x => x.principal = p).map (·.tenant))

/-- `GetPrincipalRoles` (v1/role_manager.go:317-325). The nil slice is `[]`. -/
def principalRoles (w : V1) (o : Ord) (site : List Val) (t p : Str) : Out (List TP) :=
  (w.rows o site).map fun l => l.filter fun x => x.principal = p ∧ x.tenant = t

/-- `GetTenantRoles` (v1/role_manager.go:327-335) and `GetPrincipalRolesByTenant` (373-381). -/
def tenantRoles (w : V1) (o : Ord) (site : List Val) (t : Str) : Out (List TP) :=
  (w.rows o site).map fun l => l.filter fun x => x.tenant = t

/-- `GetImplicitPrincipalRoles` (v1/role_manager.go:337-353). -/
def implicitPrincipalRoles (w : V1) (o : Ord) (site : List Val) (t p : Str) : Out (List TP) :=
  (w.principalRoles o (site ++ [.int 0]) t p).bind fun data =>
  match w.tenants.get t with
  | none => .ok data
  | some a =>
    w.withT a fun to =>
      (Out.collectI (fun i (e : Str × Nat) => w.tenantRoles o (site ++ [.int 2, .int i]) e.1) 0
        (o.ord (site ++ [.int 1]) _ to.desc)).map fun more => data ++ more

/-- `GetPermissionsForPrincipal` (v1/role_manager.go:355-371). -/
def permissionsForPrincipal (w : V1) (o : Ord) (site : List Val) (t p : Str) :
    Out (List (TP × GoMap Str (List Attr))) :=
  (w.rows o (site ++ [.int 0])).bind fun l =>
  Out.collectI (fun i (x : TP) =>
    if x.principal = p ∧ x.tenant = t ∧ x.role ≠ [] then
      match w.roles.get x.role with
      | none => .ok []
      | some a => (w.heap.getPermissions o (site ++ [.int 1, .int i]) a).map fun m => [(x, m)]
    else .ok []) 0 l

/-- `GetRolePermissions` (v1/role_manager.go:400-406). -/
def rolePermissions (w : V1) (o : Ord) (site : List Val) (r : Str) : Out (Option (GoMap Str (List Attr))) :=
  match w.roles.get r with
  | none => .ok none
  | some a => (w.heap.getPermissions o site a).map some

/-- `GetScopesForPrincipal` (v1/role_manager.go:408-421); `none` is the error. -/
def scopesForPrincipal (w : V1) (o : Ord) (site : List Val) (p : Str) : Out (Option (List Str)) :=
  match w.principals.get p with
  | none => .ok none
  | some _ => (w.rows o site).map fun l => some ((l.filter fun x => x.principal = p ∧ x.scope ≠ []).map (·.scope))

/-- `GetTenantScopesForPrincipal` (v1/role_manager.go:423-440); `none` is the error. -/
def tenantScopesForPrincipal (w : V1) (o : Ord) (site : List Val) (t p : Str) : Out (Option (List Str)) :=
  match w.principals.get p with
  | none => .ok none
  | some _ =>
    match w.tenants.get t with
    | none => .ok none
    | some _ => (w.rows o site).map fun l =>
        some ((l.filter fun x => x.principal = p ∧ x.scope ≠ [] ∧ x.tenant = t).map (·.scope))

/-- `Tenant.GetDescendantTenants` (v1/tenant.go:21-29). -/
def descTenants (w : V1) (o : Ord) : Nat → List Val → Nat → Out (List Nat)
  | 0, _, _ => .diverge
  | n + 1, site, c =>
    w.withT c fun t =>
      Out.collectI (fun i (e : Str × Nat) =>
        (descTenants w o n (site ++ [.int i]) e.2).map (fun ds => e.2 :: ds)) 0 (o.ord site _ t.desc)

/-! ### Assigning principals -/

/-- `AddPrincipalRole(p, r, c, nil, sc)` and, if there is a default namespace, the same inside it
(v1/tenant.go:114-117, 153-156, 177-180). -/
def addWithDefault (w : V1) (c : Nat) (t : T1Obj) (p r : Str) (sc : Option Str) : Out V1 :=
  (w.tAddPrincipalRole c p r c none sc []).bind fun w =>
  match t.defNs with
  | none => .ok w
  | some a => w.tAddPrincipalRole c p r c (some a) sc []

/-- `Tenant.AddPrincipal` (v1/tenant.go:111-120). -/
def tAddPrincipal (w : V1) (c : Nat) (p : Str) (rs : List Str) : Out V1 :=
  w.withT c fun t =>
    Out.loop (fun w r => if (t.roles.get r).isSome then w.addWithDefault c t p r none else .ok w) w rs

/-- `Tenant.AddPrincipalInNamespace` (v1/tenant.go:122-143). -/
def tAddPrincipalInNamespace (w : V1) (o : Ord) (site : List Val) (c : Nat) (p n : Str) (rs : List Str) : Out V1 :=
  w.withT c fun t =>
    match t.namespaces.get n with
    | none => .ok w
    | some a =>
      if 0 < rs.length then
        Out.loop (fun w r =>
          match t.roles.get r with
          | none => .ok w
          | some ra =>
            match w.heap.roles[ra]? with
            | none => .panic
            | some ro => w.tAddPrincipalRole c p ro.id c (some a) none []) w rs
      else if t.managed then
        (w.tenantRoles o site t.id).bind fun l =>
        (Out.loop (fun w (x : TP) =>
          if x.principal = p ∧ x.namespace_ ≠ [] ∧ x.namespace_ ≠ n then
            w.tAddPrincipalRole c p x.role c (some a) none []
          else .ok w) w l).bind fun w =>
        w.tAddPrincipalRole c p [] c (some a) none []
      else .panic

/-- `Tenant.AssignScopesToPrincipal` (v1/tenant.go:145-161). -/
def tAssignScopesToPrincipal (w : V1) (o : Ord) (site : List Val) (c : Nat) (p : Str) (ss : List Str) : Out V1 :=
  w.withT c fun t =>
    if t.managed then
      (w.principalRoles o site t.id p).bind fun l =>
      if l = [] then .ok w
      else
        Out.loop (fun w s =>
          if (t.scopes.get s).isSome then
            (Out.loop (fun w (x : TP) => w.addWithDefault c t p x.role (some s)) w l).bind fun w =>
            w.tAddPrincipalRole c p [] c none (some s) []
          else .ok w) w ss
    else .panic

/-- `Tenant.AssignScopesWithRole` (v1/tenant.go:163-183). -/
def tAssignScopesWithRole (w : V1) (o : Ord) (site : List Val) (c : Nat) (p r : Str) (ss : List Str) : Out V1 :=
  if ss.length = 0 then .ok w
  else
    w.withT c fun t =>
      if t.managed then
        (w.principalRoles o site t.id p).bind fun l =>
        if l = [] then .ok w
        else if (t.roles.get r).isSome then
          Out.loop (fun w s =>
            if (t.scopes.get s).isSome then w.addWithDefault c t p r (some s) else .ok w) w ss
        else .ok w
      else .panic

/-! ### Authorization -/

/-- The scopes and roles of the requested namespace, if the tenant has it
(v1/role_manager.go:463, 468-477). -/
def namespaceLists (w : V1) (o : Ord) (site : List Val) (t : T1Obj) (n : Str) : Out (List Str × List Str) :=
  match t.namespaces.get n with
  | none => .ok ([], [])
  | some a =>
    match w.nsobjs[a]? with
    | none => .panic
    | some no => .ok ((o.ord (site ++ [.int 0]) _ no.scopes).map (·.1), (o.ord (site ++ [.int 1]) _ no.roles).map (·.1))

/-- The body of `GetAllowedRoles` after the registries are read (v1/role_manager.go:478-517);
`none` is nil. -/
def pickRoles (t : T1Obj) (l : List TP) (n s : Str) (namespaceScopes namespaceRoles : List Str) : Option (List Str) :=
  let scopes := (l.filter fun y => y.scope ≠ []).map (·.scope)           -- lines 478-487
  let nsScopeRoles := l.filter fun y => y.namespace_ ≠ [] ∧ y.scope ≠ []
  let tenantRoles := l.filter fun y => y.namespace_ = [] ∧ y.scope = []
  let allowed := if 0 < namespaceRoles.length then namespaceRoles else tenantRoles.map (·.role)
  if (s ∉ scopes ∧ tenantRoles.length = 0) ∨
      (0 < namespaceScopes.length ∧ s ∉ namespaceScopes) then none       -- lines 498-502
  else
    let allowed :=                                                       -- lines 504-510
      if n ≠ [] ∧ s ≠ [] ∧ 0 < nsScopeRoles.length then
        allowed ++ (nsScopeRoles.filter fun y => y.namespace_ = n ∧ y.scope = s).map (·.role)
      else allowed
    if ∀ r ∈ allowed, (t.roles.get r).isSome then some (slicesCompact allowed)
    else none                                                            -- lines 512-516

/-- `GetAllowedRoles` (v1/role_manager.go:442-518). A nil slice is `none`; the result `none` is nil. -/
def getAllowedRoles (w : V1) (o : Ord) (site : List Val) (prs : Option (List TP)) (n s : Str) :
    Out (Option (List Str)) :=
  match prs with
  | none => .ok none                                                     -- lines 443-445
  | some [] => .panic                                                    -- line 461, index out of range
  | some (x :: xs) =>
    match w.tenants.get x.tenant with                                    -- lines 461-462
    | none => .panic                                                     -- line 463, nil tenant
    | some c =>
      w.withT c fun t =>
        if (s ≠ [] ∧ t.scopes.get s = none) ∨ (n ≠ [] ∧ t.namespaces.get n = none) then .ok none
        else (w.namespaceLists o site t n).map fun nss => pickRoles t (x :: xs) n s nss.1 nss.2

/-- The result of `GetPrincipalRoles` as a possibly nil slice. -/
def nilSlice (l : List TP) : Option (List TP) := if l = [] then none else some l

/-- `authorizeForTenant` (v1/role_manager.go:623-626). -/
def authTenant (w : V1) (t : Str) : Out Bool := .ok (w.tenants.get t).isSome

/-- `authorizeForNamespace` (v1/role_manager.go:628-641). -/
def authNamespace (w : V1) (o : Ord) (site : List Val) (p n : Str) : Out Bool :=
  (w.tenantsForPrincipal o (site ++ [.int 0]) p).bind fun ts =>
  Out.anyI (fun _ t =>
    match w.tenants.get t with
    | none => .ok false
    | some c => w.withT c fun to => .ok (to.namespaces.get n).isSome) 0 ts

/-- `authorizeForScope` (v1/role_manager.go:643-662). -/
def authScope (w : V1) (o : Ord) (site : List Val) (p s : Str) : Out Bool :=
  (w.tenantsForPrincipal o (site ++ [.int 0]) p).bind fun ts =>
  Out.anyI (fun i t =>
    match w.tenants.get t with
    | none => .ok false
    | some c => w.withT c fun to =>
      if (to.scopes.get s).isSome then
        (w.principalRoles o (site ++ [.int 1, .int i]) to.id p).map fun l => l.any fun x => x.scope = s
      else .ok false) 0 ts

/-- `authorizeForTenantAndNamespace` (v1/role_manager.go:571-579). -/
def authTN (w : V1) (o : Ord) (site : List Val) (p t n : Str) : Out Bool :=
  (w.principalRoles o site t p).map fun l => l.any fun x => x.namespace_ = n

/-- `authorizeForTenantAndScope` (v1/role_manager.go:581-589). -/
def authTS (w : V1) (o : Ord) (site : List Val) (p t s : Str) : Out Bool :=
  (w.principalRoles o site t p).map fun l => l.any fun x => x.scope = s

/-- `authorizeForNamespaceAndScope` (v1/role_manager.go:591-605). -/
def authNS (w : V1) (o : Ord) (site : List Val) (p n s : Str) : Out Bool :=
  (w.tenantsForPrincipal o (site ++ [.int 0]) p).bind fun ts =>
  Out.anyI (fun i t =>
    (w.principalRoles o (site ++ [.int 1, .int i]) t p).map fun l =>
      l.any fun x => x.namespace_ = n ∧ x.scope = s) 0 ts

/-- `authorizeForTenantNamespaceAndScope` (v1/role_manager.go:607-621). -/
def authTNS (w : V1) (o : Ord) (site : List Val) (p t n s : Str) : Out Bool :=
  (w.principalRoles o (site ++ [.int 0]) t p).bind fun l =>
  if l.any fun x => x.namespace_ = n ∧ x.scope = s then .ok true
  else (w.tenantRoles o (site ++ [.int 1]) t).map fun l => l.any fun x => x.namespace_ = n ∧ x.scope = s

/-- `roles := make(map[string]*Role)` filled with the registered ones of a list of ids
(v1/role_manager.go:674-679, 714-719). -/
def registeredRoles (w : V1) (ids : List Str) : GoMap Str Nat :=
  ids.foldl (fun m r => match w.roles.get r with
    | some a => m.set r a
    | none => m) []

/-- `for _, role := range roles { if role.Has(…) { return true } }` (v1/role_manager.go:680-684, 722-726). -/
def anyRole (w : V1) (o : Ord) (fuel : Nat) (site : List Val) (roles : GoMap Str Nat) (group act : Str)
    (allowed : List Str) : Out Bool :=
  Out.anyI (fun i (e : Str × Nat) => w.heap.has o group act allowed fuel (site ++ [.int 1, .int i]) e.2) 0
    (o.ord (site ++ [.int 0]) _ roles)

/-- `authorizeForActivity` (v1/role_manager.go:664-687). -/
def authActivity (w : V1) (o : Ord) (fuel : Nat) (site : List Val) (p act : Str) : Out Bool :=
  (w.tenantsForPrincipal o (site ++ [.int 0]) p).bind fun ts =>
  (Out.collectI (fun i t =>
    (w.principalRoles o (site ++ [.int 1, .int i]) t p).bind fun l =>
    (w.getAllowedRoles o (site ++ [.int 2, .int i]) (nilSlice l) [] []).map fun r => r.getD []) 0 ts).bind fun ids =>
  let roleIDs := slicesCompact ids
  w.anyRole o fuel (site ++ [.int 3]) (w.registeredRoles roleIDs) [] act roleIDs

/-- `getAllowedRoleIDs` (v1/role_manager.go:732-743). -/
def allowedRoleIDs (w : V1) (o : Ord) (site : List Val) (t : T1Obj) (roles : List Str) : Out (List Str) :=
  Out.collectI (fun _ (e : Str × Nat) =>
    match w.heap.roles[e.2]? with
    | none => .panic
    | some ro => .ok ((roles.filter fun rt => ro.id = rt).map fun _ => ro.id)) 0 (o.ord site _ t.roles)

/-- `authorizeComplex` (v1/role_manager.go:689-730). -/
def authComplex (w : V1) (o : Ord) (fuel : Nat) (site : List Val) (p : Str) (r : Request) : Out Bool :=
  let n := toStr r.namespace_
  let s := toStr r.scope
  match w.tenants.get (toStr r.tenant) with
  | none => .ok false
  | some c =>
    w.withT c fun t =>
      (w.principalRoles o (site ++ [.int 0]) (toStr r.tenant) p).bind fun l =>
      if l = [] then .ok false
      else if n ≠ [] ∧ t.namespaces.get n = none then .ok false
      else if s ≠ [] ∧ t.scopes.get s = none then .ok false
      else
        (w.getAllowedRoles o (site ++ [.int 1]) (nilSlice l) n s).bind fun allowed =>
        (w.allowedRoleIDs o (site ++ [.int 2]) t (allowed.getD [])).bind fun ids =>
        w.anyRole o fuel (site ++ [.int 3]) (w.registeredRoles (l.map (·.role))) (toStr r.group) (toStr r.activity) ids

/-- `Authorize` after the options are applied (v1/role_manager.go:524-569). -/
def answer (w : V1) (o : Ord) (fuel : Nat) (site : List Val) (p : Str) (r : Request) : Out Bool :=
  match w.principals.get p with
  | none => .ok false
  | some _ =>
    if r.tenant ≠ .nil ∧ r.namespace_ = .nil ∧ r.scope = .nil ∧ r.group = .nil ∧ r.activity = .nil then
      w.authTenant (toStr r.tenant)
    else if r.namespace_ ≠ .nil ∧ r.tenant = .nil ∧ r.scope = .nil ∧ r.group = .nil ∧ r.activity = .nil then
      w.authNamespace o site p (toStr r.namespace_)
    else if r.scope ≠ .nil ∧ r.tenant = .nil ∧ r.namespace_ = .nil ∧ r.group = .nil ∧ r.activity = .nil then
      w.authScope o site p (toStr r.scope)
    else if r.activity ≠ .nil ∧ r.tenant = .nil ∧ r.namespace_ = .nil ∧ r.scope = .nil ∧ r.group = .nil then
      w.authActivity o fuel site p (toStr r.activity)
    else if r.tenant ≠ .nil ∧ r.namespace_ ≠ .nil ∧ r.scope = .nil ∧ r.group = .nil ∧ r.activity = .nil then
      w.authTN o site p (toStr r.tenant) (toStr r.namespace_)
    else if r.tenant ≠ .nil ∧ r.namespace_ = .nil ∧ r.scope ≠ .nil ∧ r.group = .nil ∧ r.activity = .nil then
      w.authTS o site p (toStr r.tenant) (toStr r.scope)
    else if r.tenant = .nil ∧ r.namespace_ ≠ .nil ∧ r.scope ≠ .nil ∧ r.group = .nil ∧ r.activity = .nil then
      w.authNS o site p (toStr r.namespace_) (toStr r.scope)
    else if r.tenant ≠ .nil ∧ r.namespace_ ≠ .nil ∧ r.scope ≠ .nil ∧ r.group = .nil ∧ r.activity = .nil then
      w.authTNS o site p (toStr r.tenant) (toStr r.namespace_) (toStr r.scope)
    else w.authComplex o fuel site p r

/-- `Authorize` (v1/role_manager.go:519-569). -/
def authorize (w : V1) (o : Ord) (fuel : Nat) (site : List Val) (p : Str) (opts : List Opt) : Out Bool :=
  w.answer o fuel site p (opts.foldl Opt.apply {})

end V1
end Verif
