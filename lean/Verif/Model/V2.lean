import Verif.Model.Match
import Verif.Model.V2Role

/-!
# Model of /repo/v2 (entities.go, init.go, role.go, v2.go)

Tenants and assignments are mutable objects in a heap; a pointer is an index.  A namespace object is created
by its tenant and never handed out, so it is stored inside the tenant; of `Namespace.Scopes` only the keys
are kept (the scope objects are never read).  `Tenant.Status` has no setter in the package; a caller's write
to this exported field is the operation `setStatus`.  Other writes by a caller to exported fields are not
modelled.  `scopedPermissionsPool`, `globalPermissionsPool` and `checkedTenantsPool` hand out cleared maps;
this file models calls that run alone, where a fresh map behaves the same (`Verif/Model/V2Pool.lean` models
concurrent use).  The clock is read through `Env.now`, one arbitrary value per read, in nanoseconds.
-/

namespace Verif

/-- Environment of a call: map iteration orders and clock readings. -/
structure Env where
  o : Ord
  now : List Val → Int

/-- `Tenant` (v2/entities.go:66-73); `namespaces` maps ids to the scope ids of the namespace. -/
structure T2 where
  id : Str
  namespaces : GoMap Str (List Str) := []
  defNs : Str := []
  status : Int := 0
  children : GoMap Str Nat := []
  deriving DecidableEq, Repr

/-- `PrincipalRole` (v2/v2.go:14-22). -/
structure PR where
  principal : Str := []
  tenant : Str := []
  scope : Str := []
  namespace_ : Str := []
  role : Str := []
  expiry : Option Int := none
  manage : Bool := false
  deriving DecidableEq, Repr

/-- `Request` (v2/v2.go:60-67). -/
structure Req2 where
  principal : Str := []
  tenant : Str := []
  namespace_ : Str := []
  scope : Str := []
  resource : Str := []
  action : Str := []
  deriving DecidableEq, Repr

/-- `Request.String` (v2/v2.go:69-71). -/
def Req2.string (r : Req2) : Str := r.resource ++ [32] ++ r.action

/-- The messages written to the audit log (all at level Warn). -/
inductive Msg where
  | granted        -- "Authorization granted"
  | failed         -- "Authorization failed"
  | invalidTenant  -- "Failed authorization due to invalid tenant"
  | noPerms        -- "Failed to resolve permissions for authorization"
  | noRoles        -- "Failed to resolve roles for authorization"
  deriving DecidableEq, Repr

/-- `Authorizer` (v2/v2.go:73-82) with the objects it can reach and the records written to its logger. -/
structure V2 where
  dag : Dag := {}
  tobjs : List T2 := []
  tenants : GoMap Str Nat := []
  parents : GoMap Str Nat := []
  defTenant : Str := []
  prs : List PR := []
  userRoles : List (Option Nat) := []
  index : GoMap Str (GoMap Str (List Nat)) := []
  logger : Bool := false
  log : List (Req2 × Msg) := []
  deriving DecidableEq, Repr

/-- `NewAuthorizer` (v2/v2.go:84-96) with `NewRoleDAG` (v2/role.go:68-74); a logger is passed or not.  Objects created
later belong to the state, so there are none. -/
def V2.newAuthorizer (logger : Bool) : V2 := { logger := logger }

/-! ## Assignments and their expiry -/

/-- `PrincipalRole.IsExpired` (v2/v2.go:24-29) at time `now`. -/
def PR.expired (u : PR) (now : Int) : Bool :=
  match u.expiry with
  | none => false
  | some e => e < now

/-- `PrincipalRole.SetExpiry` (v2/v2.go:31-37): error?, new value. -/
def PR.setExpiry (u : PR) (now e : Int) : Bool × PR :=
  if e < now then (true, u) else (false, { u with expiry := some e })

/-- The dynamic type of the argument of `SetExpiryDuration`. -/
inductive DurArg where
  | str (s : Str)
  | dur (d : Int)
  | other
  deriving DecidableEq, Repr

/-- `PrincipalRole.SetExpiryDuration` (v2/v2.go:39-54); the error is always nil.  `parse` is `time.ParseDuration`
(standard library; Model/Duration.lean models it).  Integer overflow of the duration arithmetic is not modelled. -/
def PR.setExpiryDuration (u : PR) (parse : Str → Option Int) (now : Int) : DurArg → PR
  | .str s =>
    match parse s with
    | none => u
    | some d => { u with expiry := some (now + d) }
  | .dur d => { u with expiry := some (now + d) }
  | .other => { u with expiry := some now }

/-- `PrincipalRole.ClearExpiry` (v2/v2.go:56-58). -/
def PR.clearExpiry (u : PR) : PR := { u with expiry := none }

namespace V2

/-! ## Roles -/

/-- `Authorizer.AddRoles` (v2/init.go:3-5). -/
def addRoles (w : V2) (as : List Nat) : Out V2 := (w.dag.addRole as).map fun d => { w with dag := d }

/-- `Authorizer.AddRole` (v2/init.go:7-10): the role passed is returned. -/
def addRole (w : V2) (a : Nat) : Out (Nat × V2) := (w.addRoles [a]).map fun w => (a, w)

/-- `Authorizer.GetRole` (v2/init.go:12-15). -/
def getRole (w : V2) (k : Str) : Option Nat := w.dag.roles.get k

/-- `Authorizer.AddChildRole` (v2/init.go:17-19): error?, new state. -/
def addChildRole (w : V2) (fuel : Nat) (parent : Str) (cs : List Str) : Out (Bool × V2) :=
  (w.dag.addChildRole fuel parent cs).map fun r => (r.1, { w with dag := r.2 })

/-- `Authorizer.SetDefaultTenant` (v2/v2.go:98-100). -/
def setDefaultTenant (w : V2) (t : Str) : V2 := { w with defTenant := t }

/-! ## Tenants -/

/-- `NewTenant` (v2/entities.go:75-88) with `NewNamespace` (v2/entities.go:43-50): a namespace starts without scopes. -/
def newTenant (w : V2) (id : Str) (ns : Option Str) : V2 :=
  { w with tobjs := w.tobjs ++ [match ns with
      | none => { id := id }
      | some n => { id := id, defNs := n, namespaces := [(n, [])] }] }

/-- Dereference a tenant pointer. -/
def withT {α : Type} (w : V2) (c : Nat) (f : T2 → Out α) : Out α :=
  match w.tobjs[c]? with
  | none => .panic
  | some t => f t

def setT (w : V2) (c : Nat) (t : T2) : V2 := { w with tobjs := w.tobjs.set c t }

/-- `Tenant.AddNamespace` (v2/role.go:28-37). -/
def tAddNamespace (w : V2) (c : Nat) (n : Str) (isDefault : Bool) : Out V2 :=
  w.withT c fun t =>
    .ok (w.setT c { t with
      namespaces := match t.namespaces.get n with
        | some _ => t.namespaces
        | none => t.namespaces.set n []
      defNs := if isDefault then n else t.defNs })

/-- `Tenant.AddScopeToNamespace` (v2/role.go:39-51): error?, new state. -/
def tAddScope (w : V2) (c : Nat) (n : Str) (scs : List Str) : Out (Bool × V2) :=
  w.withT c fun t =>
    match t.namespaces.get n with
    | none => .ok (true, w)
    | some s => .ok (false, w.setT c { t with namespaces := t.namespaces.set n (scs.foldl addStr s) })

/-- `Tenant.AddChildTenant` (v2/role.go:53-59). -/
def tAddChild (w : V2) (c : Nat) (ds : List Nat) : Out V2 :=
  Out.loop (fun w d => w.withT c fun t => w.withT d fun dt =>
    .ok (w.setT c { t with children := t.children.set dt.id d })) w ds

/-- A caller's `tenant.Status = s` (v2/entities.go:70). -/
def setStatus (w : V2) (c : Nat) (s : Int) : Out V2 := w.withT c fun t => .ok (w.setT c { t with status := s })

/-- `Authorizer.AddTenant` (v2/init.go:27-35).  The loop over the children runs in storage order: `parentCache` is never read. -/
def addTenant (w : V2) (c : Nat) : Out V2 :=
  w.withT c fun t =>
    Out.loop (fun (w : V2) kd => w.withT kd.2 fun d => .ok { w with parents := w.parents.set d.id c })
      { w with tenants := w.tenants.set t.id c } t.children

/-- `Authorizer.AddTenants` (v2/init.go:21-25). -/
def addTenants (w : V2) (cs : List Nat) : Out V2 := Out.loop addTenant w cs

/-- `Authorizer.GetTenant` (v2/init.go:37-42). -/
def getTenant (w : V2) (k : Str) : Option Nat := w.tenants.get k

/-- `Authorizer.GetDefaultTenant` (v2/v2.go:177-182). -/
def getDefaultTenant (w : V2) : Option Nat := if w.defTenant ≠ [] then w.getTenant w.defTenant else none

/-! ## Assignments -/

/-- Dereference an entry of `userRoles`. -/
def prAt (w : V2) : Option Nat → Out PR
  | none => .panic
  | some i =>
    match w.prs[i]? with
    | none => .panic
    | some u => .ok u

/-- `Authorizer.AddPrincipalRole` (v2/v2.go:102-112). -/
def addPrincipalRole (w : V2) (is : List Nat) : Out V2 :=
  Out.loop (fun w i => (w.prAt (some i)).bind fun u =>
    let m := (w.index.get u.principal).getD []
    .ok { w with
      userRoles := w.userRoles ++ [some i]
      index := w.index.set u.principal (m.set u.tenant ((m.get u.tenant).getD [] ++ [i])) }) w is

/-- The five comparisons of `matches` on a non-nil assignment (v2/v2.go:117-134). -/
def matchesPR (target u : PR) : Bool :=
  !(decide (target.principal ≠ [] ∧ u.principal ≠ target.principal) ||
    decide (target.tenant ≠ [] ∧ u.tenant ≠ target.tenant) ||
    decide (target.namespace_ ≠ [] ∧ u.namespace_ ≠ target.namespace_) ||
    decide (target.scope ≠ [] ∧ u.scope ≠ target.scope) ||
    decide (target.role ≠ [] ∧ u.role ≠ target.role))

/-- `matches` (v2/v2.go:117-134) on an entry: a nil entry is dereferenced as soon as the target names a field. -/
def matchesAt (w : V2) (target : PR) (x : Option Nat) : Out Bool :=
  if x = none ∧ target.principal = [] ∧ target.tenant = [] ∧ target.namespace_ = [] ∧ target.scope = [] ∧
      target.role = [] then .ok true
  else (w.prAt x).map (matchesPR target)

/-- One iteration of the first loop of `RemovePrincipalRole` (v2/v2.go:136-143); the state is
(`updatedRoles`, `j`, `rolesRemoved`). -/
def removeStep (w : V2) (target : PR) (s : List (Option Nat) × Nat × Bool) (xi : Option Nat × Nat) :
    Out (List (Option Nat) × Nat × Bool) :=
  (w.matchesAt target xi.1).map fun m =>
    if m then (s.1, s.2.1, true) else (s.1.set xi.2 xi.1, s.2.1 + 1, s.2.2)

/-- The assignments of one tenant entry of the index that stay (v2/v2.go:151-157). -/
def keepTenant (w : V2) (target : PR) (is : List Nat) : Out (List Nat) :=
  Out.collectI (fun _ i => (w.matchesAt target (some i)).map fun m => if m then [] else [i]) 0 is

/-- The inner map loop of `RemovePrincipalRole` (v2/v2.go:150-163).  Entries are independent, so the order does not matter. -/
def keepPrincipal (w : V2) (target : PR) (m : GoMap Str (List Nat)) : Out (GoMap Str (List Nat)) :=
  Out.collectI (fun _ e => (w.keepTenant target e.2).map fun is => if is.length = 0 then [] else [(e.1, is)]) 0 m

/-- The outer map loop of `RemovePrincipalRole` (v2/v2.go:149-167).  Entries are independent, so the order does not matter. -/
def keepIndex (w : V2) (target : PR) (m : GoMap Str (GoMap Str (List Nat))) : Out (GoMap Str (GoMap Str (List Nat))) :=
  Out.collectI (fun _ e => (w.keepPrincipal target e.2).map fun t => if t.length = 0 then [] else [(e.1, t)]) 0 m

/-- `Authorizer.RemovePrincipalRole` (v2/v2.go:114-169): error?, new state.  `Expiry` and `ManageChildTenant` of the
target are not read. -/
def removePrincipalRole (w : V2) (target : PR) : Out (Bool × V2) :=
  (Out.loop (w.removeStep target) (List.replicate w.userRoles.length none, 0, false) w.userRoles.zipIdx).bind fun s =>
    if s.2.2 = false then .ok (true, w)
    else (w.keepIndex target w.index).map fun ix => (false, { w with userRoles := s.1.take s.2.1, index := ix })

/-! ## Resolution -/

/-- `traverse` (v2/v2.go:200-236 and 262-291), with the first loop as parameter `visit` (its argument is
`current.ID`).  The state is `checkedTenants` and the state of the first loop.  The first argument is the stack
depth available. -/
def traverse {σ : Type} (w : V2) (e : Env) (site : List Val) (p : Str) (visit : Str → σ → Out σ) :
    Nat → Nat → List Str × σ → Out (List Str × σ)
  | 0, _, _ => .diverge
  | n + 1, c, st => w.withT c fun t =>
    if t.id ∈ st.1 then .ok st
    else (visit t.id st.2).bind fun s =>
      Out.loop (fun st xi => (w.prAt xi.1).bind fun u =>
          if u.principal = p ∧ u.tenant = t.id ∧ u.manage = true then
            Out.loop (fun st kd => w.traverse e site p visit n kd.2 st) st
              (e.o.ord (site ++ [.str t.id, .int xi.2]) _ t.children)
          else .ok st)
        (st.1 ++ [t.id], s) w.userRoles.zipIdx

/-- State of the first loop of `resolvePrincipalPermissions`. -/
structure PAcc where
  dag : Dag
  scopedP : List Str := []
  globalP : List Str := []

/-- One iteration of v2/v2.go:206-225; `tid` is `current.ID`. -/
def permRow (w : V2) (e : Env) (fuel : Nat) (site : List Val) (p ns sc tid : Str) (s : PAcc) (xi : Option Nat × Nat) :
    Out PAcc :=
  (w.prAt xi.1).bind fun u =>
    if u.principal ≠ p ∨ u.tenant ≠ tid then .ok s
    else if u.expired (e.now (site ++ [.str tid, .int xi.2])) then .ok s
    else if u.namespace_ = [] ∨ u.namespace_ = ns then
      (s.dag.resolvePermissions fuel u.role).map fun pd =>
        if u.scope = sc then { s with dag := pd.2, scopedP := pd.1.foldl addStr s.scopedP }
        else if u.scope = [] then { s with dag := pd.2, globalP := pd.1.foldl addStr s.globalP }
        else { s with dag := pd.2 }
    else .ok s

/-- `resolvePrincipalPermissions` (v2/v2.go:184-247); `none` is an error. -/
def resolvePerms (w : V2) (e : Env) (fuel : Nat) (site : List Val) (p tid ns sc : Str) : Out (Option (List Str) × Dag) :=
  match w.tenants.get tid with
  | none => .ok (none, w.dag)
  | some c =>
    (w.traverse e site p (fun tid s => Out.loop (w.permRow e fuel site p ns sc tid) s w.userRoles.zipIdx) fuel c
      ([], { dag := w.dag })).map fun r =>
        (if r.2.scopedP.length > 0 then some r.2.scopedP
         else if r.2.globalP.length > 0 then some r.2.globalP
         else none, r.2.dag)

/-- State of the first loop of `resolvePrincipalRoles`. -/
structure RAcc where
  dag : Dag
  roles : List Str := []

/-- One iteration of v2/v2.go:268-281; `tid` is `current.ID`. -/
def roleRow (w : V2) (e : Env) (fuel : Nat) (site : List Val) (p ns tid : Str) (s : RAcc) (xi : Option Nat × Nat) :
    Out RAcc :=
  (w.prAt xi.1).bind fun u =>
    if u.principal ≠ p ∨ u.tenant ≠ tid then .ok s
    else if u.expired (e.now (site ++ [.str tid, .int xi.2])) then .ok s
    else if (u.namespace_ = [] ∨ u.namespace_ = ns) ∧ u.role ≠ [] then
      (s.dag.resolveChildRoles fuel u.role).map fun pd =>
        { dag := pd.2, roles := pd.1.foldl addStr (addStr s.roles u.role) }
    else .ok s

/-- `resolvePrincipalRoles` (v2/v2.go:249-300); `none` is an error. -/
def resolveRoles (w : V2) (e : Env) (fuel : Nat) (site : List Val) (p tid ns : Str) : Out (Option (List Str) × Dag) :=
  match w.tenants.get tid with
  | none => .ok (none, w.dag)
  | some c =>
    (w.traverse e site p (fun tid s => Out.loop (w.roleRow e fuel site p ns tid) s w.userRoles.zipIdx) fuel c
      ([], { dag := w.dag })).map fun r => (if r.2.roles.length > 0 then some r.2.roles else none, r.2.dag)

/-! ## Decisions -/

/-- `Authorizer.Log` (v2/v2.go:302-325): a record carries the request and the message.  Empty attributes are left out
by the code; the time stamp is not modelled. -/
def logMsg (w : V2) (r : Req2) (m : Msg) : V2 := if w.logger then { w with log := w.log ++ [(r, m)] } else w

/-- One iteration of v2/v2.go:448-456. -/
def ptStep (w : V2) (p : Str) (s : GoMap Str Nat) (x : Option Nat) : Out (GoMap Str Nat) :=
  (w.prAt x).bind fun u =>
    if u.principal = p ∧ u.tenant ≠ [] then
      match w.tenants.get u.tenant with
      | none => .ok s
      | some c => w.withT c fun t => if t.status = 0 then .ok (s.set u.tenant c) else .ok s
    else .ok s

/-- `findPrincipalTenants` (v2/v2.go:446-464). -/
def findPrincipalTenants (w : V2) (o : Ord) (site : List Val) (p : Str) : Out (List Nat) :=
  (Out.loop (w.ptStep p) [] w.userRoles).map fun s => (o.ord site _ s).map (·.2)

/-- `findTargetTenants` (v2/v2.go:327-353); `none` is an invalid tenant.  Up to ten tenants are copied through a buffer. -/
def findTargets (w : V2) (o : Ord) (site : List Val) (r : Req2) : Out (Option (List Nat)) :=
  let t := if r.tenant = [] ∧ w.defTenant ≠ [] then w.defTenant else r.tenant
  if t = [] then
    (w.findPrincipalTenants o site r.principal).map fun l =>
      if l.length ≤ 10 then some ((l.take 10).take l.length) else some l
  else
    match w.tenants.get t with
    | none => .ok none
    | some c => .ok (some [c])

/-- The namespace of the request in a tenant (v2/v2.go:362-374 and 405-417). -/
def nsOf (t : T2) (r : Req2) : Option Str :=
  if r.namespace_ = [] then
    if t.defNs ≠ [] then some t.defNs
    else match t.namespaces with
      | [e] => some e.1
      | _ => none
  else some r.namespace_

/-- `isScopeValidForNamespace` (v2/v2.go:441-444); the namespace is given by its scope ids (`Scope`, `NewScope`,
v2/entities.go:35-41, have only an id). -/
def scopeValid (scs : List Str) (sc : Str) : Bool := decide (sc ∈ scs)

/-- The loop over the target tenants (v2/v2.go:361-393 and 404-436) and the final record; `body` stands for the
part after the scope check (its arguments: loop index, tenant id, namespace). -/
def tenantLoop (r : Req2) (body : Nat → Str → Str → V2 → Out (Bool × V2)) : Nat → List Nat → V2 → Out (Bool × V2)
  | _, [], w => .ok (false, w.logMsg r .failed)
  | k, c :: cs, w => w.withT c fun t =>
    match nsOf t r with
    | none => tenantLoop r body (k + 1) cs w
    | some ns =>
      match t.namespaces.get ns with
      | none => tenantLoop r body (k + 1) cs w
      | some scs =>
        if r.scope ≠ [] ∧ !scopeValid scs r.scope then tenantLoop r body (k + 1) cs w
        else (body k t.id ns w).bind fun bw => if bw.1 then .ok bw else tenantLoop r body (k + 1) cs bw.2

/-- `matchPermission` (v2/v2.go:466-472). -/
def matchPermission (perm : Str) (r : Req2) : Out Bool :=
  if r.resource = [] ∧ r.action = [] then .ok false else matchResource r.string perm

/-- v2/v2.go:425-435. -/
def authBody (e : Env) (fuel : Nat) (site : List Val) (r : Req2) (k : Nat) (tid ns : Str) (w : V2) : Out (Bool × V2) :=
  (w.resolvePerms e fuel (site ++ [.int k]) r.principal tid ns r.scope).bind fun pd =>
    match pd.1 with
    | none => .ok (false, ({ w with dag := pd.2 } : V2).logMsg r .noPerms)
    | some perms =>
      (Out.anyI (fun _ perm => matchPermission perm r) 0 (e.o.ord (site ++ [.int k]) _ perms)).map fun b =>
        (b, if b then ({ w with dag := pd.2 } : V2).logMsg r .granted else { w with dag := pd.2 })

/-- `Authorizer.Authorize` (v2/v2.go:398-439). -/
def authorize (w : V2) (e : Env) (fuel : Nat) (site : List Val) (r : Req2) : Out (Bool × V2) :=
  (w.findTargets e.o site r).bind fun ts =>
    match ts with
    | none => .ok (false, w.logMsg r .invalidTenant)
    | some cs => tenantLoop r (authBody e fuel site r) 0 cs w

/-- v2/v2.go:382-392. -/
def canBody (e : Env) (fuel : Nat) (site : List Val) (r : Req2) (roles : List Str) (k : Nat) (tid ns : Str) (w : V2) :
    Out (Bool × V2) :=
  (w.resolveRoles e fuel (site ++ [.int k]) r.principal tid ns).bind fun pd =>
    match pd.1 with
    | none => .ok (false, ({ w with dag := pd.2 } : V2).logMsg r .noRoles)
    | some rs =>
      let b := (e.o.ord (site ++ [.int k]) _ rs).any fun x => decide (x ∈ roles)
      .ok (b, if b then ({ w with dag := pd.2 } : V2).logMsg r .granted else { w with dag := pd.2 })

/-- `Authorizer.Can` (v2/v2.go:355-396). -/
def can (w : V2) (e : Env) (fuel : Nat) (site : List Val) (r : Req2) (roles : List Str) : Out (Bool × V2) :=
  (w.findTargets e.o site r).bind fun ts =>
    match ts with
    | none => .ok (false, w.logMsg r .invalidTenant)
    | some cs => tenantLoop r (canBody e fuel site r roles) 0 cs w

end V2
end Verif
