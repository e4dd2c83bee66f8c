import Verif.Model.V1

/-!
# Calls of package v1 that panic, when the program recovers

Every call again that changes something, with what it leaves of the manager when it panics, and with nil pointers among its arguments.  A panic comes
from a nil pointer or from a tenant without manager.  Running out of stack cannot be recovered from.  The queries change nothing.

Simplifications: objects come from the constructors (a `Tenant` literal has nil maps); a pointer that is not nil leads to an object (an address without
one acts as nil); reading and writing are single steps of one goroutine.
-/

namespace Verif
namespace RV

/-- A computation: how it ends, and the manager as it leaves it. -/
def Rec (α : Type) : Type := V1 → Out α × V1

variable {α β : Type}

def ret (a : α) : Rec α := fun w => (.ok a, w)

/-- A panic. -/
def fail : Rec α := fun w => (.panic, w)

/-- One computation after another; the second is not made if the first panics. -/
def Rec.bind (x : Rec α) (f : α → Rec β) : Rec β := fun w =>
  match (x w).1 with
  | .ok a => f a (x w).2
  | .panic => (.panic, (x w).2)
  | .diverge => (.diverge, (x w).2)

/-- What only reads. -/
def look (f : V1 → Out α) : Rec α := fun w => (f w, w)

/-- Read something. -/
def read (f : V1 → α) : Rec α := fun w => (.ok (f w), w)

/-- Write something. -/
def write (f : V1 → V1) : Rec Unit := fun w => (.ok (), f w)

/-- A pointer is used. -/
def deref : Option α → Rec α
  | none => fail
  | some a => ret a

/-- The Go loop `for _, x := range xs { f(x) }`. -/
def each (f : α → Rec Unit) : List α → Rec Unit
  | [] => ret ()
  | x :: xs => (f x).bind fun _ => each f xs

/-- The object at an address. -/
def tenantAt (c : Nat) : Rec T1Obj := look fun w => match w.tobjs[c]? with | some t => .ok t | none => .panic
def nsAt (a : Nat) : Rec NsObj := look fun w => match w.nsobjs[a]? with | some n => .ok n | none => .panic
def roleAt (r : Nat) : Rec RoleObj := look fun w => match w.heap.roles[r]? with | some ro => .ok ro | none => .panic
def groupAt (g : Nat) : Rec GroupObj := look fun w => match w.heap.groups[g]? with | some x => .ok x | none => .panic

/-- The object becomes … -/
def setTenant (c : Nat) (t : T1Obj) : Rec Unit := write fun w => w.setT c t
def setNs (a : Nat) (n : NsObj) : Rec Unit := write fun w => w.setNs a n

/-! ## Registrations -/

/-- The rest of a registration, once the id is known (v1/role_manager.go:58-62, 80-84, 130-134, 157-161, 183-187, 209-213, 235-239). -/
def register (get : V1 → GoMap Str Nat) (set : V1 → GoMap Str Nat → V1) (id : Str) (obj : Nat) : Rec Unit :=
  (read fun w => (get w).get id).bind fun x =>
  match x with
  | some _ => ret ()
  | none => write fun w => set w ((get w).set id obj)

/-- `AddAttribute` (v1/role_manager.go:57-63). -/
def addAttribute (p : Option (Attr × Nat)) : Rec Unit :=
  (deref p).bind fun x => register (·.attrs) (fun w m => { w with attrs := m }) x.1.toStr x.2

/-- `AddAttributeGroup` (v1/role_manager.go:79-85). -/
def addAttributeGroup (p : Option Nat) : Rec Unit :=
  (deref p).bind fun g => (groupAt g).bind fun go => register (·.attrGroups) (fun w m => { w with attrGroups := m }) go.id g

/-- `AddRole` (v1/role_manager.go:129-135). -/
def addRole (p : Option Nat) : Rec Unit :=
  (deref p).bind fun r => (roleAt r).bind fun ro => register (·.roles) (fun w m => { w with roles := m }) ro.id r

/-- `AddTenant` (v1/role_manager.go:155-162). -/
def addTenant (p : Option Nat) : Rec Unit :=
  (deref p).bind fun a => (tenantAt a).bind fun t => (setTenant a { t with managed := true }).bind fun _ =>
  register (·.tenants) (fun w m => { w with tenants := m }) t.id a

/-- `AddNamespace` (v1/role_manager.go:182-188). -/
def addNamespace (p : Option Nat) : Rec Unit :=
  (deref p).bind fun a => (nsAt a).bind fun n => register (·.namespaces) (fun w m => { w with namespaces := m }) n.id a

/-- `AddPrincipal` (v1/role_manager.go:208-214); a principal is its id and a token. -/
def addPrincipal (p : Option (Str × Nat)) : Rec Unit :=
  (deref p).bind fun x => register (·.principals) (fun w m => { w with principals := m }) x.1 x.2

/-- `AddScope` (v1/role_manager.go:234-240); a scope is its id and a token. -/
def addScope (p : Option (Str × Nat)) : Rec Unit :=
  (deref p).bind fun x => register (·.scopes) (fun w m => { w with scopes := m }) x.1 x.2

/-! ## Roles and groups -/

/-- Change a role. -/
def setRole (r : Nat) (ro : RoleObj) : Rec Unit := write fun w => { w with heap := { w.heap with roles := w.heap.roles.set r ro } }

/-- `Role.AddDescendent` (v1/role.go:104-114). -/
def roleAddDescendent (p : Option Nat) (ds : List (Option Nat)) : Rec (Option Err) :=
  (deref p).bind fun r => (roleAt r).bind fun ro =>
  if ro.lock then ret (some .changesNotAllowed)
  else
    (each (fun q => (deref q).bind fun d => (roleAt d).bind fun dro => (roleAt r).bind fun ro =>
      if (ro.desc.get dro.id).isSome then ret ()
      else setRole r { ro with desc := ro.desc.set dro.id d }) ds).bind fun _ => ret none

/-- One entry of a group that the role has (v1/role.go:130-132). -/
def keepAttr (ga : Nat) (q : Option Attr) : Rec Unit :=
  (deref q).bind fun a => (groupAt ga).bind fun g =>
  if (g.perms.get a.toStr).isSome then ret ()
  else write fun w => { w with heap := { w.heap with groups := w.heap.groups.set ga { g with perms := g.perms.set a.toStr a } } }

/-- The attributes, all of them there. -/
def derefAll : List (Option α) → Out (List α)
  | [] => .ok []
  | none :: _ => .panic
  | some a :: as => (derefAll as).map fun l => a :: l

/-- `Role.AddPermission` (v1/role.go:117-136).  A group the role does not have is created first and put into the role last: a panic
between them loses it. -/
def roleAddPermission (p : Option Nat) (group : Str) (as : List (Option Attr)) : Rec (Option Err) :=
  (deref p).bind fun r => (roleAt r).bind fun ro =>
  if ro.lock then ret (some .changesNotAllowed)
  else
    match ro.perms.get group with
    | some ga =>
      (each (keepAttr ga) as).bind fun _ => (roleAt r).bind fun ro =>
      (setRole r { ro with perms := ro.perms.set group ga }).bind fun _ => ret none
    | none =>
      (look fun _ => derefAll as).bind fun as =>
      (write fun w => { w with heap := { roles := w.heap.roles.set r { ro with perms := ro.perms.set group w.heap.groups.length }
                                         groups := w.heap.groups ++ [{ id := group, perms := RHeap.addAttrsKeep [] as }] } }).bind fun _ => ret none

/-- `Role.AddPermissionResourceGroup` (v1/role.go:138-146). -/
def roleAddGroup (p q : Option Nat) : Rec (Option Err) :=
  (deref p).bind fun r => (roleAt r).bind fun ro =>
  if ro.lock then ret (some .changesNotAllowed)
  else
    (deref q).bind fun ga => (groupAt ga).bind fun g =>
    if (ro.perms.get g.id).isSome then ret none
    else (setRole r { ro with perms := ro.perms.set g.id ga }).bind fun _ => ret none

/-- `Role.Lock`, `Role.Unlock` (v1/role.go:44-46, 52-54). -/
def roleLock (p : Option Nat) (b : Bool) : Rec Unit :=
  (deref p).bind fun r => (roleAt r).bind fun ro => setRole r { ro with lock := b }

/-- `AttributeGroup.AddAttributes` (v1/role.go:30-34). The receiver is used once there is an attribute. -/
def groupAddAttributes (p : Option Nat) (as : List (Option Attr)) : Rec Unit :=
  each (fun q => (deref q).bind fun a => (deref p).bind fun ga => (groupAt ga).bind fun g =>
    write fun w => { w with heap := { w.heap with groups := w.heap.groups.set ga { g with perms := g.perms.set a.toStr a } } }) as

/-- The association check of `AddPermissionsToRole` (v1/role_manager.go:392-396). -/
def associated (g : GroupObj) : List (Option Attr) → Out Bool
  | [] => .ok true
  | none :: _ => .panic
  | some a :: as => if (g.perms.get a.toStr).isSome then associated g as else .ok false

/-- `AddPermissionsToRole` (v1/role_manager.go:383-398). -/
def addPermissionsToRole (role group : Str) (as : List (Option Attr)) : Rec (Option Err) :=
  (read fun w => w.roles.get role).bind fun x =>
  match x with
  | none => ret (some .noRole)
  | some r =>
    (read fun w => w.attrGroups.get group).bind fun y =>
    match y with
    | none => ret (some .noGroup)
    | some ga =>
      (groupAt ga).bind fun g => (look fun _ => associated g as).bind fun b =>
      if b then roleAddPermission (some r) group as else ret (some .notAssociated)

/-! ## Assignments -/

/-- `RoleManager.AddPrincipalRole` (v1/role_manager.go:290-299): the namespace and the scope may be nil. -/
def addPrincipalRole (p r : Str) (c : Option Nat) (ns : Option Nat) (sc : Option Str) (manage : List Bool) : Rec Unit :=
  (deref c).bind fun c => (tenantAt c).bind fun t => (look fun w => w.nsID ns).bind fun n =>
  write fun w => w.store { tenant := t.id, principal := p, role := r, namespace_ := n, scope := sc.getD [], manage := manage.headD true }

/-- The manager of a tenant is used. -/
def managed (p : Option Nat) : Rec T1Obj :=
  (deref p).bind fun c => (tenantAt c).bind fun t => if t.managed then ret t else fail

/-- `Tenant.AddPrincipalRole` (v1/tenant.go:107-109). -/
def tAddPrincipalRole (c : Option Nat) (p r : Str) (d : Option Nat) (ns : Option Nat) (sc : Option Str) (manage : List Bool) : Rec Unit :=
  (managed c).bind fun _ => addPrincipalRole p r d ns sc manage

/-- `AddPrincipalRole(p, r, c, nil, sc)` and, if there is a default namespace, the same inside it (v1/tenant.go:114-117, 153-156, 177-180). -/
def withDefault (c : Nat) (p r : Str) (sc : Option Str) : Rec Unit :=
  (tAddPrincipalRole (some c) p r (some c) none sc []).bind fun _ => (tenantAt c).bind fun t =>
  match t.defNs with
  | none => ret ()
  | some a => tAddPrincipalRole (some c) p r (some c) (some a) sc []

/-- `Tenant.AddPrincipal` (v1/tenant.go:111-120). -/
def tAddPrincipal (q : Option Nat) (p : Str) (rs : List Str) : Rec Unit :=
  each (fun r => (deref q).bind fun c => (tenantAt c).bind fun t => if (t.roles.get r).isSome then withDefault c p r none else ret ()) rs

/-- `Tenant.AddPrincipalInNamespace` (v1/tenant.go:122-143). -/
def tAddPrincipalInNamespace (o : Ord) (site : List Val) (q : Option Nat) (p n : Str) (rs : List Str) : Rec Unit :=
  (deref q).bind fun c => (tenantAt c).bind fun t =>
  match t.namespaces.get n with
  | none => ret ()
  | some a =>
    if 0 < rs.length then
      each (fun r => (tenantAt c).bind fun t =>
        match t.roles.get r with
        | none => ret ()
        | some ra => (roleAt ra).bind fun ro => tAddPrincipalRole (some c) p ro.id (some c) (some a) none []) rs
    else
      (managed (some c)).bind fun t => (look fun w => w.tenantRoles o site t.id).bind fun l =>
      (each (fun x : TP => if x.principal = p ∧ x.namespace_ ≠ [] ∧ x.namespace_ ≠ n then
          tAddPrincipalRole (some c) p x.role (some c) (some a) none [] else ret ()) l).bind fun _ =>
      tAddPrincipalRole (some c) p [] (some c) (some a) none []

/-- `Tenant.AssignScopesToPrincipal` (v1/tenant.go:145-161). -/
def tAssignScopesToPrincipal (o : Ord) (site : List Val) (q : Option Nat) (p : Str) (ss : List Str) : Rec Unit :=
  (deref q).bind fun c => (managed (some c)).bind fun t => (look fun w => w.principalRoles o site t.id p).bind fun l =>
  if l = [] then ret ()
  else each (fun s => (tenantAt c).bind fun t =>
    if (t.scopes.get s).isSome then
      (each (fun x : TP => withDefault c p x.role (some s)) l).bind fun _ => tAddPrincipalRole (some c) p [] (some c) none (some s) []
    else ret ()) ss

/-- `Tenant.AssignScopesWithRole` (v1/tenant.go:163-183): without scopes the receiver is not used. -/
def tAssignScopesWithRole (o : Ord) (site : List Val) (q : Option Nat) (p r : Str) (ss : List Str) : Rec Unit :=
  if ss.length = 0 then ret ()
  else
    (deref q).bind fun c => (managed (some c)).bind fun t => (look fun w => w.principalRoles o site t.id p).bind fun l =>
    if l = [] then ret ()
    else if (t.roles.get r).isSome then
      each (fun s => (tenantAt c).bind fun t => if (t.scopes.get s).isSome then withDefault c p r (some s) else ret ()) ss
    else ret ()

/-! ## Tenants and namespaces -/

/-- `Tenant.AddDescendent` (v1/tenant.go:32-39). -/
def tAddDescendent (q : Option Nat) (ds : List (Option Nat)) : Rec Unit :=
  each (fun x => (deref q).bind fun c => (deref x).bind fun d => (tenantAt c).bind fun t => (tenantAt d).bind fun dt =>
    if (t.desc.get dt.id).isSome then ret () else setTenant c { t with desc := t.desc.set dt.id d }) ds

/-- `Tenant.SetDefaultNamespace` (v1/tenant.go:41-45). -/
def tSetDefaultNamespace (q : Option Nat) (n : Str) : Rec Unit :=
  (deref q).bind fun c => (tenantAt c).bind fun t =>
  match t.namespaces.get n with
  | some a => setTenant c { t with defNs := some a }
  | none => ret ()

/-- `Tenant.AddNamespace` (v1/tenant.go:47-53). -/
def tAddNamespace (q : Option Nat) (ns : List (Option Nat)) : Rec Unit :=
  each (fun x => (deref q).bind fun c => (deref x).bind fun a => (tenantAt c).bind fun t => (nsAt a).bind fun no =>
    if (t.namespaces.get no.id).isSome then ret () else setTenant c { t with namespaces := t.namespaces.set no.id a }) ns

/-- `Tenant.AddRole` (v1/tenant.go:55-61). -/
def tAddRole (q : Option Nat) (rs : List (Option Nat)) : Rec Unit :=
  each (fun x => (deref q).bind fun c => (deref x).bind fun r => (tenantAt c).bind fun t => (roleAt r).bind fun ro =>
    if (t.roles.get ro.id).isSome then ret () else setTenant c { t with roles := t.roles.set ro.id r }) rs

/-- `if _, ok := n.scopes.Get(id); !ok { n.scopes.Set(id, s) }` (v1/tenant.go:69-71, 83-85). -/
def keepScope (a : Nat) (id : Str) (obj : Nat) : Rec Unit :=
  (nsAt a).bind fun no => if (no.scopes.get id).isSome then ret () else setNs a { no with scopes := no.scopes.set id obj }

/-- `Tenant.AddScopes` (v1/tenant.go:63-74). -/
def tAddScopes (q : Option Nat) (ss : List (Option (Str × Nat))) : Rec Unit :=
  each (fun x => (deref q).bind fun c => (deref x).bind fun s => (tenantAt c).bind fun t =>
    (if (t.scopes.get s.1).isSome then ret () else setTenant c { t with scopes := t.scopes.set s.1 s.2 }).bind fun _ =>
    (tenantAt c).bind fun t =>
    match t.defNs with
    | none => ret ()
    | some a => keepScope a s.1 s.2) ss

/-- `Tenant.AddScopesToNamespace` (v1/tenant.go:76-89): the scope is put into the namespace (84) before the manager is used (86). -/
def tAddScopesToNamespace (q : Option Nat) (n : Str) : List Str → Rec Unit
  | [] => ret ()
  | s :: ss =>
    (deref q).bind fun c => (tenantAt c).bind fun t =>
    match t.scopes.get s with
    | none => ret ()
    | some obj =>
      match t.namespaces.get n with
      | none => tAddScopesToNamespace q n ss
      | some a => (keepScope a s obj).bind fun _ => (tAddPrincipalRole (some c) [] [] (some c) (some a) (some s) []).bind fun _ => tAddScopesToNamespace q n ss

/-- `Tenant.AddRolesToNamespace` (v1/tenant.go:91-105). -/
def tAddRolesToNamespace (q : Option Nat) (n : Str) : List Str → Rec Unit
  | [] => ret ()
  | r :: rs =>
    (deref q).bind fun c => (tenantAt c).bind fun t =>
    match t.roles.get r with
    | none => ret ()
    | some obj =>
      match t.namespaces.get n with
      | none => ret ()
      | some a =>
        (nsAt a).bind fun no => (if (no.roles.get r).isSome then ret () else setNs a { no with roles := no.roles.set r obj }).bind fun _ =>
        tAddRolesToNamespace q n rs

/-- `Namespace.AddRoles` (v1/tenant.go:195-199). -/
def nsAddRoles (q : Option Nat) (rs : List (Option Nat)) : Rec Unit :=
  each (fun x => (deref q).bind fun n => (deref x).bind fun r => (nsAt n).bind fun no => (roleAt r).bind fun ro =>
    setNs n { no with roles := no.roles.set ro.id r }) rs

/-- `Namespace.AddScopes` (v1/tenant.go:201-205). -/
def nsAddScopes (q : Option Nat) (ss : List (Option (Str × Nat))) : Rec Unit :=
  each (fun x => (deref q).bind fun n => (deref x).bind fun s => (nsAt n).bind fun no => setNs n { no with scopes := no.scopes.set s.1 s.2 }) ss

/-- `Authorize` (v1/role_manager.go:519-569); an option may be nil. It only reads. -/
def authorize (o : Ord) (fuel : Nat) (site : List Val) (p : Str) (opts : List (Option Opt)) : Rec Bool :=
  (look fun _ => derefAll opts).bind fun opts => look fun w => w.answer o fuel site p (opts.foldl Opt.apply {})

/-! ## Histories -/

/-- The calls.  The constructors never panic; `Add…s` of several objects and `Add…` of one are the same but for the answer. -/
inductive NCall where
  | newRole (id : Str)
  | newGroup (id : Str)
  | newTenant (id : Str)
  | newNamespace (id : Str)
  | addTenants (l : List (Option Nat))
  | addNamespaces (l : List (Option Nat))
  | addScopes (l : List (Option (Str × Nat)))
  | addPrincipals (l : List (Option (Str × Nat)))
  | addAttributes (l : List (Option (Attr × Nat)))
  | addRoles (l : List (Option Nat))
  | addAttributeGroups (l : List (Option Nat))
  | roleAddDescendent (r : Option Nat) (ds : List (Option Nat))
  | roleAddPermission (r : Option Nat) (group : Str) (as : List (Option Attr))
  | roleAddGroup (r ga : Option Nat)
  | roleLock (r : Option Nat) (b : Bool)
  | groupAddAttributes (ga : Option Nat) (as : List (Option Attr))
  | addPermissionsToRole (r g : Str) (as : List (Option Attr))
  | addPrincipalRole (p r : Str) (c : Option Nat) (ns : Option Nat) (sc : Option Str) (manage : List Bool)
  | tAddPrincipalRole (c : Option Nat) (p r : Str) (d : Option Nat) (ns : Option Nat) (sc : Option Str) (manage : List Bool)
  | tAddPrincipal (c : Option Nat) (p : Str) (rs : List Str)
  | tAddPrincipalInNamespace (o : Ord) (site : List Val) (c : Option Nat) (p n : Str) (rs : List Str)
  | tAssignScopesToPrincipal (o : Ord) (site : List Val) (c : Option Nat) (p : Str) (ss : List Str)
  | tAssignScopesWithRole (o : Ord) (site : List Val) (c : Option Nat) (p r : Str) (ss : List Str)
  | tAddDescendent (c : Option Nat) (ds : List (Option Nat))
  | tSetDefaultNamespace (c : Option Nat) (n : Str)
  | tAddNamespace (c : Option Nat) (ns : List (Option Nat))
  | tAddRole (c : Option Nat) (rs : List (Option Nat))
  | tAddScopes (c : Option Nat) (ss : List (Option (Str × Nat)))
  | tAddScopesToNamespace (c : Option Nat) (n : Str) (ss : List Str)
  | tAddRolesToNamespace (c : Option Nat) (n : Str) (rs : List Str)
  | nsAddRoles (n : Option Nat) (rs : List (Option Nat))
  | nsAddScopes (n : Option Nat) (ss : List (Option (Str × Nat)))
  | authorize (o : Ord) (fuel : Nat) (site : List Val) (p : Str) (opts : List (Option Opt))

/-- The answer is not kept. -/
def Rec.drop (x : Rec α) : Rec Unit := x.bind fun _ => ret ()

/-- How a call ends and what it leaves. -/
def NCall.go : NCall → Rec Unit
  | .newRole id => write fun w => { w with heap := w.heap.newRole id }
  | .newGroup id => write fun w => { w with heap := w.heap.newGroup id }
  | .newTenant id => write fun w => w.newTenant id
  | .newNamespace id => write fun w => w.newNamespace id
  | .addTenants l => each addTenant l
  | .addNamespaces l => each addNamespace l
  | .addScopes l => each addScope l
  | .addPrincipals l => each addPrincipal l
  | .addAttributes l => each addAttribute l
  | .addRoles l => each addRole l
  | .addAttributeGroups l => each addAttributeGroup l
  | .roleAddDescendent r ds => (RV.roleAddDescendent r ds).drop
  | .roleAddPermission r g as => (RV.roleAddPermission r g as).drop
  | .roleAddGroup r ga => (RV.roleAddGroup r ga).drop
  | .roleLock r b => RV.roleLock r b
  | .groupAddAttributes ga as => RV.groupAddAttributes ga as
  | .addPermissionsToRole r g as => (RV.addPermissionsToRole r g as).drop
  | .addPrincipalRole p r c ns sc m => RV.addPrincipalRole p r c ns sc m
  | .tAddPrincipalRole c p r d ns sc m => RV.tAddPrincipalRole c p r d ns sc m
  | .tAddPrincipal c p rs => RV.tAddPrincipal c p rs
  | .tAddPrincipalInNamespace o site c p n rs => RV.tAddPrincipalInNamespace o site c p n rs
  | .tAssignScopesToPrincipal o site c p ss => RV.tAssignScopesToPrincipal o site c p ss
  | .tAssignScopesWithRole o site c p r ss => RV.tAssignScopesWithRole o site c p r ss
  | .tAddDescendent c ds => RV.tAddDescendent c ds
  | .tSetDefaultNamespace c n => RV.tSetDefaultNamespace c n
  | .tAddNamespace c ns => RV.tAddNamespace c ns
  | .tAddRole c rs => RV.tAddRole c rs
  | .tAddScopes c ss => RV.tAddScopes c ss
  | .tAddScopesToNamespace c n ss => RV.tAddScopesToNamespace c n ss
  | .tAddRolesToNamespace c n rs => RV.tAddRolesToNamespace c n rs
  | .nsAddRoles n rs => RV.nsAddRoles n rs
  | .nsAddScopes n ss => RV.nsAddScopes n ss
  | .authorize o fuel site p opts => (RV.authorize o fuel site p opts).drop

/-- A history in which every panic is recovered from; `none`: some call runs out of stack. -/
def runAll (w : V1) : List NCall → Option V1
  | [] => some w
  | c :: cs =>
    match (c.go w).1 with
    | .diverge => none
    | _ => runAll (c.go w).2 cs

end RV
end Verif
