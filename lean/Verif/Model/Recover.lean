import Verif.Model.AuthDuring

/-!
# Calls of the root package that panic, when the program recovers

Every call again, with what it leaves of the manager when it panics, and with nil pointers among its arguments.  A panic comes from
a nil pointer, from a tenant without manager, or from a value that is not a string; running out of stack cannot be recovered from.

Simplifications: objects come from the constructors (a `Tenant` literal has nil maps); a pointer that is not nil leads to an object (an address without
one acts as nil); reading and writing are single steps of one goroutine.
-/

namespace Verif
namespace RP

/-- A computation: how it ends, and the manager as it leaves it. -/
def Rec (α : Type) : Type := Mgr → Out α × Mgr

variable {α β : Type}

def ret (a : α) : Rec α := fun w => (.ok a, w)

/-- A panic. -/
def fail : Rec α := fun w => (.panic, w)

/-- One computation after another; the second is not made if the first panics. -/
def Rec.bind (x : Rec α) (f : α → Rec β) : Rec β := fun w =>
  match (x w).1 with
  | .ok a => f a (x w).2
  | .panic => (.panic, (x w).2)
  | .diverge => (.diverge, (x w).2)

/-- What only reads. -/
def look (f : Mgr → Out α) : Rec α := fun w => (f w, w)

/-- Read something. -/
def read (f : Mgr → α) : Rec α := fun w => (.ok (f w), w)

/-- Write something. -/
def write (f : Mgr → Mgr) : Rec Unit := fun w => (.ok (), f w)

/-- A pointer is used. -/
def deref : Option α → Rec α
  | none => fail
  | some a => ret a

/-- The Go loop `for _, x := range xs { f(x) }`. -/
def each (f : α → Rec Unit) : List α → Rec Unit
  | [] => ret ()
  | x :: xs => (f x).bind fun _ => each f xs

/-- The object at an address. -/
def tenantAt (c : Nat) : Rec TenantObj := look fun w => match w.tobjs[c]? with | some t => .ok t | none => .panic
def roleAt (r : Nat) : Rec RoleObj := look fun w => match w.heap.roles[r]? with | some ro => .ok ro | none => .panic
def groupAt (g : Nat) : Rec GroupObj := look fun w => match w.heap.groups[g]? with | some x => .ok x | none => .panic

/-! ## Registrations -/

/-- The registries and the rest of a registration, once the id is known (tenant.go:145-149, namespace.go:18-22, scope.go:18-22,
principal.go:13-17, permission.go:59-63, activity.go:10-14, activity_group.go:14-18). -/
def store (get : Mgr → GoMap Str Nat) (set : Mgr → GoMap Str Nat → Mgr) (id : Str) (obj : Nat) : Rec Unit :=
  (read fun w => (get w).get id).bind fun x =>
  match x with
  | some _ => ret ()
  | none => write fun w => set w ((get w).set id obj)

/-- `AddTenant` (tenant.go:143-150). -/
def addTenant (p : Option Nat) : Rec Unit :=
  (deref p).bind fun a => (tenantAt a).bind fun t =>
  (write fun w => { w with tobjs := w.tobjs.set a { t with managed := true } }).bind fun _ =>
  store (·.tenants) (fun w m => { w with tenants := m }) t.id a

/-- `AddNamespace` (namespace.go:17-23); a namespace is its id and a token. -/
def addNamespace (p : Option (Str × Nat)) : Rec Unit :=
  (deref p).bind fun x => store (·.namespaces) (fun w m => { w with namespaces := m }) x.1 x.2

/-- `AddScope` (scope.go:17-23). -/
def addScope (p : Option (Str × Nat)) : Rec Unit :=
  (deref p).bind fun x => store (·.scopes) (fun w m => { w with scopes := m }) x.1 x.2

/-- `AddPrincipal` (principal.go:12-18). -/
def addPrincipal (p : Option (Str × Nat)) : Rec Unit :=
  (deref p).bind fun x => store (·.principals) (fun w m => { w with principals := m }) x.1 x.2

/-- `AddAttribute` (activity.go:9-15). -/
def addAttribute (p : Option (Attr × Nat)) : Rec Unit :=
  (deref p).bind fun x => store (·.attributes) (fun w m => { w with attributes := m }) x.1.toStr x.2

/-- `AddRole` (permission.go:58-64). -/
def addRole (p : Option Nat) : Rec Unit :=
  (deref p).bind fun r => (roleAt r).bind fun ro => store (·.roles) (fun w m => { w with roles := m }) ro.id r

/-- `AddAttributeGroup` (activity_group.go:13-19). -/
def addAttributeGroup (p : Option Nat) : Rec Unit :=
  (deref p).bind fun g => (groupAt g).bind fun go => store (·.attrGroups) (fun w m => { w with attrGroups := m }) go.id g

/-! ## Roles and groups -/

/-- Change a role. -/
def setRole (r : Nat) (ro : RoleObj) : Rec Unit := write fun w => { w with heap := { w.heap with roles := w.heap.roles.set r ro } }

/-- `Role.AddDescendant` (role.go:105-115). -/
def roleAddDescendant (p : Option Nat) (ds : List (Option Nat)) : Rec (Option Err) :=
  (deref p).bind fun r => (roleAt r).bind fun ro =>
  if ro.lock then ret (some .changesNotAllowed)
  else
    (each (fun q => (deref q).bind fun d => (roleAt d).bind fun dro => (roleAt r).bind fun ro =>
      if (ro.desc.get dro.id).isSome then ret ()
      else setRole r { ro with desc := ro.desc.set dro.id d }) ds).bind fun _ => ret none

/-- One entry of a group that the role has (role.go:131-133). -/
def keepAttr (ga : Nat) (q : Option Attr) : Rec Unit :=
  (deref q).bind fun a => (groupAt ga).bind fun g =>
  if (g.perms.get a.toStr).isSome then ret ()
  else write fun w => { w with heap := { w.heap with groups := w.heap.groups.set ga { g with perms := g.perms.set a.toStr a } } }

/-- The attributes, all of them there. -/
def derefAll : List (Option α) → Out (List α)
  | [] => .ok []
  | none :: _ => .panic
  | some a :: as => (derefAll as).map fun l => a :: l

/-- `Role.AddPermission` (role.go:118-137).  A group the role does not have is created first and put into the role last: a panic
between them loses it. -/
def roleAddPermission (p : Option Nat) (group : Str) (as : List (Option Attr)) : Rec (Option Err) :=
  (deref p).bind fun r => (roleAt r).bind fun ro =>
  if ro.lock then ret (some .changesNotAllowed)
  else
    match ro.perms.get group with
    | some ga =>
      (each (keepAttr ga) as).bind fun _ => (roleAt r).bind fun ro =>
      (setRole r { ro with perms := ro.perms.set group ga }).bind fun _ => ret none
    | none =>
      (look fun _ => derefAll as).bind fun as =>
      (write fun w => { w with heap := { roles := w.heap.roles.set r { ro with perms := ro.perms.set group w.heap.groups.length }
                                         groups := w.heap.groups ++ [{ id := group, perms := RHeap.addAttrsKeep [] as }] } }).bind fun _ => ret none

/-- `Role.AddPermissionResourceGroup` (role.go:139-147). -/
def roleAddGroup (p q : Option Nat) : Rec (Option Err) :=
  (deref p).bind fun r => (roleAt r).bind fun ro =>
  if ro.lock then ret (some .changesNotAllowed)
  else
    (deref q).bind fun ga => (groupAt ga).bind fun g =>
    if (ro.perms.get g.id).isSome then ret none
    else (setRole r { ro with perms := ro.perms.set g.id ga }).bind fun _ => ret none

/-- `Role.Lock`, `Role.Unlock` (role.go:45-47, 53-55). -/
def roleLock (p : Option Nat) (b : Bool) : Rec Unit :=
  (deref p).bind fun r => (roleAt r).bind fun ro => setRole r { ro with lock := b }

/-- `AttributeGroup.AddAttributes` (role.go:31-35). The receiver is used once there is an attribute. -/
def groupAddAttributes (p : Option Nat) (as : List (Option Attr)) : Rec Unit :=
  each (fun q => (deref q).bind fun a => (deref p).bind fun ga => (groupAt ga).bind fun g =>
    write fun w => { w with heap := { w.heap with groups := w.heap.groups.set ga { g with perms := g.perms.set a.toStr a } } }) as

/-- The association check of `AddPermissionsToRole` (role.go:204-208). -/
def associated (g : GroupObj) : List (Option Attr) → Out Bool
  | [] => .ok true
  | none :: _ => .panic
  | some a :: as => if (g.perms.get a.toStr).isSome then associated g as else .ok false

/-- `AddPermissionsToRole` (role.go:195-210). -/
def addPermissionsToRole (role group : Str) (as : List (Option Attr)) : Rec (Option Err) :=
  (read fun w => w.roles.get role).bind fun x =>
  match x with
  | none => ret (some .noRole)
  | some r =>
    (read fun w => w.attrGroups.get group).bind fun y =>
    match y with
    | none => ret (some .noGroup)
    | some ga =>
      (groupAt ga).bind fun g => (look fun _ => associated g as).bind fun b =>
      if b then roleAddPermission (some r) group as else ret (some .notAssociated)

/-! ## Tenants -/

/-- `AddData` (role_manager.go:108-110; trie/trie.go:60-80): nil is ignored; the keys of a row are never nil. -/
def addData : Option Data → Rec Unit
  | none => ret ()
  | some d => fun w =>
    match w.addData d with
    | .ok w' => (.ok (), w')
    | .panic => (.panic, w)
    | .diverge => (.diverge, w)

/-- The tenant, which must have a manager. -/
def managed (p : Option Nat) : Rec TenantObj :=
  (deref p).bind fun c => (tenantAt c).bind fun t => if t.managed then ret t else fail

/-- `Tenant.AddNamespace` (tenant.go:26-29); the argument is the id of the namespace. -/
def tAddNamespace (c : Option Nat) (n : Option Str) : Rec Unit :=
  (managed c).bind fun t => (deref n).bind fun n => addData (some { tenant := .str t.id, namespace_ := .str n })

/-- `Tenant.AddRole` (tenant.go:73-76). -/
def tAddRole (c : Option Nat) (r : Option Str) : Rec Unit :=
  (managed c).bind fun t => (deref r).bind fun r => addData (some { tenant := .str t.id, role := .str r })

/-- `Tenant.AddScope` (tenant.go:84-87). -/
def tAddScope (c : Option Nat) (s : Option Str) : Rec Unit :=
  (managed c).bind fun t => (deref s).bind fun s => addData (some { tenant := .str t.id, scope := .str s })

/-- `Tenant.AddScopesToNamespace` (tenant.go:59-61). -/
def tAddScopesToNamespace (c : Option Nat) (n s : Str) : Rec Unit :=
  (managed c).bind fun t => addData (some { tenant := .str t.id, namespace_ := .str n, scope := .str s })

/-- `Tenant.AddPrincipalInNamespace` (tenant.go:69-71). -/
def tAddPrincipalInNamespace (c : Option Nat) (p n r : Str) : Rec Unit :=
  (managed c).bind fun t => addData (some { tenant := .str t.id, namespace_ := .str n, role := .str r, principal := .str p })

/-- `Tenant.SetDefaultNamespace` (tenant.go:63-67). -/
def tSetDefaultNamespace (p : Option Nat) (n : Str) : Rec Unit :=
  (managed p).bind fun t => (deref p).bind fun c =>
  (read fun w => w.namespaces.get n).bind fun x =>
  if x.isSome then write fun w => { w with tobjs := w.tobjs.set c { t with defNs := some n } } else ret ()

/-- tenant.go:42-44. -/
def link (p q : Option Nat) : Rec Unit :=
  (deref p).bind fun c => (deref q).bind fun d => (tenantAt c).bind fun ct => (tenantAt d).bind fun dt =>
  if (ct.desc.get dt.id).isSome then ret ()
  else write fun w => { w with tobjs := w.tobjs.set c { ct with desc := ct.desc.set dt.id d } }

/-- `Tenant.AddDescendant` (tenant.go:40-51).  The descendant is linked before its manager is used. -/
def tAddDescendant (p : Option Nat) (ds : List (Option Nat)) : Rec Unit :=
  each (fun q => (link p q).bind fun _ => (deref p).bind fun c => (tenantAt c).bind fun ct =>
    match ct.defNs with
    | none => ret ()
    | some n => (tAddNamespace q (some n)).bind fun _ => tSetDefaultNamespace q n) ds

/-- `Tenant.AddPrincipalWithRole`, `Tenant.AddScopeToPrincipal` (tenant.go:95-107, 119-131): `get` is the registry of roles or scopes,
`row` the row for a namespace. -/
def grant (c : Option Nat) (p : Str) (get : Mgr → GoMap Str Nat) (err : Err) (x : Str) (row : Str → Val → Data) : Rec (Option Err) :=
  (managed c).bind fun t =>
  (read fun w => (w.principals.get p).isNone).bind fun b =>
  if b then ret (some .noPrincipal)
  else
    (read fun w => ((get w).get x).isNone).bind fun b =>
    if b then ret (some err)
    else
      (addData (some (row t.id .nil))).bind fun _ => (managed c).bind fun t =>
      match t.defNs with
      | none => ret none
      | some n => (addData (some (row t.id (.str n)))).bind fun _ => ret none

/-- The loop of `Tenant.AddPrincipal` and `Tenant.AssignScopesToPrincipal` (tenant.go:110-116, 134-140). -/
def grants (f : Str → Rec (Option Err)) : List Str → Rec (Option Err)
  | [] => ret none
  | x :: xs => (f x).bind fun e =>
    match e with
    | some e => ret (some e)
    | none => grants f xs

def withRole (c : Option Nat) (p : Str) (m : Bool) (r : Str) : Rec (Option Err) :=
  grant c p (·.roles) .noRole r fun t n => { tenant := .str t, namespace_ := n, principal := .str p, role := .str r, manage := .bool m }

def withScope (c : Option Nat) (p : Str) (m : Bool) (s : Str) : Rec (Option Err) :=
  grant c p (·.scopes) .noScope s fun t n => { tenant := .str t, namespace_ := n, scope := .str s, principal := .str p, manage := .bool m }

/-! ## Decisions -/

/-- `TenantChildren` (role_manager.go:124-135). -/
def tenantChildren (o : Ord) (fuel : Nat) (site : List Val) (id : Str) : Rec (List Val) :=
  (read fun w => w.hierarchy.get id).bind fun h =>
  match h with
  | some hier => ret hier
  | none =>
    (read fun w => w.tenants.get id).bind fun t =>
    match t with
    | none => ret []
    | some c =>
      (look fun w => w.descendants o fuel site c).bind fun ds =>
      (write fun w => { w with hierarchy := w.hierarchy.set id (compact (ds.map Val.str)) }).bind fun _ => ret (ds.map Val.str)

/-- The outer loop of `GetImplicitTenants` (query.go:46-59). -/
def implicitLoop (o : Ord) (fuel : Nat) (site : List Val) : Nat → List Data → List Str → Rec (List Str)
  | _, [], E => ret E
  | i, rs :: rest, E =>
    match rs.tenant with
    | .str t =>
      if t ∈ E then implicitLoop o fuel site (i + 1) rest E
      else if rs.manage = .bool true then
        (tenantChildren o fuel (site ++ [.int i]) t).bind fun x =>
        (look fun _ => Mgr.addDescs (E ++ [t]) x).bind fun E' => implicitLoop o fuel site (i + 1) rest E'
      else implicitLoop o fuel site (i + 1) rest (E ++ [t])
    | _ => fail

/-- `GetImplicitTenants` (query.go:39-62). -/
def implicitTenants (o : Ord) (fuel : Nat) (site : List Val) (p : Str) : Rec (List Str) :=
  (read fun w => w.pcache.get p).bind fun x =>
  match x with
  | some I => ret I
  | none =>
    (read fun w => w.search o (site ++ [.int 0]) { principal := .str p } filterTenantsByPrincipal).bind fun rows =>
    (implicitLoop o fuel (site ++ [.int 1]) 0 rows []).bind fun E =>
    (write fun w => { w with pcache := w.pcache.set p E }).bind fun _ => ret E

/-- `Authorize` (authorize.go:9-44); an option may be nil. What follows the computation of the tenants only reads. -/
def authorize (o : Ord) (fuel : Nat) (site : List Val) (p : Str) (opts : List (Option Opt)) : Rec Bool :=
  (read fun w => (w.principals.get p).isNone).bind fun b =>
  if b then ret false
  else
    (look fun _ => derefAll opts).bind fun opts =>
    (implicitTenants o fuel (site ++ [.int 0]) p).bind fun I =>
    if I.length = 0 then ret false
    else
      let r := opts.foldl Opt.apply {}
      (look fun w => w.validateResources r).bind fun v =>
      if !v then ret false
      else
        (look fun w => w.check o fuel (site ++ [.int 1]) p r (flagsOf r)).bind fun b =>
        if b then ret true
        else look fun w => w.fallback o fuel (site ++ [.int 2]) p (flagsOf r) 0 r (o.ord (site ++ [.int 3]) _ I)

/-! ## Histories -/

/-- The calls.  The constructors never panic; `Add…s` of several objects and `Add…` of one are the same but for the answer. -/
inductive NCall where
  | newRole (id : Str)
  | newGroup (id : Str)
  | newTenant (id : Str)
  | addTenants (l : List (Option Nat))
  | addNamespaces (l : List (Option (Str × Nat)))
  | addScopes (l : List (Option (Str × Nat)))
  | addPrincipals (l : List (Option (Str × Nat)))
  | addAttributes (l : List (Option (Attr × Nat)))
  | addRoles (l : List (Option Nat))
  | addAttributeGroups (l : List (Option Nat))
  | roleAddDescendant (r : Option Nat) (ds : List (Option Nat))
  | roleAddPermission (r : Option Nat) (group : Str) (as : List (Option Attr))
  | roleAddGroup (r ga : Option Nat)
  | roleLock (r : Option Nat) (b : Bool)
  | groupAddAttributes (ga : Option Nat) (as : List (Option Attr))
  | addPermissionsToRole (r g : Str) (as : List (Option Attr))
  | addData (d : Option Data)
  | tAddNamespaces (c : Option Nat) (l : List (Option Str))
  | tAddRoles (c : Option Nat) (l : List (Option Str))
  | tAddScopes (c : Option Nat) (l : List (Option Str))
  | tAddScopesToNamespace (c : Option Nat) (n s : Str)
  | tSetDefaultNamespace (c : Option Nat) (n : Str)
  | tAddPrincipalInNamespace (c : Option Nat) (p n r : Str)
  | tAddDescendant (c : Option Nat) (ds : List (Option Nat))
  | tAddPrincipal (c : Option Nat) (p : Str) (m : Bool) (rs : List Str)
  | tAssignScopes (c : Option Nat) (p : Str) (m : Bool) (ss : List Str)
  | tenantChildren (o : Ord) (fuel : Nat) (site : List Val) (id : Str)
  | implicitTenants (o : Ord) (fuel : Nat) (site : List Val) (p : Str)
  | authorize (o : Ord) (fuel : Nat) (site : List Val) (p : Str) (opts : List (Option Opt))

/-- The answer is not kept. -/
def Rec.drop (x : Rec α) : Rec Unit := x.bind fun _ => ret ()

/-- How a call ends and what it leaves. -/
def NCall.go : NCall → Rec Unit
  | .newRole id => write fun w => { w with heap := w.heap.newRole id }
  | .newGroup id => write fun w => { w with heap := w.heap.newGroup id }
  | .newTenant id => write fun w => w.newTenant id
  | .addTenants l => each addTenant l
  | .addNamespaces l => each addNamespace l
  | .addScopes l => each addScope l
  | .addPrincipals l => each addPrincipal l
  | .addAttributes l => each addAttribute l
  | .addRoles l => each addRole l
  | .addAttributeGroups l => each addAttributeGroup l
  | .roleAddDescendant r ds => (RP.roleAddDescendant r ds).drop
  | .roleAddPermission r g as => (RP.roleAddPermission r g as).drop
  | .roleAddGroup r ga => (RP.roleAddGroup r ga).drop
  | .roleLock r b => RP.roleLock r b
  | .groupAddAttributes ga as => RP.groupAddAttributes ga as
  | .addPermissionsToRole r g as => (RP.addPermissionsToRole r g as).drop
  | .addData d => RP.addData d
  | .tAddNamespaces c l => each (tAddNamespace c) l
  | .tAddRoles c l => each (tAddRole c) l
  | .tAddScopes c l => each (tAddScope c) l
  | .tAddScopesToNamespace c n s => RP.tAddScopesToNamespace c n s
  | .tSetDefaultNamespace c n => RP.tSetDefaultNamespace c n
  | .tAddPrincipalInNamespace c p n r => RP.tAddPrincipalInNamespace c p n r
  | .tAddDescendant c ds => RP.tAddDescendant c ds
  | .tAddPrincipal c p m rs => (grants (withRole c p m) rs).drop
  | .tAssignScopes c p m ss => (grants (withScope c p m) ss).drop
  | .tenantChildren o fuel site id => (RP.tenantChildren o fuel site id).drop
  | .implicitTenants o fuel site p => (RP.implicitTenants o fuel site p).drop
  | .authorize o fuel site p opts => (RP.authorize o fuel site p opts).drop

/-- A history in which every panic is recovered from; `none`: some call runs out of stack. -/
def runAll (w : Mgr) : List NCall → Option Mgr
  | [] => some w
  | c :: cs =>
    match (c.go w).1 with
    | .diverge => none
    | _ => runAll (c.go w).2 cs

end RP
end Verif
