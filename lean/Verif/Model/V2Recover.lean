import Verif.Lemmas.V2Ops

/-!
# Calls of package v2 that panic, when the program recovers

Every call again, with what it leaves of the authorizer when it panics, and with nil pointers among its arguments.  A panic comes from a nil
pointer: an argument, or an entry of `userRoles`.  Running out of stack cannot be recovered from.  All locks are released by `defer`, but for
the read lock of v2/role.go:118-123 and 152-157, around reading a map.

Simplifications: objects come from the constructors; a pointer that is not nil leads to an object (an address without one acts as nil); the
authorizer itself is not nil; calls are made by one goroutine.
-/

namespace Verif
namespace RQ

/-- A computation: how it ends, and the authorizer as it leaves it. -/
def Rec (α : Type) : Type := V2 → Out α × V2

variable {α β σ : Type}

def ret (a : α) : Rec α := fun w => (.ok a, w)

/-- A panic. -/
def fail : Rec α := fun w => (.panic, w)

/-- One computation after another; the second is not made if the first panics. -/
def Rec.bind (x : Rec α) (f : α → Rec β) : Rec β := fun w =>
  match (x w).1 with
  | .ok a => f a (x w).2
  | .panic => (.panic, (x w).2)
  | .diverge => (.diverge, (x w).2)

/-- What only reads. -/
def look (f : V2 → Out α) : Rec α := fun w => (f w, w)

/-- Read something. -/
def read (f : V2 → α) : Rec α := fun w => (.ok (f w), w)

/-- Write something. -/
def write (f : V2 → V2) : Rec Unit := fun w => (.ok (), f w)

/-- A pointer is used. -/
def deref : Option α → Rec α
  | none => fail
  | some a => ret a

/-- The Go loop `for _, x := range xs { f(x) }`. -/
def each (f : α → Rec Unit) : List α → Rec Unit
  | [] => ret ()
  | x :: xs => (f x).bind fun _ => each f xs

/-- The Go loop `for _, x := range xs { s = f(s, x) }`. -/
def over (f : σ → α → Rec σ) : σ → List α → Rec σ
  | s, [] => ret s
  | s, x :: xs => (f s x).bind fun s' => over f s' xs

/-- The object at an address. -/
def tenantAt (c : Nat) : Rec T2 := look fun w => match w.tobjs[c]? with | some t => .ok t | none => .panic
def roleAt (a : Nat) : Rec R2 := look fun w => match w.dag.objs[a]? with | some r => .ok r | none => .panic
def rowAt (x : Option Nat) : Rec PR := look fun w => w.prAt x

/-- The tenant becomes `t`. -/
def setTenant (c : Nat) (t : T2) : Rec Unit := write fun w => w.setT c t

/-! ## Roles -/

/-- The permissions of a role become `l`. -/
def setPerms (a : Nat) (r : R2) (l : List Str) : Rec Unit :=
  write fun w => { w with dag := { w.dag with objs := w.dag.objs.set a { r with perms := l } } }

/-- `Role.AddPermission` (v2/role.go:12-18). -/
def addPermission (p : Option Nat) (ps : List (Option Perm2)) : Rec Unit :=
  (deref p).bind fun a => (roleAt a).bind fun _ =>
  each (fun q => (deref q).bind fun x => (roleAt a).bind fun r => setPerms a r (addStr r.perms x.string)) ps

/-- `Role.RemovePermission` (v2/role.go:20-26). -/
def removePermission (p : Option Nat) (ps : List (Option Perm2)) : Rec Unit :=
  (deref p).bind fun a => (roleAt a).bind fun _ =>
  each (fun q => (deref q).bind fun x => (roleAt a).bind fun r => setPerms a r (r.perms.filter (· ≠ x.string))) ps

/-- `Authorizer.AddRoles`, `RoleDAG.AddRole` (v2/init.go:3-5, v2/role.go:76-82). -/
def addRoles (ps : List (Option Nat)) : Rec Unit :=
  each (fun p => (deref p).bind fun a => (roleAt a).bind fun r =>
    write fun w => { w with dag := { w.dag with roles := w.dag.roles.set r.name a } }) ps

/-- `Authorizer.AddChildRole` (v2/init.go:17-19); the answer is not kept. -/
def addChildRole (fuel : Nat) (parent : Str) (cs : List Str) : Rec Unit := fun w =>
  match w.dag.addChildRole fuel parent cs with
  | .ok r => (.ok (), { w with dag := r.2 })
  | .panic => (.panic, w)
  | .diverge => (.diverge, w)

/-! ## Tenants -/

/-- `Tenant.AddNamespace` (v2/role.go:28-37). -/
def addNamespace (p : Option Nat) (n : Str) (isDefault : Bool) : Rec Unit :=
  (deref p).bind fun c => (tenantAt c).bind fun t =>
  (match t.namespaces.get n with
    | some _ => ret ()
    | none => setTenant c { t with namespaces := t.namespaces.set n [] }).bind fun _ =>
  if isDefault then (tenantAt c).bind fun t => setTenant c { t with defNs := n } else ret ()

/-- `Tenant.AddScopeToNamespace` (v2/role.go:39-51): the scopes before a nil one are kept, since the namespace is shared. -/
def addScopes (p : Option Nat) (n : Str) (scs : List (Option Str)) : Rec Unit :=
  (deref p).bind fun c => (tenantAt c).bind fun t =>
  match t.namespaces.get n with
  | none => ret ()
  | some _ =>
    each (fun q => (deref q).bind fun s => (tenantAt c).bind fun t =>
      setTenant c { t with namespaces := t.namespaces.set n (addStr ((t.namespaces.get n).getD []) s) }) scs

/-- `Tenant.AddChildTenant` (v2/role.go:53-59); the receiver is used at once, to lock it. -/
def addChildTenant (p : Option Nat) (ds : List (Option Nat)) : Rec Unit :=
  (deref p).bind fun c =>
  each (fun q => (deref q).bind fun d => (tenantAt d).bind fun dt => (tenantAt c).bind fun t =>
    setTenant c { t with children := t.children.set dt.id d }) ds

/-- A caller's `tenant.Status = s` (v2/entities.go:70). -/
def setStatus (p : Option Nat) (s : Int) : Rec Unit :=
  (deref p).bind fun c => (tenantAt c).bind fun t => setTenant c { t with status := s }

/-- `Authorizer.AddTenant` (v2/init.go:27-35). -/
def addTenant (p : Option Nat) : Rec Unit :=
  (deref p).bind fun c => (tenantAt c).bind fun t =>
  (write fun w => { w with tenants := w.tenants.set t.id c }).bind fun _ =>
  each (fun kd => (tenantAt kd.2).bind fun d => write fun w => { w with parents := w.parents.set d.id c }) t.children

/-! ## Assignments -/

/-- Change an assignment. -/
def onRow (p : Option Nat) (f : PR → PR) : Rec Unit :=
  (deref p).bind fun i => (rowAt (some i)).bind fun u => write fun w => { w with prs := w.prs.set i (f u) }

/-- `PrincipalRole.SetExpiry` (v2/v2.go:31-37): a time in the past is refused before the receiver is used. -/
def setExpiry (p : Option Nat) (now e : Int) : Rec Unit :=
  if p = none ∧ e < now then ret () else onRow p fun u => (u.setExpiry now e).2

/-- The argument is a string that is no duration. -/
def _root_.Verif.DurArg.unreadable (parse : Str → Option Int) : DurArg → Bool
  | .str s => (parse s).isNone
  | _ => false

/-- `PrincipalRole.SetExpiryDuration` (v2/v2.go:39-54): with a string that is no duration it returns before the receiver is used. -/
def setExpiryDuration (p : Option Nat) (parse : Str → Option Int) (now : Int) (a : DurArg) : Rec Unit :=
  if p = none ∧ a.unreadable parse then ret () else onRow p fun u => u.setExpiryDuration parse now a

/-- `PrincipalRole.ClearExpiry` (v2/v2.go:56-58). -/
def clearExpiry (p : Option Nat) : Rec Unit := onRow p fun u => u.clearExpiry

/-- The pointer as an entry of `userRoles`: an address without object acts as nil. -/
def entry (w : V2) (p : Option Nat) : Option Nat := p.bind fun i => if i < w.prs.length then some i else none

/-- `Authorizer.AddPrincipalRole` (v2/v2.go:102-112): an assignment is appended to `userRoles` (106) before it is dereferenced (107). -/
def addPrincipalRole (ps : List (Option Nat)) : Rec Unit :=
  each (fun p => (write fun w => { w with userRoles := w.userRoles ++ [entry w p] }).bind fun _ => (rowAt p).bind fun u => (deref p).bind fun i =>
    write fun w =>
      let m := (w.index.get u.principal).getD []
      { w with index := w.index.set u.principal (m.set u.tenant ((m.get u.tenant).getD [] ++ [i])) }) ps

/-- `Authorizer.RemovePrincipalRole` (v2/v2.go:114-169): `userRoles` is replaced after the first loop (148), before the index is changed; of an index
half changed nothing is kept here (the loops over it panic only at a nil entry, which it never has). -/
def removePrincipalRole (target : PR) : Rec Bool :=
  (look fun w => Out.loop (w.removeStep target) (List.replicate w.userRoles.length none, 0, false) w.userRoles.zipIdx).bind fun s =>
  if s.2.2 = false then ret true
  else
    (write fun w => { w with userRoles := s.1.take s.2.1 }).bind fun _ =>
    (look fun w => w.keepIndex target w.index).bind fun ix => (write fun w => { w with index := ix }).bind fun _ => ret false

/-! ## Decisions -/

/-- `ResolvePermissions`, `ResolveChildRoles` (v2/role.go:117-179): what is resolved stays. -/
def resolve (f : Dag → Nat → Str → Out (List Str × Dag)) (fuel : Nat) (role : Str) : Rec (List Str) := fun w =>
  match f w.dag fuel role with
  | .ok x => (.ok x.1, { w with dag := x.2 })
  | .panic => (.panic, w)
  | .diverge => (.diverge, w)

/-- `traverse` (v2/v2.go:200-236, 262-291), as in `V2.traverse`; the maps of a call are lost when it panics. -/
def traverse (e : Env) (site : List Val) (p : Str) (visit : Str → σ → Rec σ) : Nat → Nat → List Str × σ → Rec (List Str × σ)
  | 0, _, _ => fun w => (.diverge, w)
  | n + 1, c, st => (tenantAt c).bind fun t =>
    if t.id ∈ st.1 then ret st
    else (visit t.id st.2).bind fun s => (read fun w => w.userRoles.zipIdx).bind fun rows =>
      over (fun st xi => (rowAt xi.1).bind fun u =>
          if u.principal = p ∧ u.tenant = t.id ∧ u.manage = true then
            over (fun st kd => traverse e site p visit n kd.2 st) st (e.o.ord (site ++ [.str t.id, .int xi.2]) _ t.children)
          else ret st)
        (st.1 ++ [t.id], s) rows

/-- One iteration of v2/v2.go:206-225; `s` holds the scoped and the global permissions. -/
def permRow (e : Env) (fuel : Nat) (site : List Val) (p ns sc tid : Str) (s : List Str × List Str) (xi : Option Nat × Nat) : Rec (List Str × List Str) :=
  (rowAt xi.1).bind fun u =>
    if u.principal ≠ p ∨ u.tenant ≠ tid then ret s
    else if u.expired (e.now (site ++ [.str tid, .int xi.2])) then ret s
    else if u.namespace_ = [] ∨ u.namespace_ = ns then
      (resolve Dag.resolvePermissions fuel u.role).bind fun ps =>
        if u.scope = sc then ret (ps.foldl addStr s.1, s.2)
        else if u.scope = [] then ret (s.1, ps.foldl addStr s.2)
        else ret s
    else ret s

/-- `resolvePrincipalPermissions` (v2/v2.go:184-247); `none` is an error. -/
def resolvePerms (e : Env) (fuel : Nat) (site : List Val) (p tid ns sc : Str) : Rec (Option (List Str)) :=
  (read fun w => w.tenants.get tid).bind fun x =>
  match x with
  | none => ret none
  | some c =>
    (traverse e site p (fun tid s => (read fun w => w.userRoles.zipIdx).bind fun rows => over (permRow e fuel site p ns sc tid) s rows) fuel c
      ([], ([], []))).bind fun r =>
        ret (if r.2.1.length > 0 then some r.2.1 else if r.2.2.length > 0 then some r.2.2 else none)

/-- One iteration of v2/v2.go:268-281. -/
def roleRow (e : Env) (fuel : Nat) (site : List Val) (p ns tid : Str) (s : List Str) (xi : Option Nat × Nat) : Rec (List Str) :=
  (rowAt xi.1).bind fun u =>
    if u.principal ≠ p ∨ u.tenant ≠ tid then ret s
    else if u.expired (e.now (site ++ [.str tid, .int xi.2])) then ret s
    else if (u.namespace_ = [] ∨ u.namespace_ = ns) ∧ u.role ≠ [] then
      (resolve Dag.resolveChildRoles fuel u.role).bind fun ps => ret (ps.foldl addStr (addStr s u.role))
    else ret s

/-- `resolvePrincipalRoles` (v2/v2.go:249-300); `none` is an error. -/
def resolveRoles (e : Env) (fuel : Nat) (site : List Val) (p tid ns : Str) : Rec (Option (List Str)) :=
  (read fun w => w.tenants.get tid).bind fun x =>
  match x with
  | none => ret none
  | some c =>
    (traverse e site p (fun tid s => (read fun w => w.userRoles.zipIdx).bind fun rows => over (roleRow e fuel site p ns tid) s rows) fuel c
      ([], [])).bind fun r => ret (if r.2.length > 0 then some r.2 else none)

/-- `Authorizer.Log` (v2/v2.go:302-325). -/
def logMsg (r : Req2) (m : Msg) : Rec Unit := write fun w => w.logMsg r m

/-- The loop over the target tenants (v2/v2.go:361-393, 404-436) and the final record, as in `V2.tenantLoop`. -/
def tenantLoop (r : Req2) (body : Nat → Str → Str → Rec Bool) : Nat → List Nat → Rec Bool
  | _, [] => (logMsg r .failed).bind fun _ => ret false
  | k, c :: cs => (tenantAt c).bind fun t =>
    match V2.nsOf t r with
    | none => tenantLoop r body (k + 1) cs
    | some ns =>
      match t.namespaces.get ns with
      | none => tenantLoop r body (k + 1) cs
      | some scs =>
        if r.scope ≠ [] ∧ !V2.scopeValid scs r.scope then tenantLoop r body (k + 1) cs
        else (body k t.id ns).bind fun b => if b then ret true else tenantLoop r body (k + 1) cs

/-- v2/v2.go:425-435. -/
def authBody (e : Env) (fuel : Nat) (site : List Val) (r : Req2) (k : Nat) (tid ns : Str) : Rec Bool :=
  (resolvePerms e fuel (site ++ [.int k]) r.principal tid ns r.scope).bind fun x =>
    match x with
    | none => (logMsg r .noPerms).bind fun _ => ret false
    | some perms =>
      (look fun _ => Out.anyI (fun _ perm => V2.matchPermission perm r) 0 (e.o.ord (site ++ [.int k]) _ perms)).bind fun b =>
        if b then (logMsg r .granted).bind fun _ => ret true else ret false

/-- v2/v2.go:382-392. -/
def canBody (e : Env) (fuel : Nat) (site : List Val) (r : Req2) (roles : List Str) (k : Nat) (tid ns : Str) : Rec Bool :=
  (resolveRoles e fuel (site ++ [.int k]) r.principal tid ns).bind fun x =>
    match x with
    | none => (logMsg r .noRoles).bind fun _ => ret false
    | some rs =>
      if (e.o.ord (site ++ [.int k]) _ rs).any fun x => decide (x ∈ roles) then (logMsg r .granted).bind fun _ => ret true else ret false

/-- A decision once the tenants are known. -/
def decideAll (r : Req2) (body : Nat → Str → Str → Rec Bool) (o : Ord) (site : List Val) : Rec Bool :=
  (look fun w => w.findTargets o site r).bind fun ts =>
  match ts with
  | none => (logMsg r .invalidTenant).bind fun _ => ret false
  | some cs => tenantLoop r body 0 cs

/-- `Authorizer.Authorize` (v2/v2.go:398-439). -/
def authorize (e : Env) (fuel : Nat) (site : List Val) (r : Req2) : Rec Bool := decideAll r (authBody e fuel site r) e.o site

/-- `Authorizer.Can` (v2/v2.go:355-396). -/
def can (e : Env) (fuel : Nat) (site : List Val) (r : Req2) (roles : List Str) : Rec Bool := decideAll r (canBody e fuel site r roles) e.o site

/-! ## Histories -/

/-- The calls.  The constructors and `SetDefaultTenant` never panic; `AddTenant` is `addTenants` of one, `AddRole` is `addRoles` of one. -/
inductive NCall where
  | newRole (name : Str)
  | addPermission (a : Option Nat) (ps : List (Option Perm2))
  | removePermission (a : Option Nat) (ps : List (Option Perm2))
  | addRoles (as : List (Option Nat))
  | addChildRole (fuel : Nat) (parent : Str) (cs : List Str)
  | newTenant (id : Str) (ns : Option Str)
  | addNamespace (c : Option Nat) (n : Str) (isDefault : Bool)
  | addScopes (c : Option Nat) (n : Str) (scs : List (Option Str))
  | addChildTenant (c : Option Nat) (ds : List (Option Nat))
  | setStatus (c : Option Nat) (s : Int)
  | addTenants (cs : List (Option Nat))
  | setDefaultTenant (t : Str)
  | newPrincipalRole (u : PR)
  | setExpiry (i : Option Nat) (now e : Int)
  | setExpiryDuration (i : Option Nat) (parse : Str → Option Int) (now : Int) (a : DurArg)
  | clearExpiry (i : Option Nat)
  | addPrincipalRole (is : List (Option Nat))
  | removePrincipalRole (target : PR)
  | authorize (e : Env) (fuel : Nat) (site : List Val) (r : Req2)
  | can (e : Env) (fuel : Nat) (site : List Val) (r : Req2) (roles : List Str)

/-- The answer is not kept. -/
def Rec.drop (x : Rec α) : Rec Unit := x.bind fun _ => ret ()

/-- How a call ends and what it leaves. -/
def NCall.go : NCall → Rec Unit
  | .newRole n => write fun w => { w with dag := w.dag.newRole n }
  | .addPermission a ps => RQ.addPermission a ps
  | .removePermission a ps => RQ.removePermission a ps
  | .addRoles as => RQ.addRoles as
  | .addChildRole fuel p cs => RQ.addChildRole fuel p cs
  | .newTenant id ns => write fun w => w.newTenant id ns
  | .addNamespace c n d => RQ.addNamespace c n d
  | .addScopes c n scs => RQ.addScopes c n scs
  | .addChildTenant c ds => RQ.addChildTenant c ds
  | .setStatus c s => RQ.setStatus c s
  | .addTenants cs => each RQ.addTenant cs
  | .setDefaultTenant t => write fun w => w.setDefaultTenant t
  | .newPrincipalRole u => write fun w => { w with prs := w.prs ++ [u] }
  | .setExpiry i now e => RQ.setExpiry i now e
  | .setExpiryDuration i parse now a => RQ.setExpiryDuration i parse now a
  | .clearExpiry i => RQ.clearExpiry i
  | .addPrincipalRole is => RQ.addPrincipalRole is
  | .removePrincipalRole target => (RQ.removePrincipalRole target).drop
  | .authorize e fuel site r => (RQ.authorize e fuel site r).drop
  | .can e fuel site r roles => (RQ.can e fuel site r roles).drop

/-- A history in which every panic is recovered from; `none`: some call runs out of stack. -/
def runAll (w : V2) : List NCall → Option V2
  | [] => some w
  | c :: cs =>
    match (c.go w).1 with
    | .diverge => none
    | _ => runAll (c.go w).2 cs

end RQ
end Verif
