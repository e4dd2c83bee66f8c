import Verif.Model.V2

/-!
# Model of the locks of /repo/v2 (entities.go, init.go, role.go, v2.go)

Several goroutines call methods of one authorizer and of the roles and tenants it knows.  A method is a program whose
steps are single accesses to shared memory and single operations on a lock.  The memory is the state `V2` of the
sequential model, divided into locations; a Go map or slice is one location.

Simplifications.  Constructors (`NewRole`, `NewTenant`) run before the goroutines start.  Pointers given to the methods
are valid; one that is not reads as a zero value here and panics in the code.  A map update made of a lookup and a
store to the same map (v2/v2.go:105-110) is one step, and so are the stores and deletions of v2/v2.go:158-166.  Loops over a map run in storage order: the results do not depend on the order.
`Authorize`, `Can` and `GetDefaultTenant` are arbitrary sequences of the accesses they make (`Act`); their runs in the
code are among these.  Memory accesses happen in the order of the steps: the model says which accesses race, not what
a race does.
-/

namespace Verif

/-- The locks: `RoleDAG.mu` (v2/role.go:62), `Authorizer.m` (v2/v2.go:81), `Tenant.m` (v2/entities.go:72), `Role.m`
(v2/entities.go:20). -/
inductive Lock where
  | dag
  | auth
  | tenant (c : Nat)
  | role (a : Nat)
  deriving DecidableEq, Repr

/-- Shared locations: the fields of `RoleDAG` (v2/role.go:61-66), `Role` (v2/entities.go:17-21), `Authorizer`
(v2/v2.go:73-82), `Tenant` (v2/entities.go:66-73; `namespaces` with the scopes inside) and `PrincipalRole`
(v2/v2.go:14-22; `assigned` is every field but the expiry). -/
inductive Loc where
  | roles | edges | resolved
  | roleName (a : Nat) | perms (a : Nat)
  | tenants | parents | defTenant | userRoles | index
  | tenantId (c : Nat) | namespaces (c : Nat) | defNs (c : Nat) | status (c : Nat) | children (c : Nat)
  | assigned (i : Nat) | expiry (i : Nat)
  deriving DecidableEq, Repr

/-- What a location holds. -/
def Cell : Loc → Type
  | .roles => GoMap Str Nat
  | .edges | .resolved => GoMap Str (List Str)
  | .roleName _ => Str
  | .perms _ => List Str
  | .tenants | .parents => GoMap Str Nat
  | .defTenant => Str
  | .userRoles => List (Option Nat)
  | .index => GoMap Str (GoMap Str (List Nat))
  | .tenantId _ => Str
  | .namespaces _ => GoMap Str (List Str)
  | .defNs _ => Str
  | .status _ => Int
  | .children _ => GoMap Str Nat
  | .assigned _ => PR
  | .expiry _ => Option Int

/-- Zero value of an object that does not exist. -/
def V2.tenantAt (w : V2) (c : Nat) : T2 := w.tobjs.getD c { id := [] }

/-- Zero value of an object that does not exist. -/
def V2.roleAt (w : V2) (a : Nat) : R2 := w.dag.objs.getD a { name := [] }

/-- Read a location. -/
def Loc.get (w : V2) : (x : Loc) → Cell x
  | .roles => w.dag.roles
  | .edges => w.dag.edges
  | .resolved => w.dag.resolved
  | .roleName a => (w.roleAt a).name
  | .perms a => (w.roleAt a).perms
  | .tenants => w.tenants
  | .parents => w.parents
  | .defTenant => w.defTenant
  | .userRoles => w.userRoles
  | .index => w.index
  | .tenantId c => (w.tenantAt c).id
  | .namespaces c => (w.tenantAt c).namespaces
  | .defNs c => (w.tenantAt c).defNs
  | .status c => (w.tenantAt c).status
  | .children c => (w.tenantAt c).children
  | .assigned i => { w.prs.getD i {} with expiry := none }
  | .expiry i => (w.prs.getD i {}).expiry

/-- Change a location. -/
def Loc.put (w : V2) : (x : Loc) → (Cell x → Cell x) → V2
  | .roles, f => { w with dag := { w.dag with roles := f w.dag.roles } }
  | .edges, f => { w with dag := { w.dag with edges := f w.dag.edges } }
  | .resolved, f => { w with dag := { w.dag with resolved := f w.dag.resolved } }
  | .roleName a, f => { w with dag := { w.dag with objs := w.dag.objs.modify a fun r => { r with name := f r.name } } }
  | .perms a, f => { w with dag := { w.dag with objs := w.dag.objs.modify a fun r => { r with perms := f r.perms } } }
  | .tenants, f => { w with tenants := f w.tenants }
  | .parents, f => { w with parents := f w.parents }
  | .defTenant, f => { w with defTenant := f w.defTenant }
  | .userRoles, f => { w with userRoles := f w.userRoles }
  | .index, f => { w with index := f w.index }
  | .tenantId c, f => { w with tobjs := w.tobjs.modify c fun t => { t with id := f t.id } }
  | .namespaces c, f => { w with tobjs := w.tobjs.modify c fun t => { t with namespaces := f t.namespaces } }
  | .defNs c, f => { w with tobjs := w.tobjs.modify c fun t => { t with defNs := f t.defNs } }
  | .status c, f => { w with tobjs := w.tobjs.modify c fun t => { t with status := f t.status } }
  | .children c, f => { w with tobjs := w.tobjs.modify c fun t => { t with children := f t.children } }
  | .assigned i, f => { w with prs := w.prs.modify i fun u => { f { u with expiry := none } with expiry := u.expiry } }
  | .expiry i, f => { w with prs := w.prs.modify i fun u => { u with expiry := f u.expiry } }

/-- Where an iteration of the loop of `ResolvePermissions` or `ResolveChildRoles` stands. -/
inductive BfsAt where
  /-- At the head of the loop (v2/role.go:130-138, 163-171). -/
  | pop
  /-- Role object `a` is known under the name `c`; next its contribution is added (v2/role.go:141-143, 174). -/
  | emit (c : Str) (a : Nat)
  /-- Next the children of `c` are queued (v2/role.go:144, 175). -/
  | push (c : Str)
  deriving DecidableEq, Repr

/-- A program. -/
inductive Prog where
  /-- Return a set of strings (resolutions), an error flag as the empty set, or nothing. -/
  | done (r : Option (List Str))
  /-- `Lock` (`w = true`) or `RLock`. -/
  | lock (l : Lock) (w : Bool) (k : Prog)
  /-- `Unlock` or `RUnlock`. -/
  | unlock (l : Lock) (w : Bool) (k : Prog)
  | read (x : Loc) (k : Cell x → Prog)
  | upd (x : Loc) (f : Cell x → Cell x) (k : Prog)
  /-- The loop of `ResolvePermissions` (`names = false`) or `ResolveChildRoles` (v2/role.go:130-145, 163-176). -/
  | bfs (names : Bool) (at_ : BfsAt) (q V res : List Str) (k : List Str → Prog)
  /-- The search of `checkCircularDependency` (v2/role.go:97-113); `q` lists the calls of `dfs` that are still to be
  made, innermost first.  A call that returns true ends the search. -/
  | dfs (q V : List Str) (k : Bool → Prog)

/-- An access that a decision makes: to memory, or through `ResolvePermissions` or `ResolveChildRoles`. -/
inductive Act where
  | peek (x : Loc)
  | resolve (names : Bool) (r : Str)
  /-- `GetTenant`, from `GetDefaultTenant` (v2/v2.go:177-182). -/
  | getTenant
  deriving DecidableEq, Repr

/-- The locations `Authorize`, `Can` and `GetDefaultTenant` read without a lock (v2/v2.go:178, 185, 203-235, 250,
265-290, 328-352, 362-378, 405-421, 446-463). -/
def Loc.peekable : Loc → Bool
  | .tenants | .defTenant | .userRoles | .tenantId _ | .namespaces _ | .defNs _ | .status _ | .children _
  | .assigned _ | .expiry _ => true
  | _ => false

/-- The calls a goroutine can make. -/
inductive LCall where
  | addPermission (a : Nat) (ps : List Perm2)
  | removePermission (a : Nat) (ps : List Perm2)
  | addNamespace (c : Nat) (n : Str) (isDefault : Bool)
  | addScopes (c : Nat) (n : Str) (scs : List Str)
  | addChildTenant (c : Nat) (ds : List Nat)
  | addRoles (as : List Nat)
  | addChildRole (p : Str) (cs : List Str)
  | resolve (names : Bool) (r : Str)
  | getRole (r : Str)
  | addTenant (c : Nat)
  | getTenant (id : Str)
  | setDefaultTenant (id : Str)
  | addPrincipalRole (is : List Nat)
  | removePrincipalRole (target : PR)
  | setExpiry (i : Nat) (e : Option Int)
  /-- `Authorize`, `Can` or `GetDefaultTenant` (v2/v2.go:355-438, 177-182). -/
  | judge (acts : List Act)
  deriving DecidableEq, Repr

namespace LCall

/-- `l.Lock()`, body, deferred `l.Unlock()`; the body ends with the returned value. -/
def locked (l : Lock) (body : (Option (List Str) → Prog) → Prog) : Prog :=
  .lock l true (body fun r => .unlock l true (.done r))

/-- `for _, p := range ps { ... }` with one update in the body. -/
def updAll {α : Type} (x : Loc) (f : α → Cell x → Cell x) (as : List α) (k : Prog) : Prog :=
  as.foldr (fun a k => .upd x (f a) k) k

/-- `RoleDAG.ResolvePermissions` and `ResolveChildRoles` (v2/role.go:118-148, 151-179), then `k`. -/
def resolveK (names : Bool) (r : Str) (k : List Str → Prog) : Prog :=
  .lock .dag false <| .read .resolved fun m =>
    match GoMap.get (κ := Str) (ν := List Str) m r with
    | some s => .unlock .dag false (k s)
    | none => .unlock .dag false <| .lock .dag true <| .bfs names .pop [r] [] [] fun s =>
        .upd .resolved (fun m => GoMap.set (κ := Str) (ν := List Str) m r s) <| .unlock .dag true (k s)

/-- The program of a decision. -/
def judgeK : List Act → Prog
  | [] => .done none
  | .peek x :: acts => if x.peekable then .read x fun _ => judgeK acts else judgeK acts
  | .resolve names r :: acts => resolveK names r fun _ => judgeK acts
  | .getTenant :: acts => .lock .auth true <| .read .tenants fun _ => .unlock .auth true (judgeK acts)

/-- The index after one assignment is added (v2/v2.go:107-110). -/
def addIndex (i : Nat) (u : PR) (m : GoMap Str (GoMap Str (List Nat))) : GoMap Str (GoMap Str (List Nat)) :=
  let t := (m.get u.principal).getD []
  m.set u.principal (t.set u.tenant ((t.get u.tenant).getD [] ++ [i]))

/-- Read the assignments one by one. -/
def readPRs : List (Option Nat) → (List (Option Nat × PR) → Prog) → Prog
  | [], k => k []
  | none :: l, k => readPRs l fun us => k ((none, {}) :: us)
  | some i :: l, k => .read (.assigned i) fun u => readPRs l fun us => k ((some i, (u : PR)) :: us)

/-- The new `userRoles` (v2/v2.go:135-148): the kept entries stay where they were, the slice is cut to their number. -/
def keepUsers (target : PR) (us : List (Option Nat × PR)) : List (Option Nat) :=
  (us.map fun iu => if V2.matchesPR target iu.2 then none else iu.1).take
    (us.filter fun iu => !V2.matchesPR target iu.2).length

/-- The assignments in the index, in the order of the loops (v2/v2.go:149-152). -/
def indexed (m : GoMap Str (GoMap Str (List Nat))) : List (Option Nat) := m.flatMap fun e => e.2.flatMap fun f => f.2.map some

/-- The new index (v2/v2.go:149-167), given the removed assignments. -/
def dropIndex (gone : List (Option Nat)) (m : GoMap Str (GoMap Str (List Nat))) : GoMap Str (GoMap Str (List Nat)) :=
  m.filterMap fun e =>
    let t := e.2.filterMap fun f =>
      let is := f.2.filter fun i => !gone.contains (some i)
      if is.isEmpty then none else some (f.1, is)
    if t.isEmpty then none else some (e.1, t)

/-- `AddPrincipalRole` (v2/v2.go:105-111). -/
def addPRs : List Nat → Prog → Prog
  | [], k => k
  | i :: is, k => .upd .userRoles (fun l => (show List (Option Nat) from l) ++ [some i]) <| .read (.assigned i) fun u =>
      .upd .index (addIndex i u) (addPRs is k)

/-- The program of a call. -/
def prog : LCall → Prog
  /- `Role.AddPermission` (v2/role.go:12-18) -/
  | addPermission a ps => locked (.role a) fun k =>
      updAll (.perms a) (fun (p : Perm2) s => addStr s p.string) ps (k none)
  /- `Role.RemovePermission` (v2/role.go:20-26) -/
  | removePermission a ps => locked (.role a) fun k =>
      updAll (.perms a) (fun (p : Perm2) s => List.filter (fun x => decide (x ≠ p.string)) (show List Str from s)) ps (k none)
  /- `Tenant.AddNamespace` (v2/role.go:28-37) -/
  | addNamespace c n isDefault => locked (.tenant c) fun k =>
      .read (.namespaces c) fun m =>
        let tail : Prog := if isDefault then .upd (.defNs c) (fun _ => n) (k none) else k none
        match GoMap.get (κ := Str) (ν := List Str) m n with
        | some _ => tail
        | none => .upd (.namespaces c) (fun m => GoMap.set (κ := Str) (ν := List Str) m n []) tail
  /- `Tenant.AddScopeToNamespace` (v2/role.go:39-51); an error is returned as the empty set -/
  | addScopes c n scs => locked (.tenant c) fun k =>
      .read (.namespaces c) fun m =>
        match GoMap.get (κ := Str) (ν := List Str) m n with
        | none => k (some [])
        | some _ => updAll (.namespaces c) (fun (s : Str) m => GoMap.set (κ := Str) (ν := List Str) m n
            (addStr ((GoMap.get (κ := Str) (ν := List Str) m n).getD []) s)) scs (k none)
  /- `Tenant.AddChildTenant` (v2/role.go:53-59) -/
  | addChildTenant c ds => locked (.tenant c) fun k =>
      ds.foldr (fun d k => .read (.tenantId d) fun id =>
        .upd (.children c) (fun m => GoMap.set (κ := Str) (ν := Nat) m id d) k) (k none)
  /- `RoleDAG.AddRole` (v2/role.go:76-82) with `AddRoles`, `AddRole` (v2/init.go:3-10) -/
  | addRoles as => locked .dag fun k =>
      as.foldr (fun a k => .read (.roleName a) fun n =>
        .upd .roles (fun m => GoMap.set (κ := Str) (ν := Nat) m n a) k) (k none)
  /- `RoleDAG.AddChildRole` (v2/role.go:84-115) with `Authorizer.AddChildRole` (v2/init.go:17-19); an error is
  returned as the empty set -/
  | addChildRole p cs => locked .dag fun k =>
      .dfs cs [p] fun b => if b then k (some []) else
        .upd .edges (fun m => GoMap.set (κ := Str) (ν := List Str) m p
          ((GoMap.get (κ := Str) (ν := List Str) m p).getD [] ++ cs)) (k none)
  | resolve names r => resolveK names r fun s => .done (some s)
  /- `Authorizer.GetRole` (v2/init.go:12-15) -/
  | getRole _ => .read .roles fun _ => .done none
  /- `Authorizer.AddTenant` (v2/init.go:27-35); `AddTenants` is a sequence of these -/
  | addTenant c => locked .auth fun k =>
      .read (.tenantId c) fun id => .upd .tenants (fun m => GoMap.set (κ := Str) (ν := Nat) m id c) <|
        .read (.children c) fun ds => (show GoMap Str Nat from ds).foldr (fun kd k => .read (.tenantId kd.2) fun d =>
          .upd .parents (fun m => GoMap.set (κ := Str) (ν := Nat) m d c) k) (k none)
  /- `Authorizer.GetTenant` (v2/init.go:37-42) -/
  | getTenant _ => locked .auth fun k => .read .tenants fun _ => k none
  /- `Authorizer.SetDefaultTenant` (v2/v2.go:98-100) -/
  | setDefaultTenant id => .upd .defTenant (fun _ => id) (.done none)
  /- `Authorizer.AddPrincipalRole` (v2/v2.go:102-112) -/
  | addPrincipalRole is => locked .auth fun k => addPRs is (k none)
  /- `Authorizer.RemovePrincipalRole` (v2/v2.go:114-169), no lock.  A nil entry of `userRoles` counts as an
  assignment without content (the code may panic); an error is returned as the empty set. -/
  | removePrincipalRole target => .read .userRoles fun l => readPRs l fun us =>
      if us.any fun iu => V2.matchesPR target iu.2 then
        .upd .userRoles (fun _ => keepUsers target us) <|
        .read .index fun m => readPRs (indexed m) fun vs =>
          .upd .index (dropIndex ((vs.filter fun iu => V2.matchesPR target iu.2).map (·.1))) (.done none)
      else .done (some [])
  /- `PrincipalRole.SetExpiry`, `SetExpiryDuration`, `ClearExpiry` (v2/v2.go:31-58), no lock -/
  | setExpiry i e => .upd (.expiry i) (fun _ => e) (.done none)
  | judge acts => judgeK acts

end LCall

/-! ## Running -/

/-- A goroutine: the call it is in (`waiting`: in `Lock`, announced, waiting for the readers to leave), the calls it has
still to make, the results of the finished ones, and the locks it holds. -/
structure Thread where
  cur : Option (LCall × Prog) := none
  waiting : Bool := false
  todo : List LCall := []
  out : List (LCall × Option (List Str)) := []
  held : List (Lock × Bool) := []

/-- Shared memory and goroutines. -/
structure Conf where
  mem : V2
  threads : List Thread

namespace Conf

/-- Some goroutine has write-locked `l`, or has announced that it will (`sync.RWMutex` blocks new readers then). -/
def claimed (c : Conf) (l : Lock) : Bool := c.threads.any fun t =>
  t.held.contains (l, true) || match t.cur with
    | some (_, .lock l' true _) => t.waiting && l' == l
    | _ => false

/-- Some goroutine holds the read lock of `l`. -/
def hasReader (c : Conf) (l : Lock) : Bool := c.threads.any fun t => t.held.contains (l, false)

/-- The next state of a program and of its goroutine: memory, waiting?, locks held, program.  `none`: it has to wait
(or unlocks what it does not hold, which stops a Go program). -/
def stepProg (c : Conf) (waiting : Bool) (held : List (Lock × Bool)) : Prog → Option (V2 × Bool × List (Lock × Bool) × Prog)
  | .done _ => none
  | .lock l true k =>
    if waiting then (if c.hasReader l then none else some (c.mem, false, (l, true) :: held, k))
    else if c.claimed l then none else some (c.mem, true, held, .lock l true k)
  | .lock l false k => if c.claimed l then none else some (c.mem, false, (l, false) :: held, k)
  | .unlock l w k => if held.contains (l, w) then some (c.mem, false, held.erase (l, w), k) else none
  | .read x k => some (c.mem, false, held, k (x.get c.mem))
  | .upd x f k => some (x.put c.mem f, false, held, k)
  | .bfs _ .pop [] _ res k => some (c.mem, false, held, k res)
  | .bfs names .pop (x :: q) V res k =>
    if x ∈ V then some (c.mem, false, held, .bfs names .pop q V res k)
    else match c.mem.dag.roles.get x with
      | none => some (c.mem, false, held, .bfs names .pop q (V ++ [x]) res k)
      | some a => some (c.mem, false, held, .bfs names (.emit x a) q (V ++ [x]) res k)
  | .bfs names (.emit x a) q V res k =>
    let r := c.mem.roleAt a
    some (c.mem, false, held, .bfs names (.push x) q V ((if names then [r.name] else r.perms).foldl addStr res) k)
  | .bfs names (.push x) q V res k => some (c.mem, false, held, .bfs names .pop (q ++ c.mem.dag.children x) V res k)
  | .dfs [] _ k => some (c.mem, false, held, k false)
  | .dfs (x :: q) V k =>
    if x ∈ V then some (c.mem, false, held, k true)
    else some (c.mem, false, held, .dfs (c.mem.dag.children x ++ q) (V ++ [x]) k)

/-- One step of goroutine `i`; `none` if it cannot move. -/
def step (c : Conf) (i : Nat) : Option Conf :=
  match c.threads[i]? with
  | none => none
  | some t =>
    match t.cur with
    | none =>
      match t.todo with
      | [] => none
      | call :: rest => some { c with threads := c.threads.set i { t with cur := some (call, call.prog), waiting := false, todo := rest } }
    | some (call, .done r) => some { c with threads := c.threads.set i { t with cur := none, out := t.out ++ [(call, r)] } }
    | some (call, p) => (c.stepProg t.waiting t.held p).map fun s =>
        { mem := s.1, threads := c.threads.set i { t with cur := some (call, s.2.2.2), waiting := s.2.1, held := s.2.2.1 } }

/-- A schedule: the goroutines that move, in order. -/
def run : Conf → List Nat → Option Conf
  | c, [] => some c
  | c, i :: is => (c.step i).bind fun c' => c'.run is

/-- Goroutines about to make the given calls. -/
def start (w : V2) (calls : List (List LCall)) : Conf := { mem := w, threads := calls.map fun cs => { todo := cs } }

end Conf
end Verif
