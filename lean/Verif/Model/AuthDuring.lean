import Verif.Lemmas.ManagerOps

/-!
# `Authorize` of the root package while other goroutines change things

`Authorize` (authorize.go:9-44) and everything it calls, as a program whose steps are the single accesses to a
registry, a trie node, a tenant, a role, an attribute group or one of the two caches.  Between any two steps other
goroutines may take steps: other calls of `Authorize`, and calls that register, link, extend or add rows.

Simplifications: `Get`, `Set`, `ForEach` and `Values` of a map act in one moment; inserting a row is one step
(insertions that are interrupted are the subject of C86-C88); a panic in one goroutine ends the program; one bound for
all recursions, which also bounds the depth of the walk through the trie.
-/

namespace Verif

/-- The node at the end of a path (trie/trie.go:23-41). -/
def Node.walk {T : Type} : List Val → Node T → Option (Node T)
  | [], n => some n
  | k :: ks, .mk _ ch =>
    match ch.get k with
    | none => none
    | some n => n.walk ks

/-- `node.isEnd`, `node.data` (trie/trie.go:15-16). -/
def Node.row {T : Type} : Node T → Option T
  | .mk d _ => d

/-- The keys of a `child` map. -/
def Forest.names {T : Type} : Forest T → List Val
  | .nil => []
  | .cons k _ rest => k :: rest.names

/-- The keys of `node.child` (trie/trie.go:14). -/
def Node.names {T : Type} : Node T → List Val
  | .mk _ ch => ch.names

namespace AD

/-- A program: it returns, panics, recurses for ever, or accesses what the goroutines share, in one step, and goes on
depending on what was there. -/
inductive Prog (α : Type) where
  | ret (a : α)
  | panic
  | diverge
  | step (f : Mgr → Mgr) (k : Mgr → Prog α)

/-- One program after another. -/
def Prog.bind {α β : Type} (k : α → Prog β) : Prog α → Prog β
  | .ret a => k a
  | .panic => .panic
  | .diverge => .diverge
  | .step f n => .step f fun w => (n w).bind k

/-- The program run without interruption. -/
def Prog.exec {α : Type} : Prog α → Mgr → Out (α × Mgr)
  | .ret a, w => .ok (a, w)
  | .panic, _ => .panic
  | .diverge, _ => .diverge
  | .step f k, w => (k w).exec (f w)

/-- Read something. -/
def rd {α β : Type} (f : Mgr → α) (k : α → Prog β) : Prog β := .step (fun w => w) fun w => k (f w)

/-- Write something. -/
def wr {β : Type} (f : Mgr → Mgr) (k : Prog β) : Prog β := .step f fun _ => k

/-- What needs no access. -/
def local_ {α β : Type} (x : Out α) (k : α → Prog β) : Prog β :=
  match x with
  | .ok a => k a
  | .panic => .panic
  | .diverge => .diverge

/-- `Out.collectI` with programs. -/
def collectP {α β : Type} (f : Nat → α → Prog (List β)) : Nat → List α → Prog (List β)
  | _, [] => .ret []
  | i, x :: xs => (f i x).bind fun ys => (collectP f (i + 1) xs).bind fun zs => .ret (ys ++ zs)

/-- `Out.anyI` with programs. -/
def anyP {α : Type} (f : Nat → α → Prog Bool) : Nat → List α → Prog Bool
  | _, [] => .ret false
  | i, x :: xs => (f i x).bind fun b => if b then .ret true else anyP f (i + 1) xs

/-- A loop that extends `res`. -/
def loopP {α β : Type} (f : α → β → Prog β) : List α → β → Prog β
  | [], res => .ret res
  | x :: xs, res => (f x res).bind (loopP f xs)

/-! ## Searches -/

/-- The closure `dfs` of `search` (trie/trie.go:111-130) on the node at `path`; `stop` is false in all the searches of
the manager. `node.data` is one access, `node.child.Values()` another. -/
def visitP (o : Ord) (pre : List Val) (cb : Data → Bool) : Nat → List Val → List Data → Prog (List Data)
  | 0, _, _ => .diverge
  | n + 1, path, res =>
    rd (fun w => (w.trie.root.walk path).bind Node.row) fun d =>
    let res' := match d with
      | some x => if cb x then res ++ [x] else res
      | none => res
    rd (fun w => ((w.trie.root.walk path).map Node.names).getD []) fun ks =>
    loopP (fun k => visitP o pre cb n (path ++ [k])) (o.ord (pre ++ path) _ ks) res'

/-- `u.search` (query.go:18-20; trie/trie.go:102-104, 106-133). -/
def searchP (o : Ord) (fuel : Nat) (site : List Val) (filter : Data) (f : Data → Data → Bool) : Prog (List Data) :=
  visitP o (site ++ [.nil]) (f filter) fuel [] []

/-! ## Roles -/

/-- `Role.GetDescendantRoles` (role.go:94-102). -/
def descRolesP (o : Ord) : Nat → List Val → Nat → Prog (List Nat)
  | 0, _, _ => .diverge
  | n + 1, site, r =>
    rd (fun w => (w.heap.roles[r]?).map (·.desc)) fun d =>
    match d with
    | none => .panic
    | some desc =>
      collectP (fun i (e : Str × Nat) =>
        (descRolesP o n (site ++ [.int i]) e.2).bind fun ds => .ret (e.2 :: ds)) 0 (o.ord site _ desc)

/-- `Role.Has` (role.go:57-92). -/
def hasP (o : Ord) (group name : Str) (allowed : List Str) : Nat → List Val → Nat → Prog Bool
  | 0, _, _ => .diverge
  | n + 1, site, r =>
    rd (fun w => (w.heap.roles[r]?).map (·.perms.get group)) fun x =>                 -- lines 58-61
    match x with
    | none => .panic
    | some none => .ret false
    | some (some ga) =>
      rd (fun w => (w.heap.groups[ga]?).map fun g => (g.perms.get name).isSome) fun y =>  -- lines 62-64
      match y with
      | none => .panic
      | some true => .ret true
      | some false =>
        rd (fun w => (w.heap.groups[ga]?).map (·.perms)) fun z =>                     -- lines 65-75
        match z with
        | none => .panic
        | some perms =>
          local_ (Out.anyI (fun _ (e : Str × Attr) => matchResource name e.1) 0 (o.ord (site ++ [.int 0]) _ perms)) fun matched =>
          if matched then .ret true
          else                                                                        -- lines 76-91
            (descRolesP o n (site ++ [.int 1]) r).bind fun ds =>
            anyP (fun i d =>
              rd (fun w => (w.heap.roles[d]?).map (·.id)) fun x =>
              match x with
              | none => .panic
              | some id =>
                if 0 < allowed.length then
                  if id ∈ allowed then hasP o group name allowed n (site ++ [.int 2, .int i]) d
                  else .ret false
                else hasP o group name allowed n (site ++ [.int 2, .int i]) d) 0 ds

/-! ## Tenants of the principal -/

/-- `Tenant.GetDescendants` (tenant.go:31-38). -/
def descendantsP (o : Ord) : Nat → List Val → Nat → Prog (List Str)
  | 0, _, _ => .diverge
  | n + 1, site, c =>
    rd (fun w => (w.tobjs[c]?).map (·.desc)) fun d =>
    match d with
    | none => .panic
    | some desc =>
      collectP (fun i (e : Str × Nat) =>
        (descendantsP o n (site ++ [.int i]) e.2).bind fun ds => .ret (e.1 :: ds)) 0 (o.ord site _ desc)

/-- `TenantChildren` (role_manager.go:124-135). -/
def tenantChildrenP (o : Ord) (fuel : Nat) (site : List Val) (id : Str) : Prog (List Val) :=
  rd (fun w => w.hierarchy.get id) fun h =>
  match h with
  | some hier => .ret hier
  | none =>
    rd (fun w => w.tenants.get id) fun t =>
    match t with
    | none => .ret []
    | some c =>
      (descendantsP o fuel site c).bind fun ds =>
      wr (fun w => { w with hierarchy := w.hierarchy.set id (compact (ds.map Val.str)) }) (.ret (ds.map Val.str))

/-- The outer loop of `GetImplicitTenants` (query.go:46-59). -/
def implicitLoopP (o : Ord) (fuel : Nat) (site : List Val) : Nat → List Data → List Str → Prog (List Str)
  | _, [], E => .ret E
  | i, rs :: rest, E =>
    match rs.tenant with
    | .str t =>
      if t ∈ E then implicitLoopP o fuel site (i + 1) rest E
      else if rs.manage = .bool true then
        (tenantChildrenP o fuel (site ++ [.int i]) t).bind fun x =>
        local_ (Mgr.addDescs (E ++ [t]) x) fun E' => implicitLoopP o fuel site (i + 1) rest E'
      else implicitLoopP o fuel site (i + 1) rest (E ++ [t])
    | _ => .panic

/-- `GetImplicitTenants` (query.go:39-62). -/
def implicitTenantsP (o : Ord) (fuel : Nat) (site : List Val) (p : Str) : Prog (List Str) :=
  rd (fun w => w.pcache.get p) fun x =>
  match x with
  | some I => .ret I
  | none =>
    (searchP o fuel (site ++ [.int 0]) { principal := .str p } filterTenantsByPrincipal).bind fun rows =>
    (implicitLoopP o fuel (site ++ [.int 1]) 0 rows []).bind fun E =>
    wr (fun w => { w with pcache := w.pcache.set p E }) (.ret E)

/-! ## The decision -/

/-- One registry check of `validateResources` (authorize.go:54-58, 59-63, 64-68). -/
def validOneP (m : Mgr → GoMap Str Nat) (v : Val) : Prog Bool :=
  match v with
  | .nil => .ret true
  | .str s => rd (fun w => ((m w).get s).isSome) .ret
  | _ => .panic

/-- `validateResources` (authorize.go:53-70). -/
def validateP (r : Request) : Prog Bool :=
  (validOneP (·.tenants) r.tenant).bind fun a =>
  if a then
    (validOneP (·.namespaces) r.namespace_).bind fun b =>
    if b then validOneP (·.scopes) r.scope else .ret false
  else .ret false

/-- `Mgr.concatI` with programs: the loop of `GetScopeForPrincipalByNamespace` (query.go:110-117). -/
def concatP {α : Type} (f : Nat → α → Prog (List Data)) : Nat → List α → Prog (List Data)
  | _, [] => .ret []
  | i, x :: xs => (f i x).bind fun a => (concatP f (i + 1) xs).bind fun b => .ret (a ++ b)

/-- `GetTenantsByPrincipal` (query.go:22-24). -/
def tenantsByPrincipalP (o : Ord) (fuel : Nat) (site : List Val) (p : Val) : Prog (List Val) :=
  (searchP o fuel site { principal := p } filterTenantsByPrincipal).bind fun rows => .ret (compact (rows.map (·.tenant)))

/-- `checkNoActivity` (authorize.go:72-89) with the searches it makes (query.go:22-24, 105-108, 110-117, 119-121, 139-141). -/
def checkNoActivityP (o : Ord) (fuel : Nat) (site : List Val) (p : Str) (r : Request) (f : Flags) : Prog Bool :=
  if f.t then
    (tenantsByPrincipalP o fuel site (.str p)).bind fun ts => .ret (contains r.tenant ts)
  else if f.tn then
    (searchP o fuel site { tenant := r.tenant, principal := .str p } filterNamespaceForPrincipalByTenant).bind fun rows =>
    .ret (contains r.namespace_ (getIDs (·.namespace_) [] [] rows))
  else if f.ts then
    (searchP o fuel site { tenant := r.tenant, principal := .str p } filterScopeForPrincipalByTenant).bind fun rows =>
    .ret (contains r.scope (getIDs (·.scope) [] [] rows))
  else if f.ns then
    (tenantsByPrincipalP o fuel (site ++ [.int 0]) (.str p)).bind fun ts =>
    (concatP (fun i t => searchP o fuel (site ++ [.int 1, .int i]) { principal := .str p, tenant := t, namespace_ := r.namespace_ }
      filterScopeForPrincipalByTenantAndNamespace) 0 ts).bind fun rows =>
    .ret (contains r.scope (getIDs (·.scope) [] [] rows))
  else if f.tns then
    (searchP o fuel site { principal := .str p, tenant := r.tenant, namespace_ := r.namespace_ }
      filterScopeForPrincipalByTenantAndNamespace).bind fun rows =>
    .ret (contains r.scope (getIDs (·.scope) [] [] rows))
  else .ret false

/-- `GetRolesByTenant` (query.go:77-80). -/
def rolesByTenantP (o : Ord) (fuel : Nat) (site : List Val) (t : Val) : Prog (List Data) :=
  searchP o fuel site { tenant := t } filterRoleByTenant

/-- `collectRoles` (authorize.go:130-140). -/
def collectRolesP (o : Ord) (fuel : Nat) (site : List Val) (p : Str) (t : Val) : Prog (List Str × List Str) :=
  (rolesByTenantP o fuel (site ++ [.int 0]) t).bind fun rows =>
  local_ (Mgr.appendRoles (fun d => d.principal = .str p) rows) fun roles =>
  local_ (Mgr.appendRoles (fun _ => true) rows) fun allowed => .ret (roles, allowed)

/-- The body shared by `collectRolesByTenantAndNamespace`, `collectRolesByTenantAndScope` and
`collectRolesByTenantNamespaceAndScope` (authorize.go:142-156, 158-172, 192-206): `filter` and `f` are the search for the rows of the
principal (query.go:123-133), `keep` the condition on its rows. -/
def collectWithP (o : Ord) (fuel : Nat) (site : List Val) (t : Val) (filter : Data) (f : Data → Data → Bool) (keep : Data → Bool) :
    Prog (List Str × List Str) :=
  (rolesByTenantP o fuel (site ++ [.int 0]) t).bind fun rows =>
  local_ (Mgr.appendRoles (fun _ => true) rows) fun allowed =>
  (searchP o fuel (site ++ [.int 1]) filter f).bind fun rows =>
  local_ (Mgr.appendRoles keep rows) fun roles => .ret (roles, allowed)

/-- `collectRolesByTenantAndNamespace` (authorize.go:142-156). -/
def collectRolesTNP (o : Ord) (fuel : Nat) (site : List Val) (p : Str) (t n : Val) : Prog (List Str × List Str) :=
  collectWithP o fuel site t { principal := .str p, tenant := t, namespace_ := n } filterRoleForPrincipalByTenantAndNamespace
    fun d => d.namespace_ = .nil || d.namespace_ = n

/-- `collectRolesByTenantAndScope` (authorize.go:158-172). -/
def collectRolesTSP (o : Ord) (fuel : Nat) (site : List Val) (p : Str) (t s : Val) : Prog (List Str × List Str) :=
  collectWithP o fuel site t { principal := .str p, tenant := t, scope := s } filterRoleForPrincipalByTenantAndScope
    fun d => d.scope = .nil || d.scope = s

/-- `collectRolesByTenantNamespaceAndScope` (authorize.go:192-206). -/
def collectRolesTNSP (o : Ord) (fuel : Nat) (site : List Val) (p : Str) (t n s : Val) : Prog (List Str × List Str) :=
  collectWithP o fuel site t { principal := .str p, tenant := t, namespace_ := n, scope := s }
    filterRoleForPrincipalByTenantNamespaceAndScope
    fun d => (d.namespace_ = .nil || d.namespace_ = n) && (d.scope = .nil || d.scope = s)

/-- The loop of `collectRolesByNamespaceAndScope` (authorize.go:175-189). -/
def collectRolesNSLoopP (o : Ord) (fuel : Nat) (site : List Val) (p : Str) (n s : Val) :
    Nat → List Data → Prog (List Str × List Str)
  | _, [] => .ret ([], [])
  | i, t :: ts =>
    (collectRolesTNSP o fuel (site ++ [.int i]) p t.tenant n s).bind fun x =>
    (collectRolesNSLoopP o fuel site p n s (i + 1) ts).bind fun y => .ret (x.1 ++ y.1, x.2 ++ y.2)

/-- `collectRolesByNamespaceAndScope` (authorize.go:174-190; query.go:26-29). -/
def collectRolesNSP (o : Ord) (fuel : Nat) (site : List Val) (p : Str) (n s : Val) : Prog (List Str × List Str) :=
  (searchP o fuel (site ++ [.int 0]) { principal := .str p } filterTenantsByPrincipal).bind fun ts =>
  collectRolesNSLoopP o fuel (site ++ [.int 1]) p n s 0 ts

/-- The final loop of `checkActivity` (authorize.go:122-127). -/
def roleLoopP (o : Ord) (fuel : Nat) (site : List Val) (r : Request) : Nat → List Str → List Str → Prog Bool
  | _, _, [] => .ret false
  | i, allowed, role :: rest =>
    rd (fun w => w.roles.get role) fun x =>
    match x with
    | none => roleLoopP o fuel site r (i + 1) allowed rest
    | some a =>
      match r.group, r.activity with
      | .str g, .str act =>
        (hasP o g act (slicesCompact allowed) fuel (site ++ [.int i]) a).bind fun b =>
        if b then .ret true else roleLoopP o fuel site r (i + 1) (slicesCompactRest allowed) rest
      | _, _ => .panic

/-- The chain of `if`s (authorize.go:102-116). -/
def pickP (b : Bool) (x : Prog (List Str × List Str)) (old : List Str × List Str) : Prog (List Str × List Str) :=
  if b then x else .ret old

/-- `checkActivity` (authorize.go:91-128). -/
def checkActivityP (o : Ord) (fuel : Nat) (site : List Val) (p : Str) (r : Request) (f : Flags) : Prog Bool :=
  if r.group = .nil then .ret false
  else if r.activity = .nil then .ret false
  else
    (pickP f.t (collectRolesP o fuel (site ++ [.int 0]) p r.tenant) ([], [])).bind fun x =>
    (pickP f.tn (collectRolesTNP o fuel (site ++ [.int 1]) p r.tenant r.namespace_) x).bind fun x =>
    (pickP f.ts (collectRolesTSP o fuel (site ++ [.int 2]) p r.tenant r.scope) x).bind fun x =>
    (pickP f.ns (collectRolesNSP o fuel (site ++ [.int 3]) p r.namespace_ r.scope) x).bind fun x =>
    (pickP f.tns (collectRolesTNSP o fuel (site ++ [.int 4]) p r.tenant r.namespace_ r.scope) x).bind fun x =>
    if x.1.length = 0 then .ret false
    else roleLoopP o fuel (site ++ [.int 5]) r 0 x.2 (slicesCompact x.1)

/-- `authorize` (authorize.go:46-51). -/
def checkP (o : Ord) (fuel : Nat) (site : List Val) (p : Str) (r : Request) (f : Flags) : Prog Bool :=
  if f.noActivity then checkNoActivityP o fuel site p r f else checkActivityP o fuel site p r f

/-- The fallback loop of `Authorize` (authorize.go:34-42). -/
def fallbackP (o : Ord) (fuel : Nat) (site : List Val) (p : Str) (f : Flags) : Nat → Request → List Str → Prog Bool
  | _, _, [] => .ret false
  | i, r, t :: ts =>
    if r.tenant = .str t && r.tenant ≠ .nil then fallbackP o fuel site p f (i + 1) r ts
    else
      (checkP o fuel (site ++ [.int i]) p { r with tenant := .str t } f).bind fun b =>
      if b then .ret true else fallbackP o fuel site p f (i + 1) { r with tenant := .str t } ts

/-- `Authorize` (authorize.go:9-44). -/
def authorizeP (o : Ord) (fuel : Nat) (site : List Val) (p : Str) (opts : List Opt) : Prog Bool :=
  rd (fun w => (w.principals.get p).isNone) fun x =>
  if x then .ret false
  else
    let r := opts.foldl Opt.apply {}
    (implicitTenantsP o fuel (site ++ [.int 0]) p).bind fun I =>
    if I.length = 0 then .ret false
    else
      (validateP r).bind fun v =>
      if !v then .ret false
      else
        (checkP o fuel (site ++ [.int 1]) p r (flagsOf r)).bind fun b =>
        if b then .ret true
        else fallbackP o fuel (site ++ [.int 2]) p (flagsOf r) 0 r (o.ord (site ++ [.int 3]) _ I)

/-! ## Goroutines -/

/-- The calls: those of `MOp`, and the `Set` of `AddDescendant` (tenant.go:42-44) without the rest of that call, which
is then `AddNamespace` and `SetDefaultNamespace` of the descendant (tenant.go:45-48). A call that adds several rows is one step;
its rows can be given as single `AddData` calls to have it interrupted between them. -/
inductive Call where
  | call (op : MOp)
  | link (c d : Nat)

/-- tenant.go:42-44. -/
def linkOnly (w : Mgr) (c d : Nat) : Out Mgr :=
  match w.tobjs[c]?, w.tobjs[d]? with
  | some ct, some dt =>
    .ok (if (ct.desc.get dt.id).isSome then w
      else { w with tobjs := w.tobjs.set c { ct with desc := ct.desc.set dt.id d } })
  | _, _ => .panic

/-- A call that is one step. -/
def once (f : Mgr → Out Mgr) : Prog (Option Bool) :=
  .step (fun w => match f w with | .ok w' => w' | _ => w) fun w =>
    match f w with
    | .ok _ => .ret none
    | .panic => .panic
    | .diverge => .diverge

/-- The steps of a call.  `Authorize`, `GetImplicitTenants` and `TenantChildren` are made of many steps, every other call is one. -/
def Call.prog : Call → Prog (Option Bool)
  | .call (.authorize o fuel site p opts) => (authorizeP o fuel site p opts).bind fun b => .ret (some b)
  | .call (.implicitTenants o fuel site p) => (implicitTenantsP o fuel site p).bind fun _ => .ret none
  | .call (.tenantChildren o fuel site id) => (tenantChildrenP o fuel site id).bind fun _ => .ret none
  | .call op => once fun w => op.apply w
  | .link c d => once fun w => linkOnly w c d

/-- A call that returned: its answer, and what the manager was at the moments from its beginning to its return, the last first. -/
structure Done where
  call : Call
  ans : Option Bool
  seen : List Mgr

/-- A goroutine: the call it is in, with the moments since it began and what is left of it, the calls still to make, and the calls that
returned. `seen` is a ghost; no program reads it. -/
structure Thread where
  cur : Option (Call × List Mgr × Prog (Option Bool)) := none
  todo : List Call
  out : List Done := []

structure Conf where
  w : Mgr
  ts : List Thread

/-- The moment is noted in the call the goroutine is in. -/
def Thread.note (w : Mgr) (t : Thread) : Thread :=
  match t.cur with
  | none => t
  | some (k, seen, q) => { t with cur := some (k, w :: seen, q) }

/-- Goroutine `i` begins a call, takes a step of it, or returns from it.  `none`: the step panics (and with it the program) or does not
return. -/
def Conf.step (c : Conf) (i : Nat) : Option Conf :=
  match c.ts[i]? with
  | none => some c
  | some t =>
    match t.cur with
    | none =>
      match t.todo with
      | [] => some c
      | k :: rest => some { c with ts := c.ts.set i { t with cur := some (k, [c.w], k.prog), todo := rest } }
    | some (k, seen, .ret a) => some { c with ts := c.ts.set i { t with cur := none, out := t.out ++ [⟨k, a, seen⟩] } }
    | some (_, _, .panic) => none
    | some (_, _, .diverge) => none
    | some (k, seen, .step f n) =>
      some { w := f c.w, ts := (c.ts.set i { t with cur := some (k, seen, n c.w) }).map (Thread.note (f c.w)) }

/-- The goroutines named take one step each, in this order. -/
def Conf.run (c : Conf) : List Nat → Option Conf
  | [] => some c
  | i :: is => (c.step i).bind fun c' => c'.run is

/-- Goroutines about to make the given calls. -/
def Conf.start (w : Mgr) (calls : List (List Call)) : Conf := { w := w, ts := calls.map fun l => { todo := l } }

/-- The calls that returned. -/
def Conf.done (c : Conf) : List Done := c.ts.flatMap (·.out)

end AD
end Verif
