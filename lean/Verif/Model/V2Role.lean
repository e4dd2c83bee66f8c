import Verif.Base

/-!
# Model of the role graph of /repo/v2 (entities.go, role.go)

Roles are mutable objects reached through pointers: they live in a heap and a pointer is an index.
`map[string]struct{}` values are sets of strings, kept as duplicate-free lists.  Loops that only insert into
such a set are run in storage order: the resulting set does not depend on the order, and every later
iteration over it goes through an oracle.  Nil pointers passed by a caller (all panic) are not modelled,
nor are writes by a caller to the exported fields of a role or to a map returned by `ResolvePermissions`.
The locks are not modelled here: every call runs alone.
-/

namespace Verif

/-- `s[x] = struct{}{}`. -/
def addStr (s : List Str) (x : Str) : List Str := if x ∈ s then s else s ++ [x]

/-- `Permission` (v2/entities.go:7-11).  `Category` is never read. -/
structure Perm2 where
  resource : Str
  action : Str
  category : Str := []
  deriving DecidableEq, Repr

/-- `NewPermission` (v2/entities.go:13-15). -/
def Perm2.new (category resource method : Str) : Perm2 := { category := category, resource := resource, action := method }

/-- `Permission.String` (v2/role.go:8-10). -/
def Perm2.string (p : Perm2) : Str := p.resource ++ [32] ++ p.action

/-- `Role` (v2/entities.go:17-21). -/
structure R2 where
  name : Str
  perms : List Str := []
  deriving DecidableEq, Repr

/-- `RoleDAG` (v2/role.go:61-66) with the role objects it can reach. -/
structure Dag where
  objs : List R2 := []
  roles : GoMap Str Nat := []
  edges : GoMap Str (List Str) := []
  resolved : GoMap Str (List Str) := []
  deriving DecidableEq, Repr

namespace Dag

/-- `NewRole` (v2/entities.go:23-25). -/
def newRole (d : Dag) (name : Str) : Dag := { d with objs := d.objs ++ [{ name := name }] }

/-- `Role.AddPermission` (v2/role.go:12-18). -/
def addPermission (d : Dag) (a : Nat) (ps : List Perm2) : Out Dag :=
  match d.objs[a]? with
  | none => .panic
  | some r => .ok { d with objs := d.objs.set a { r with perms := (ps.map Perm2.string).foldl addStr r.perms } }

/-- `Role.RemovePermission` (v2/role.go:20-26). -/
def removePermission (d : Dag) (a : Nat) (ps : List Perm2) : Out Dag :=
  match d.objs[a]? with
  | none => .panic
  | some r =>
    let perms := (ps.map Perm2.string).foldl (fun s x => s.filter (· ≠ x)) r.perms
    .ok { d with objs := d.objs.set a { r with perms := perms } }

/-- `RoleDAG.AddRole` (v2/role.go:76-82). -/
def addRole (d : Dag) (as : List Nat) : Out Dag :=
  Out.loop (fun d a =>
    match d.objs[a]? with
    | none => .panic
    | some r => .ok { d with roles := d.roles.set r.name a }) d as

/-- `dag.edges[r]` (nil when absent). -/
def children (d : Dag) (r : Str) : List Str := (d.edges.get r).getD []

/-- `for _, child := range ... { if dfs(child) { return true } }; return false` (v2/role.go:102-107 and
109-113), threading the visited set. -/
def dfsLoop (f : Str → List Str → Out (Bool × List Str)) : List Str → List Str → Out (Bool × List Str)
  | [], V => .ok (false, V)
  | c :: cs, V => (f c V).bind fun r => if r.1 then .ok (true, r.2) else dfsLoop f cs r.2

/-- `dfs` (v2/role.go:97-108).  The first argument is the stack depth available. -/
def dfs (d : Dag) : Nat → Str → List Str → Out (Bool × List Str)
  | 0, _, _ => .diverge
  | n + 1, r, V => if r ∈ V then .ok (true, V) else dfsLoop (d.dfs n) (d.children r) (V ++ [r])

/-- `checkCircularDependency` (v2/role.go:94-115): `true` is an error. -/
def checkCircular (d : Dag) (fuel : Nat) (parent : Str) (cs : List Str) : Out Bool :=
  (dfsLoop (d.dfs fuel) cs [parent]).map (·.1)

/-- `RoleDAG.AddChildRole` (v2/role.go:84-92): error?, new graph. -/
def addChildRole (d : Dag) (fuel : Nat) (parent : Str) (cs : List Str) : Out (Bool × Dag) :=
  (d.checkCircular fuel parent cs).map fun e =>
    if e then (true, d) else (false, { d with edges := d.edges.set parent (d.children parent ++ cs) })

/-- The loop of `ResolvePermissions` and `ResolveChildRoles` (v2/role.go:130-145, 163-176): queue, visited set,
result.  `emit` is what a role contributes.  The first argument bounds the iterations. -/
def bfs (d : Dag) (emit : R2 → List Str) : Nat → List Str → List Str → List Str → Out (List Str)
  | _, [], _, res => .ok res
  | 0, _ :: _, _, _ => .diverge
  | n + 1, c :: q, V, res =>
    if c ∈ V then d.bfs emit n q V res
    else
      match d.roles.get c with
      | none => d.bfs emit n q (V ++ [c]) res
      | some a =>
        match d.objs[a]? with
        | none => .panic
        | some r => d.bfs emit n (q ++ d.children c) (V ++ [c]) ((emit r).foldl addStr res)

/-- `ResolvePermissions` and `ResolveChildRoles` (v2/role.go:118-148, 151-179): a cached set, whichever of the
two calls cached it, or a new one. -/
def resolve (d : Dag) (emit : R2 → List Str) (fuel : Nat) (r : Str) : Out (List Str × Dag) :=
  match d.resolved.get r with
  | some s => .ok (s, d)
  | none => (d.bfs emit fuel [r] [] []).map fun s => (s, { d with resolved := d.resolved.set r s })

/-- `RoleDAG.ResolvePermissions` (v2/role.go:118-148). -/
def resolvePermissions (d : Dag) : Nat → Str → Out (List Str × Dag) := d.resolve (·.perms)

/-- `RoleDAG.ResolveChildRoles` (v2/role.go:151-179). -/
def resolveChildRoles (d : Dag) : Nat → Str → Out (List Str × Dag) := d.resolve fun r => [r.name]

end Dag
end Verif
