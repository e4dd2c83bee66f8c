import Verif.Lemmas.V1Ops

/-!
# Several managers of package v1 in one program (/repo/v1/tenant.go, /repo/v1/role_manager.go)

A tenant points to the manager it was last added to (`manager`, v1/tenant.go:13, v1/role_manager.go:156); tenants,
namespaces, roles and attribute groups are shared objects.  A call on a manager, a tenant, a namespace or a role runs as in
`Model/V1.lean` on what it can reach: a manager, that of the tenant, or none.
-/

namespace Verif
namespace VMM

/-- `Tenant` (v1/tenant.go:7-15): `manager` is the number of the manager it points to. -/
structure TObj where
  id : Str
  namespaces : GoMap Str Nat := []
  roles : GoMap Str Nat := []
  scopes : GoMap Str Nat := []
  desc : GoMap Str Nat := []
  defNs : Option Nat := none
  manager : Option Nat := none
  deriving DecidableEq

/-- The objects of a program and its managers. The fields `tobjs`, `nsobjs` and `heap` of a manager are not used. -/
structure World where
  objs : List TObj := []
  nsobjs : List NsObj := []
  heap : RHeap := {}
  mgrs : List V1 := []
  deriving DecidableEq

/-- A tenant as seen by a call that reaches manager `q`. -/
def TObj.seen (q : Option Nat) (o : TObj) : T1Obj :=
  { id := o.id, namespaces := o.namespaces, roles := o.roles, scopes := o.scopes, desc := o.desc, defNs := o.defNs
    managed := q.isSome && decide (o.manager = q) }

/-- Manager `q` with the objects of the program; for `none` the objects alone. -/
def World.view (W : World) (q : Option Nat) : V1 :=
  { (q.bind fun k => W.mgrs[k]?).getD {} with tobjs := W.objs.map (TObj.seen q), nsobjs := W.nsobjs, heap := W.heap }

/-- The tenant `o` after a call that reaches manager `q` has made `t` of it. -/
def TObj.back (q : Option Nat) (o : Option TObj) (t : T1Obj) : TObj :=
  { id := t.id, namespaces := t.namespaces, roles := t.roles, scopes := t.scopes, desc := t.desc, defNs := t.defNs
    manager := if t.managed then q else o.bind TObj.manager }

/-- The program after manager `q` with the objects has become `w`. -/
def World.put (W : World) (q : Option Nat) (w : V1) : World :=
  { objs := w.tobjs.mapIdx fun i t => TObj.back q W.objs[i]? t, nsobjs := w.nsobjs, heap := w.heap
    mgrs := match q with
      | none => W.mgrs
      | some k => W.mgrs.set k { w with tobjs := [], nsobjs := [], heap := {} } }

/-- The tenant whose method is called (v1/tenant.go:31-183). -/
def receiver : V1Op → Option Nat
  | .tAddDescendent c _ | .tSetDefaultNamespace c _ | .tAddNamespace c _ | .tAddRole c _ | .tAddScopes c _
  | .tAddScopesToNamespace c _ _ | .tAddRolesToNamespace c _ _ | .tAddPrincipalRole c .. | .tAddPrincipal c _ _
  | .tAddPrincipalInNamespace _ _ c _ _ _ | .tAssignScopesToPrincipal _ _ c _ _ | .tAssignScopesWithRole _ _ c _ _ _ => some c
  | _ => none

/-- The methods of `RoleManager` (v1/role_manager.go:57-299). The other calls are constructors and methods of roles,
groups and namespaces (v1/permission.go:7-44, v1/role.go, v1/tenant.go:195-205): they reach no manager. -/
def ofManager : V1Op → Bool
  | .addTenant _ | .addNamespace _ | .addScope _ _ | .addPrincipal _ _ | .addRole _ | .addAttribute _ _
  | .addAttributeGroup _ | .addPermissionsToRole _ _ _ | .addPrincipalRole .. => true
  | _ => false

/-- The manager a call reaches: a method of a tenant reaches `c.manager` (v1/tenant.go:108, 134, 146, 167). -/
def World.reached (W : World) (k : Nat) (op : V1Op) : Option Nat :=
  match receiver op with
  | some c => W.objs[c]?.bind TObj.manager
  | none => if ofManager op then some k else none

/-- A call: `k` is the manager if it is a method of a manager; there is none with a number not handed out. -/
def World.call (W : World) (k : Nat) (op : V1Op) : Out World :=
  if ofManager op ∧ W.mgrs.length ≤ k then .panic
  else (op.apply (W.view (W.reached k op))).map (W.put (W.reached k op))

/-- What a program does: `New` (v1/role_manager.go:44-55), or a call. -/
inductive Call where
  | new
  | on (k : Nat) (op : V1Op)

def World.step (W : World) : Call → Out World
  | .new => .ok { W with mgrs := W.mgrs ++ [{}] }
  | .on k op => W.call k op

/-- Run a history. -/
def World.run (W : World) : List Call → Out World
  | [] => .ok W
  | c :: cs => (W.step c).bind fun W' => W'.run cs

/-- `Authorize` of manager `k` (v1/role_manager.go:519-569). -/
def World.authorize (W : World) (k : Nat) (o : Ord) (fuel : Nat) (site : List Val) (p : Str) (opts : List Opt) : Out Bool :=
  (W.view (some k)).authorize o fuel site p opts

end VMM
end Verif
