import Verif.Lemmas.ManagerOps

/-!
# Several managers in one program (/repo/tenant.go, /repo/role_manager.go)

A tenant points to the manager it was last added to (`manager`, tenant.go:18, 144); roles, attribute groups and tenants
are shared objects.  A call on a manager or a tenant runs as in `Model/Manager.lean` on what the manager can
reach; `AddDescendant` may reach the managers of the descendants too (tenant.go:46-47).  All managers are made first
(`Model/ManagersMade.lean` makes them at any time).
-/

namespace Verif
namespace MM

/-- `Tenant` (tenant.go:15-20): `manager` is the number of the manager it points to. -/
structure TObj where
  id : Str
  desc : GoMap Str Nat := []
  defNs : Option Str := none
  manager : Option Nat := none

/-- The objects of a program and its managers. The fields `tobjs` and `heap` of a manager are not used. -/
structure World where
  objs : List TObj := []
  heap : RHeap := {}
  mgrs : List Mgr := []

/-- `n` calls of `New` (role_manager.go:25-38). -/
def World.new (n : Nat) : World := { mgrs := List.replicate n {} }

/-- A tenant as seen by manager `k`. -/
def TObj.seen (k : Nat) (o : TObj) : TenantObj :=
  { id := o.id, desc := o.desc, defNs := o.defNs, managed := decide (o.manager = some k) }

/-- Manager `k` with the objects of the program. -/
def World.view (W : World) (k : Nat) : Option Mgr :=
  W.mgrs[k]?.map fun m => { m with tobjs := W.objs.map (TObj.seen k), heap := W.heap }

/-- The tenant `o` after manager `k` has made `t` of it. -/
def TObj.back (k : Nat) (o : Option TObj) (t : TenantObj) : TObj :=
  { id := t.id, desc := t.desc, defNs := t.defNs,
    manager := if t.managed then some k else (o.bind TObj.manager).filter fun j => j ≠ k }

/-- The program after manager `k` has become `m`. -/
def World.put (W : World) (k : Nat) (m : Mgr) : World :=
  { objs := m.tobjs.mapIdx fun i t => TObj.back k W.objs[i]? t, heap := m.heap,
    mgrs := W.mgrs.set k { m with tobjs := [], heap := {} } }

/-- A call that reaches one manager only. -/
def World.within (W : World) (k : Nat) (op : MOp) : Out World :=
  match W.view k with
  | none => .panic
  | some m => (op.apply m).map (W.put k)

/-- The tenant whose method is called (tenant.go:26-141). -/
def receiver : MOp → Option Nat
  | .tAddNamespace c _ => some c
  | .tAddScopesToNamespace c _ _ => some c
  | .tSetDefaultNamespace c _ => some c
  | .tAddPrincipalInNamespace c _ _ _ => some c
  | .tAddRole c _ => some c
  | .tAddScope c _ => some c
  | .tAddDescendant c _ => some c
  | .tAddPrincipalWithRole c _ _ _ => some c
  | .tAddPrincipal c _ _ _ => some c
  | .tAddScopeToPrincipal c _ _ _ => some c
  | .tAssignScopes c _ _ _ => some c
  | _ => none

/-- A method of tenant `c` other than `AddDescendant`: it uses `c.manager` (tenant.go:26-141). -/
def World.through (W : World) (c : Nat) (op : MOp) : Out World :=
  match W.objs[c]? with
  | none => .panic
  | some o =>
    match o.manager with
    | none => .panic
    | some k => W.within k op

/-- `Tenant.AddDescendant` (tenant.go:40-51): the row of a descendant goes to the manager of the descendant. -/
def World.addDescendant (W : World) (c : Nat) : List Nat → Out World
  | [] => .ok W
  | d :: ds =>
    match W.objs[c]?, W.objs[d]? with
    | some co, some dob =>
      let W1 :=
        if (co.desc.get dob.id).isSome then W
        else { W with objs := W.objs.set c { co with desc := co.desc.set dob.id d } }
      match co.defNs with
      | none => addDescendant W1 c ds
      | some n =>
        (W1.through d (.tAddNamespace d n)).bind fun W2 =>
        (W2.through d (.tSetDefaultNamespace d n)).bind fun W3 => addDescendant W3 c ds
    | _, _ => .panic

/-- A call: `k` is the manager if it is a method of a manager. Constructors and methods of roles and groups reach no
manager (permission.go:7-44, role.go:17-175), nor do the loops over an empty list (tenant.go:110, 134). -/
def World.call (W : World) (k : Nat) (op : MOp) : Out World :=
  match op with
  | .role op => (op.apply W.heap).map fun h => { W with heap := h }
  | .newTenant id => .ok { W with objs := W.objs ++ [{ id := id }] }
  | .tAddDescendant c ds => W.addDescendant c ds
  | .tAddPrincipal _ _ _ [] => .ok W
  | .tAssignScopes _ _ _ [] => .ok W
  | op =>
    match receiver op with
    | some c => W.through c op
    | none => W.within k op

/-- Run a history of calls. -/
def World.run (W : World) : List (Nat × MOp) → Out World
  | [] => .ok W
  | (k, op) :: calls => (W.call k op).bind fun W' => W'.run calls

end MM
end Verif
