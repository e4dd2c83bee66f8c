import Verif.Model.Role

/-!
# Goroutines changing roles: /repo/role.go (and /repo/v1/role.go), called concurrently

`permissions` and `descendants` of a role and `permissions` of a group are concurrent maps, so one
`Get` or `Set` is one step here.  Nothing else is synchronised: `lock` is a plain field, read once at
the beginning of a call, and every mutator is a `Get` followed by a `Set`.  A goroutine may be
interrupted between any two of these accesses.  Objects are those of `Model/Role.lean`.

Simplifications: a read or write of `lock` is one step and takes effect at once (in Go it is a data
race); a call on an address without object (a nil pointer) never gets beyond its first use.
-/

namespace Verif
namespace GC

/-- A call of one of the mutators.
`grant`: `Role.AddPermission` (role.go:118-137, v1/role.go:117-136), by itself or at the end of
`AddPermissionsToRole` (role.go:209).
`addGroup`: `Role.AddPermissionResourceGroup` (role.go:139-147).
`descend`: `Role.AddDescendant` (role.go:105-115).
`setLock`: `Role.Lock` and `Role.Unlock` (role.go:45-47, 53-55).
`fill`: `AttributeGroup.AddAttributes` (role.go:31-35). -/
inductive Call where
  | grant (r : Nat) (g : Str) (as : List Attr)
  | addGroup (r ga : Nat)
  | descend (r : Nat) (ds : List Nat)
  | setLock (r : Nat) (b : Bool)
  | fill (ga : Nat) (as : List Attr)
  deriving DecidableEq

/-- Where a goroutine stands in a call: just before the access named. -/
inductive Spot where
  /-- before reading `lock` (role.go:106, 119, 140) -/
  | gate
  /-- before `r.permissions.Get` in `AddPermission` (role.go:122) -/
  | group
  /-- in the loop of `AddPermission` with the attributes `as` left, before `perm.Get` (role.go:131);
  when none is left, before `r.permissions.Set` (role.go:135) -/
  | keep (ga : Nat) (as : List Attr)
  /-- before `perm.Set` (role.go:132) -/
  | attr (ga : Nat) (a : Attr) (as : List Attr)
  /-- before `r.permissions.Get` in `AddPermissionResourceGroup` (role.go:143) -/
  | gget
  /-- before `r.permissions.Set` in `AddPermissionResourceGroup` (role.go:144) -/
  | gset
  /-- in the loop of `AddDescendant`, before `r.descendants.Get` (role.go:110) -/
  | dget (ds : List Nat)
  /-- before `r.descendants.Set` (role.go:111) -/
  | dset (d : Nat) (ds : List Nat)
  /-- before `r.lock = …` (role.go:46, 54) -/
  | write
  /-- in the loop of `AddAttributes`, before `a.permissions.Set` (role.go:33) -/
  | fill (as : List Attr)
  deriving DecidableEq

/-- What a step leads to: elsewhere in the call, or the return with an error or none. -/
inductive Next where
  | at (s : Spot)
  | ret (e : Option Err)
  deriving DecidableEq

/-- The first position in a call. -/
def Call.first : Call → Spot
  | .grant _ _ _ => .gate
  | .addGroup _ _ => .gate
  | .descend _ _ => .gate
  | .setLock _ _ => .write
  | .fill _ as => .fill as

/-- Reading `lock` of role `r` (role.go:106-108, 119-121, 140-142). -/
def gate (h : RHeap) (r : Nat) (s : Spot) : Option (RHeap × Next) :=
  match h.roles[r]? with
  | none => none
  | some ro => some (h, if ro.lock then .ret (some .changesNotAllowed) else .at s)

/-- One step inside a call (role.go:31-147). -/
def step1 (h : RHeap) : Call → Spot → Option (RHeap × Next)
  | .grant r _ _, .gate => gate h r .group
  | .grant r g as, .group =>
    match h.roles[r]? with
    | none => none
    | some ro =>
      match ro.perms.get g with
      | some ga => some (h, .at (.keep ga as))
      | none => some ({ h with groups := h.groups ++ [{ id := g }] }, .at (.keep h.groups.length as))
  | .grant _ _ _, .keep ga (a :: as) =>
    match h.groups[ga]? with
    | none => none
    | some G => some (h, .at (if (G.perms.get a.toStr).isSome then .keep ga as else .attr ga a as))
  | .grant _ _ _, .attr ga a as =>
    match h.groups[ga]? with
    | none => none
    | some G =>
      some ({ h with groups := h.groups.set ga { G with perms := G.perms.set a.toStr a } }, .at (.keep ga as))
  | .grant r g _, .keep ga [] =>
    match h.roles[r]? with
    | none => none
    | some ro => some ({ h with roles := h.roles.set r { ro with perms := ro.perms.set g ga } }, .ret none)
  | .addGroup r _, .gate => gate h r .gget
  | .addGroup r ga, .gget =>
    match h.roles[r]?, h.groups[ga]? with
    | some ro, some G => some (h, if (ro.perms.get G.id).isSome then .ret none else .at .gset)
    | _, _ => none
  | .addGroup r ga, .gset =>
    match h.roles[r]?, h.groups[ga]? with
    | some ro, some G =>
      some ({ h with roles := h.roles.set r { ro with perms := ro.perms.set G.id ga } }, .ret none)
    | _, _ => none
  | .descend r ds, .gate => gate h r (.dget ds)
  | .descend _ _, .dget [] => some (h, .ret none)
  | .descend r _, .dget (d :: ds) =>
    match h.roles[d]?, h.roles[r]? with
    | some dro, some ro => some (h, .at (if (ro.desc.get dro.id).isSome then .dget ds else .dset d ds))
    | _, _ => none
  | .descend r _, .dset d ds =>
    match h.roles[d]?, h.roles[r]? with
    | some dro, some ro =>
      some ({ h with roles := h.roles.set r { ro with desc := ro.desc.set dro.id d } }, .at (.dget ds))
    | _, _ => none
  | .setLock r b, .write =>
    match h.roles[r]? with
    | none => none
    | some ro => some ({ h with roles := h.roles.set r { ro with lock := b } }, .ret none)
  | .fill _ _, .fill [] => some (h, .ret none)
  | .fill ga _, .fill (a :: as) =>
    match h.groups[ga]? with
    | none => none
    | some G =>
      some ({ h with groups := h.groups.set ga { G with perms := G.perms.set a.toStr a } }, .at (.fill as))
  | _, _ => none

/-- A goroutine: the call it is in, the calls it has still to make, and the calls that returned with
their errors. -/
structure Thread where
  cur : Option (Call × Spot) := none
  todo : List Call
  out : List (Call × Option Err) := []
  deriving DecidableEq

/-- The objects and the goroutines using them. -/
structure Conf where
  heap : RHeap
  ts : List Thread
  deriving DecidableEq

/-- Goroutine `i` takes one step: it begins its next call, or makes the next access of its call. -/
def Conf.step (c : Conf) (i : Nat) : Option Conf :=
  match c.ts[i]? with
  | none => none
  | some t =>
    match t.cur with
    | none =>
      match t.todo with
      | [] => none
      | call :: rest => some { c with ts := c.ts.set i { t with cur := some (call, call.first), todo := rest } }
    | some (call, s) =>
      match step1 c.heap call s with
      | none => none
      | some (h, .at s') => some { heap := h, ts := c.ts.set i { t with cur := some (call, s') } }
      | some (h, .ret e) =>
        some { heap := h, ts := c.ts.set i { t with cur := none, out := t.out ++ [(call, e)] } }

/-- The goroutines named take one step each, in this order. -/
def Conf.run (c : Conf) : List Nat → Option Conf
  | [] => some c
  | i :: is => (c.step i).bind fun c' => c'.run is

/-- Goroutines about to make the given calls. -/
def Conf.start (h : RHeap) (calls : List (List Call)) : Conf :=
  { heap := h, ts := calls.map fun l => { todo := l } }

end GC
end Verif
