import Verif.Model.Match

/-!
# Model of /repo/role.go (and /repo/v1/role.go, the same code with `AddDescendent`)

Roles and attribute groups are mutable objects reached through pointers: they live in a heap and
a pointer is an index.  Attributes are never mutated, so they are values.  Nil pointers passed by a
caller (nil role, nil group, nil attribute: all panic) are not modelled.
-/

namespace Verif

/-- `Attribute` (role.go:13-16; v1/role.go:12-15). -/
structure Attr where
  resource : Str
  action : Str
  deriving DecidableEq, Repr

/-- `Attribute.String()` with the default delimiter (role.go:18-24; v1/role.go:17-23). -/
def Attr.toStr (a : Attr) : Str := a.resource ++ str " " ++ a.action

/-- `AttributeGroup` (role.go:26-29; v1/role.go:25-28). -/
structure GroupObj where
  id : Str
  perms : GoMap Str Attr := []
  deriving DecidableEq, Repr

/-- `Role` (role.go:38-43; v1/role.go:37-42); `perms` and `desc` hold heap addresses. -/
structure RoleObj where
  id : Str
  perms : GoMap Str Nat := []
  desc : GoMap Str Nat := []
  lock : Bool := false
  deriving DecidableEq, Repr

/-- All role and attribute group objects. -/
structure RHeap where
  roles : List RoleObj := []
  groups : List GroupObj := []
  deriving DecidableEq, Repr

/-- Errors returned by the modelled calls. -/
inductive Err where
  | changesNotAllowed | noRole | noGroup | notAssociated | noPrincipal | noScope
  deriving DecidableEq, Repr

namespace RHeap

/-- `Role.GetDescendantRoles` (role.go:94-102; v1/role.go:93-101). `fuel` bounds the recursion depth: running out of it
is an unbounded recursion. `site` identifies the execution for the iteration oracle. -/
def descRoles (h : RHeap) (o : Ord) : Nat → List Val → Nat → Out (List Nat)
  | 0, _, _ => .diverge
  | n + 1, site, r =>
    match h.roles[r]? with
    | none => .panic
    | some ro =>
      Out.collectI (fun i (e : Str × Nat) =>
        (descRoles h o n (site ++ [.int i]) e.2).map (fun ds => e.2 :: ds)) 0 (o.ord site _ ro.desc)

/-- `Role.Has` (role.go:57-92; v1/role.go:56-91). -/
def has (h : RHeap) (o : Ord) (group name : Str) (allowed : List Str) :
    Nat → List Val → Nat → Out Bool
  | 0, _, _ => .diverge
  | n + 1, site, r =>
    match h.roles[r]? with
    | none => .panic
    | some ro =>
      match ro.perms.get group with                                      -- lines 58-61
      | none => .ok false
      | some ga =>
        match h.groups[ga]? with
        | none => .panic
        | some g =>
          if (g.perms.get name).isSome then .ok true                     -- lines 62-64
          else                                                           -- lines 65-75
            (Out.anyI (fun _ (e : Str × Attr) => matchResource name e.1) 0
              (o.ord (site ++ [.int 0]) _ g.perms)).bind fun matched =>
            if matched then .ok true
            else                                                         -- lines 76-91
              (descRoles h o n (site ++ [.int 1]) r).bind fun ds =>
              Out.anyI (fun i d =>
                match h.roles[d]? with
                | none => .panic
                | some dr =>
                  if 0 < allowed.length then
                    if dr.id ∈ allowed then has h o group name allowed n (site ++ [.int 2, .int i]) d
                    else .ok false
                  else has h o group name allowed n (site ++ [.int 2, .int i]) d) 0 ds

/-- `Role.AddDescendant` (role.go:105-115; v1/role.go:104-114). The result carries the returned error. -/
def addDescendant (h : RHeap) (r : Nat) (ds : List Nat) : Out (Option Err × RHeap) :=
  match h.roles[r]? with
  | none => .panic
  | some ro =>
    if ro.lock then .ok (some .changesNotAllowed, h)
    else
      let rec loop (h : RHeap) : List Nat → Out RHeap
        | [] => .ok h
        | d :: ds =>
          match h.roles[d]?, h.roles[r]? with
          | some dro, some ro =>
            if (ro.desc.get dro.id).isSome then loop h ds
            else loop { h with roles := h.roles.set r { ro with desc := ro.desc.set dro.id d } } ds
          | _, _ => .panic
      (loop h ds).map (fun h' => (none, h'))

/-- The attribute loop of `AddPermission` (role.go:130-134; v1/role.go:129-133): an existing entry is kept. -/
def addAttrsKeep (m : GoMap Str Attr) : List Attr → GoMap Str Attr
  | [] => m
  | a :: as =>
    if (m.get a.toStr).isSome then addAttrsKeep m as
    else addAttrsKeep (m.set a.toStr a) as

/-- `Role.AddPermission` (role.go:118-137; v1/role.go:117-136). The entry of an existing group is extended in place
(the group object may be shared); otherwise a new group object is allocated. -/
def addPermission (h : RHeap) (r : Nat) (group : Str) (attrs : List Attr) : Out (Option Err × RHeap) :=
  match h.roles[r]? with
  | none => .panic
  | some ro =>
    if ro.lock then .ok (some .changesNotAllowed, h)
    else
      match ro.perms.get group with
      | some ga =>
        match h.groups[ga]? with
        | none => .panic
        | some g =>
          .ok (none, { roles := h.roles.set r { ro with perms := ro.perms.set group ga }
                       groups := h.groups.set ga { g with perms := addAttrsKeep g.perms attrs } })
      | none =>
        .ok (none, { roles := h.roles.set r { ro with perms := ro.perms.set group h.groups.length }
                     groups := h.groups ++ [{ id := group, perms := addAttrsKeep [] attrs }] })

/-- `Role.AddPermissionResourceGroup` (role.go:139-147; v1/role.go:138-146). -/
def addPermissionResourceGroup (h : RHeap) (r ga : Nat) : Out (Option Err × RHeap) :=
  match h.roles[r]?, h.groups[ga]? with
  | some ro, some g =>
    if ro.lock then .ok (some .changesNotAllowed, h)
    else if (ro.perms.get g.id).isSome then .ok (none, h)
    else .ok (none, { h with roles := h.roles.set r { ro with perms := ro.perms.set g.id ga } })
  | _, _ => .panic

/-- `Role.Lock` / `Role.Unlock` (role.go:45-47, 53-55; v1/role.go:44-46, 52-54). -/
def setLock (h : RHeap) (r : Nat) (b : Bool) : Out RHeap :=
  match h.roles[r]? with
  | none => .panic
  | some ro => .ok { h with roles := h.roles.set r { ro with lock := b } }

/-- `AttributeGroup.AddAttributes` (role.go:31-35; v1/role.go:30-34): existing entries are overwritten. -/
def groupAddAttributes (h : RHeap) (ga : Nat) (attrs : List Attr) : Out RHeap :=
  match h.groups[ga]? with
  | none => .panic
  | some g =>
    .ok { h with groups :=
      h.groups.set ga { g with perms := attrs.foldl (fun m a => m.set a.toStr a) g.perms } }

/-- `NewRole` (permission.go:24-30, v1/permission.go:29-35). The address is `roles.length`. -/
def newRole (h : RHeap) (id : Str) : RHeap := { h with roles := h.roles ++ [{ id := id }] }

/-- `NewAttributeGroup` (permission.go:32-37, v1/permission.go:37-42). -/
def newGroup (h : RHeap) (id : Str) : RHeap := { h with groups := h.groups ++ [{ id := id }] }

/-- `Role.GetResourceGroupPermissions` (role.go:149-157; v1/role.go:148-156). -/
def groupPermissions (h : RHeap) (o : Ord) (site : List Val) (r : Nat) (group : Str) : Out (List Attr) :=
  match h.roles[r]? with
  | none => .panic
  | some ro =>
    match ro.perms.get group with
    | none => .ok []
    | some ga =>
      match h.groups[ga]? with
      | none => .panic
      | some g => .ok ((o.ord site _ g.perms).map (·.2))

/-- Append to an entry of a `map[string][]Attribute` (role.go:172; v1/role.go:171). -/
def appendTo (m : GoMap Str (List Attr)) (k : Str) (l : List Attr) : GoMap Str (List Attr) :=
  m.set k ((m.get k).getD [] ++ l)

/-- The `ForEach` over a role's own groups in `GetAllImplicitPermissions` (role.go:166-174; v1/role.go:165-173). -/
def ownImplicit (h : RHeap) (o : Ord) (site : List Val) :
    Nat → List (Str × Nat) → GoMap Str (List Attr) → Out (GoMap Str (List Attr))
  | _, [], acc => .ok acc
  | i, (k, ga) :: rest, acc =>
    match h.groups[ga]? with
    | none => .panic
    | some g =>
      ownImplicit h o site (i + 1) rest
        (appendTo acc k ((o.ord (site ++ [.int 0, .int i]) _ g.perms).map (·.2)))

/-- Thread an accumulator through calls for a list of roles (role.go:175-177; v1/role.go:174-176). -/
def foldRoles (f : Nat → Nat → GoMap Str (List Attr) → Out (GoMap Str (List Attr))) :
    Nat → List Nat → GoMap Str (List Attr) → Out (GoMap Str (List Attr))
  | _, [], acc => .ok acc
  | i, d :: ds, acc => (f i d acc).bind fun acc' => foldRoles f (i + 1) ds acc'

/-- `Role.GetAllImplicitPermissions` (role.go:159-179; v1/role.go:158-178). Every transitive descendant is visited and
itself visits all of its transitive descendants, so entries repeat. -/
def allImplicit (h : RHeap) (o : Ord) : Nat → List Val → Nat → GoMap Str (List Attr) →
    Out (GoMap Str (List Attr))
  | 0, _, _, _ => .diverge
  | n + 1, site, r, acc =>
    match h.roles[r]? with
    | none => .panic
    | some ro =>
      (ownImplicit h o site 0 (o.ord (site ++ [.int 3]) _ ro.perms) acc).bind fun acc =>
      (descRoles h o n (site ++ [.int 1]) r).bind fun ds =>
      foldRoles (fun i d acc => allImplicit h o n (site ++ [.int 2, .int i]) d acc) 0 ds acc

/-- `Role.GetPermissions` (role.go:181-193; v1/role.go:180-192). -/
def getPermissions (h : RHeap) (o : Ord) (site : List Val) (r : Nat) : Out (GoMap Str (List Attr)) :=
  match h.roles[r]? with
  | none => .panic
  | some ro =>
    let rec loop : Nat → List (Str × Nat) → GoMap Str (List Attr) → Out (GoMap Str (List Attr))
      | _, [], acc => .ok acc
      | i, (k, ga) :: rest, acc =>
        match h.groups[ga]? with
        | none => .panic
        | some g => loop (i + 1) rest (acc.set k ((o.ord (site ++ [.int 0, .int i]) _ g.perms).map (·.2)))
    loop 0 (o.ord (site ++ [.int 3]) _ ro.perms) []

/-- The association check of `AddPermissionsToRole` (role.go:204-208, v1/role_manager.go:392-396). -/
def allAssociated (g : GroupObj) : List Attr → Bool
  | [] => true
  | a :: as => if (g.perms.get a.toStr).isSome then allAssociated g as else false

/-- `RoleManager.AddPermissionsToRole` (role.go:195-210, v1/role_manager.go:383-398); `roles` and `groups` are the registries. -/
def addPermissionsToRole (h : RHeap) (roles groups : GoMap Str Nat) (roleID groupID : Str)
    (attrs : List Attr) : Out (Option Err × RHeap) :=
  match roles.get roleID with
  | none => .ok (some .noRole, h)
  | some r =>
    match groups.get groupID with
    | none => .ok (some .noGroup, h)
    | some ga =>
      match h.groups[ga]? with
      | none => .panic
      | some g =>
        if allAssociated g attrs then h.addPermission r groupID attrs
        else .ok (some .notAssociated, h)

end RHeap
end Verif
