import Verif.Model.V1

/-!
# Model of the pooled slices of /repo/v1 (role_manager.go, util.go, utils/pool.go)

`GetAllowedRoles` builds its lists in slices taken from pools shared by all calls and gives them back on return
(v1/role_manager.go:447-460), also the one it returns.  `V1.getAllowedRoles` treats slices as values; this file models
the backing arrays, so that the effect of sharing them can be stated.

Simplifications.  Slices start at the beginning of their array, which is so for all slices here.  The choices of the
runtime - which pooled slice `Get` hands out or whether it makes a new one, by how much `append` grows an array - are
arguments (`Picks`).  Other goroutines run whole calls of `GetAllowedRoles` between the return of a call and the use
of its result (`V1.others`); the arrays a running call has in hand are touched by no one else (`C77_allowedRoles`
in `Verif/Props/V1Pool.lean`), so finer interleavings add nothing.  States after a panic are not modelled.
-/

namespace Verif

/-- A slice: backing array and length; the capacity is that of the array. -/
structure Slice where
  arr : Nat
  len : Nat
  deriving DecidableEq, Repr

/-- The backing arrays of one `SlicePool` (utils/pool.go:7-9): all arrays ever made, those that are in the pool, and
the slices the running call has in its local variables. -/
structure Arrays (α : Type) where
  arrs : List (List α) := []
  free : List Nat := []
  regs : List Slice := []
  deriving DecidableEq, Repr

namespace Arrays
variable {α : Type}

/-- The array with number `a`. -/
def arr (p : Arrays α) (a : Nat) : List α := p.arrs.getD a []

/-- The elements of a slice. -/
def read (p : Arrays α) (s : Slice) : List α := (p.arr s.arr).take s.len

/-- The elements of the slice in a local variable. -/
def val (p : Arrays α) (i : Nat) : List α := p.read (p.regs.getD i ⟨0, 0⟩)

/-- `SlicePool.Get` (utils/pool.go:19-21) into the next local variable: the pooled array `c`, or a new array of
capacity 100 (utils/pool.go:14, v1/util.go:8-9). -/
def get (zero : α) (p : Arrays α) (c : Option Nat) : Arrays α :=
  match p.free.find? (fun m => some m = c) with
  | some m => { p with free := p.free.erase m, regs := p.regs ++ [⟨m, 0⟩] }
  | none => { p with arrs := p.arrs ++ [List.replicate 100 zero], regs := p.regs ++ [⟨p.arrs.length, 0⟩] }

/-- `v = append(v, x)` for local variable `i`: in place if the capacity allows, else in a new array with `grow` spare
places. -/
def push (zero : α) (grow : Nat → Nat) (p : Arrays α) (i : Nat) (x : α) : Arrays α :=
  let s := p.regs.getD i ⟨0, 0⟩
  if s.len < (p.arr s.arr).length then
    { p with arrs := p.arrs.set s.arr ((p.arr s.arr).set s.len x), regs := p.regs.set i ⟨s.arr, s.len + 1⟩ }
  else
    { p with arrs := p.arrs ++ [p.read s ++ x :: List.replicate (grow s.len) zero],
             regs := p.regs.set i ⟨p.arrs.length, s.len + 1⟩ }

/-- A loop of `append`s. -/
def pushAll (zero : α) (grow : Nat → Nat) (p : Arrays α) (i : Nat) (xs : List α) : Arrays α :=
  xs.foldl (fun p x => p.push zero grow i x) p

/-- `SlicePool.Put` (utils/pool.go:23-25) for all local variables, in order. -/
def putAll (p : Arrays α) : Arrays α :=
  { p with free := (p.regs.map (·.arr)).reverse ++ p.free, regs := [] }

/-- `slices.Compact` on local variable `i`: in place, the rest of the slice is cleared; the variable keeps its
length, the shorter slice is the result. -/
def compactAt (zero : α) (p : Arrays α) (i : Nat) (f : List α → List α) : Slice × Arrays α :=
  let s := p.regs.getD i ⟨0, 0⟩
  let l := f (p.read s)
  (⟨s.arr, l.length⟩,
    { p with arrs := p.arrs.set s.arr (l ++ List.replicate (s.len - l.length) zero ++ (p.arr s.arr).drop s.len) })

end Arrays

/-- The pools `stringSlice` and `principalRoleSlice` (v1/util.go:7-10). -/
structure Mem where
  strs : Arrays Str := {}
  tps : Arrays TP := {}
  deriving DecidableEq, Repr

/-- The choices of the runtime in one call of `GetAllowedRoles`. -/
structure Picks where
  nsScopes : Option Nat := none
  nsRoles : Option Nat := none
  scopes : Option Nat := none
  allowed : Option Nat := none
  tenantRoles : Option Nat := none
  nsScopeRoles : Option Nat := none
  grow : Nat → Nat := fun n => n

namespace Mem

/-- The `Get`s of `GetAllowedRoles` (v1/role_manager.go:447-452). -/
def getAll (m : Mem) (c : Picks) : Mem :=
  { strs := (((m.strs.get [] c.nsScopes).get [] c.nsRoles).get [] c.scopes).get [] c.allowed
    tps := (m.tps.get {} c.tenantRoles).get {} c.nsScopeRoles }

/-- The deferred `Put`s of `GetAllowedRoles` (v1/role_manager.go:453-460). -/
def putAll (m : Mem) : Mem := { strs := m.strs.putAll, tps := m.tps.putAll }

/-- The loop over the assignments (v1/role_manager.go:478-487). -/
def sortRows (c : Picks) (m : Mem) (l : List TP) : Mem :=
  l.foldl (fun m y =>
    let m := if y.scope ≠ [] then { m with strs := m.strs.push [] c.grow 2 y.scope } else m
    if y.namespace_ ≠ [] ∧ y.scope ≠ [] then { m with tps := m.tps.push {} c.grow 1 y }
    else if y.namespace_ = [] ∧ y.scope = [] then { m with tps := m.tps.push {} c.grow 0 y }
    else m) m

/-- The rest of `GetAllowedRoles` (v1/role_manager.go:488-517) up to the deferred `Put`s. -/
def pick (c : Picks) (m : Mem) (t : T1Obj) (n s : Str) : Option Slice × Mem :=
  let first := if 0 < (m.strs.val 1).length then m.strs.val 1 else (m.tps.val 0).map (·.role)     -- lines 488-496
  let m := { m with strs := m.strs.pushAll [] c.grow 3 first }
  if (s ∉ m.strs.val 2 ∧ (m.tps.val 0).length = 0) ∨
      (0 < (m.strs.val 0).length ∧ s ∉ m.strs.val 0) then (none, m)                              -- lines 498-502
  else
    let more := ((m.tps.val 1).filter fun y => y.namespace_ = n ∧ y.scope = s).map (·.role)       -- lines 504-510
    let m := if n ≠ [] ∧ s ≠ [] ∧ 0 < (m.tps.val 1).length then { m with strs := m.strs.pushAll [] c.grow 3 more } else m
    if ∀ r ∈ m.strs.val 3, (t.roles.get r).isSome then                                           -- lines 512-517
      let r := m.strs.compactAt [] 3 slicesCompact
      (some r.1, { m with strs := r.2 })
    else (none, m)

end Mem

/-- The arguments of a call of `GetAllowedRoles`, and the choices of the runtime in it. -/
structure Allowed where
  o : Ord
  site : List Val
  rows : Option (List TP)
  n : Str
  s : Str
  picks : Picks

namespace V1

/-- `GetAllowedRoles` (v1/role_manager.go:442-518) with its slices; `none` is nil. -/
def allowedSlice (w : V1) (m : Mem) (a : Allowed) : Out (Option Slice × Mem) :=
  match a.rows with
  | none => .ok (none, m)
  | some [] => .panic
  | some (x :: xs) =>
    let m := m.getAll a.picks
    match w.tenants.get x.tenant with
    | none => .panic
    | some c =>
      w.withT c fun t =>
        if (a.s ≠ [] ∧ t.scopes.get a.s = none) ∨ (a.n ≠ [] ∧ t.namespaces.get a.n = none) then .ok (none, m.putAll)
        else
          (w.namespaceLists a.o a.site t a.n).map fun nss =>
            let m := { m with strs := (m.strs.pushAll [] a.picks.grow 0 nss.1).pushAll [] a.picks.grow 1 nss.2 }
            let r := (m.sortRows a.picks (x :: xs)).pick a.picks t a.n a.s
            (r.1, r.2.putAll)

/-- Calls of `GetAllowedRoles` by others. -/
def others (w : V1) (m : Mem) : List Allowed → Out Mem
  | [] => .ok m
  | a :: as => (w.allowedSlice m a).bind fun r => w.others r.2 as

/-- The loop of `authorizeForActivity` (v1/role_manager.go:669-672): `picks i` are the choices in the call for the
`i`-th tenant, `between i` the calls others make before its result is copied. -/
def collectRoles (w : V1) (o : Ord) (site : List Val) (p : Str) (picks : Nat → Picks) (between : Nat → List Allowed) :
    Nat → Mem → List Str → Out (List Str × Mem)
  | _, m, [] => .ok ([], m)
  | i, m, t :: ts =>
    (w.principalRoles o (site ++ [.int 1, .int i]) t p).bind fun l =>
    (w.allowedSlice m ⟨o, site ++ [.int 2, .int i], nilSlice l, [], [], picks i⟩).bind fun r =>
    (w.others r.2 (between i)).bind fun m =>
    (w.collectRoles o site p picks between (i + 1) m ts).map fun q => ((r.1.map m.strs.read).getD [] ++ q.1, q.2)

/-- `authorizeForActivity` (v1/role_manager.go:664-687) with its slices. -/
def authActivityMem (w : V1) (o : Ord) (fuel : Nat) (site : List Val) (p act : Str) (picks : Nat → Picks)
    (between : Nat → List Allowed) (m : Mem) : Out Bool :=
  (w.tenantsForPrincipal o (site ++ [.int 0]) p).bind fun ts =>
  (w.collectRoles o site p picks between 0 m ts).bind fun q =>
  let roleIDs := slicesCompact q.1
  w.anyRole o fuel (site ++ [.int 3]) (w.registeredRoles roleIDs) [] act roleIDs

/-- `authorizeComplex` (v1/role_manager.go:689-730) with its slices; `between` are the calls others make before
`getAllowedRoleIDs` reads the result. -/
def authComplexMem (w : V1) (o : Ord) (fuel : Nat) (site : List Val) (p : Str) (r : Request) (picks : Picks)
    (between : List Allowed) (m : Mem) : Out Bool :=
  let n := toStr r.namespace_
  let s := toStr r.scope
  match w.tenants.get (toStr r.tenant) with
  | none => .ok false
  | some c =>
    w.withT c fun t =>
      (w.principalRoles o (site ++ [.int 0]) (toStr r.tenant) p).bind fun l =>
      if l = [] then .ok false
      else if n ≠ [] ∧ t.namespaces.get n = none then .ok false
      else if s ≠ [] ∧ t.scopes.get s = none then .ok false
      else
        (w.allowedSlice m ⟨o, site ++ [.int 1], nilSlice l, n, s, picks⟩).bind fun q =>
        (w.others q.2 between).bind fun m =>
        (w.allowedRoleIDs o (site ++ [.int 2]) t ((q.1.map m.strs.read).getD [])).bind fun ids =>
        w.anyRole o fuel (site ++ [.int 3]) (w.registeredRoles (l.map (·.role))) (toStr r.group) (toStr r.activity) ids

end V1
end Verif
