import Verif.Model.V2

/-!
# Model of concurrent decisions in /repo/v2 (v2.go, utils/pool.go)

`Authorize` and `Can` keep the resolved permissions (roles) in maps taken from pools shared by all calls.  The maps
go back to the pools when the resolution returns (deferred `Put`, v2/v2.go:195-199 and 258-261), before the caller
iterates over the one it was given (v2/v2.go:430-435 and 387-392).  This file models several calls that run at the
same time on authorizers that nobody changes: each call is a list of resolutions, a resolution is the list of map
writes it makes.  `C57_authorize` in `Verif/Props/V2Pool.lean` relates such a list to `V2.authorize`.

Simplifications.  One step is one map write, one map read, or one pool access.  `Get` together with the `clear`s
after it is one step, and so are the choice of the result and the `Put`s: no other call can write the map in
between.  The Go runtime may also stop the program when it notices a map that is read and written at the same
time; the model has no such stop.  `checkedTenants` is not read after its `Put` and is left out.
`Can` takes no map from `globalPermissionsPool`; here it takes one and leaves it empty, so the runs of the code are
among the runs of the model (those in which `Can` is handed a new one).
-/

namespace Verif

/-- A decision: for each target tenant that is resolved, the writes to the maps, `(true, x)` for
`scopedPermissions[x]` and `(false, x)` for `globalPermissions[x]` (v2/v2.go:215-223, 274-277), and the test made
on each key of the result (`matchPermission`, v2/v2.go:431; `slices.Contains`, v2/v2.go:388). -/
structure Call where
  jobs : List (List (Bool × Str))
  test : Str → Bool

/-- A `sync.Pool` of maps (utils/pool.go:28-48): all maps ever made, and those that can be handed out. -/
structure MapPool where
  maps : List (List Str) := []
  free : List Nat := []
  deriving DecidableEq, Repr

/-- Where a call stands. -/
inductive Phase where
  /-- Before the next target tenant (v2/v2.go:404). -/
  | idle (jobs : List (List (Bool × Str)))
  /-- In `traverse`, with both maps in hand. -/
  | fill (s g : Nat) (todo : List (Bool × Str)) (jobs : List (List (Bool × Str)))
  /-- The resolution has returned a map (or an error); the maps are back in the pools. -/
  | ret (m : Option (Bool × Nat)) (jobs : List (List (Bool × Str)))
  /-- In the loop over the map (v2/v2.go:430-435).  `owed` are the keys at the start of the loop. -/
  | iter (m : Bool × Nat) (owed seen : List Str) (jobs : List (List (Bool × Str)))
  | done (b : Bool)
  deriving DecidableEq, Repr

/-- The pools `scopedPermissionsPool` and `globalPermissionsPool` (v2/v2.go:172-173) and the running calls. -/
structure Pools where
  scopedP : MapPool := {}
  globalP : MapPool := {}
  calls : List Phase := []
  deriving DecidableEq, Repr

namespace MapPool

/-- `Get` and `clear` (v2/v2.go:189-194): a free map or a new one. -/
def take (p : MapPool) : Option Nat → Option (Nat × MapPool)
  | none => some (p.maps.length, { p with maps := p.maps ++ [[]] })
  | some m => if m ∈ p.free then some (m, { maps := p.maps.set m [], free := p.free.erase m }) else none

/-- `Put`. -/
def put (p : MapPool) (m : Nat) : MapPool := { p with free := m :: p.free }

/-- The keys of a map. -/
def keys (p : MapPool) (m : Nat) : List Str := p.maps.getD m []

/-- `m[x] = struct{}{}`. -/
def write (p : MapPool) (m : Nat) (x : Str) : MapPool := { p with maps := p.maps.set m (addStr (p.keys m) x) }

end MapPool

/-- A step of call `i`. -/
inductive Move where
  /-- Start a resolution with the given free maps (`none`: the pool makes a new one). -/
  | get (i : Nat) (s g : Option Nat)
  /-- Write one key. -/
  | write (i : Nat)
  /-- Return from the resolution. -/
  | put (i : Nat)
  /-- Start the loop over the result, or go on to the next tenant after an error. -/
  | start (i : Nat)
  /-- The loop visits key `x`.  A key that is present and not yet visited can be visited, also one written during the loop. -/
  | read (i : Nat) (x : Str)
  /-- The loop ends: the keys it started with are visited or gone. -/
  | stop (i : Nat)
  /-- The call denies after the last tenant. -/
  | deny (i : Nat)
  deriving DecidableEq, Repr

namespace Pools

def setCall (p : Pools) (i : Nat) (c : Phase) : Pools := { p with calls := p.calls.set i c }

/-- The pool of scoped (`true`) or global (`false`) maps. -/
def pool (p : Pools) : Bool → MapPool
  | true => p.scopedP
  | false => p.globalP

/-- Write key `x` to one of the two maps in hand. -/
def writeTo (p : Pools) (s g : Nat) : Bool × Str → Pools
  | (true, x) => { p with scopedP := p.scopedP.write s x }
  | (false, x) => { p with globalP := p.globalP.write g x }

/-- The map a resolution returns (v2/v2.go:240-246); for `Can` the second map stays empty (v2/v2.go:296-299). -/
def result (p : Pools) (s g : Nat) : Option (Bool × Nat) :=
  if p.scopedP.keys s ≠ [] then some (true, s) else if p.globalP.keys g ≠ [] then some (false, g) else none

/-- One step; `none` if it is not possible. -/
def step (cs : List Call) (p : Pools) : Move → Option Pools
  | .get i s g => match p.calls[i]? with
    | some (.idle (job :: jobs)) => match p.scopedP.take s, p.globalP.take g with
      | some (s', ps), some (g', pg) => some { scopedP := ps, globalP := pg, calls := p.calls.set i (.fill s' g' job jobs) }
      | _, _ => none
    | _ => none
  | .write i => match p.calls[i]? with
    | some (.fill s g (x :: todo) jobs) => some ((p.writeTo s g x).setCall i (.fill s g todo jobs))
    | _ => none
  | .put i => match p.calls[i]? with
    | some (.fill s g [] jobs) => some { scopedP := p.scopedP.put s, globalP := p.globalP.put g, calls := p.calls.set i (.ret (p.result s g) jobs) }
    | _ => none
  | .start i => match p.calls[i]? with
    | some (.ret (some m) jobs) => some (p.setCall i (.iter m ((p.pool m.1).keys m.2) [] jobs))
    | some (.ret none jobs) => some (p.setCall i (.idle jobs))
    | _ => none
  | .read i x => match p.calls[i]?, cs[i]? with
    | some (.iter m owed seen jobs), some c =>
      if x ∈ (p.pool m.1).keys m.2 ∧ x ∉ seen then
        some (p.setCall i (if c.test x then .done true else .iter m owed (seen ++ [x]) jobs))
      else none
    | _, _ => none
  | .stop i => match p.calls[i]? with
    | some (.iter m owed seen jobs) =>
      if ∀ x ∈ owed, x ∈ (p.pool m.1).keys m.2 → x ∈ seen then some (p.setCall i (.idle jobs)) else none
    | _ => none
  | .deny i => match p.calls[i]? with
    | some (.idle []) => some (p.setCall i (.done false))
    | _ => none

/-- A schedule. -/
def exec (cs : List Call) : Pools → List Move → Option Pools
  | p, [] => some p
  | p, mv :: mvs => (p.step cs mv).bind fun p' => p'.exec cs mvs

/-- The calls are about to start; the pools hold the maps earlier calls left, whatever their content. -/
def Start (cs : List Call) (p : Pools) : Prop :=
  p.calls = cs.map (fun c => .idle c.jobs) ∧ p.scopedP.free.Nodup ∧ p.globalP.free.Nodup ∧
  (∀ m ∈ p.scopedP.free, m < p.scopedP.maps.length) ∧ ∀ m ∈ p.globalP.free, m < p.globalP.maps.length

end Pools
end Verif
