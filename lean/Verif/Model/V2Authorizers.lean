import Verif.Lemmas.V2Ops

/-!
# Several authorizers of package v2 in one program (/repo/v2/v2.go, /repo/v2/role.go, /repo/v2/init.go)

Roles, tenants and assignments are shared objects without a pointer to an authorizer; the registries, the links between
role names, the role cache and the log belong to an authorizer (v2/v2.go:73-96, v2/role.go:61-74).  A call on an object runs
as in `Model/V2.lean` on the objects alone, a call on an authorizer on its own fields and the objects.  The pools
(v2/v2.go:171-175) are shared by all authorizers; they hand out cleared maps (see `Model/V2.lean`).
-/

namespace Verif
namespace VMA

/-- The objects of a program and its authorizers. The fields `tobjs`, `prs` and `dag.objs` of an authorizer are not used. -/
structure World where
  roles : List R2 := []
  tobjs : List T2 := []
  prs : List PR := []
  auths : List V2 := []
  deriving DecidableEq

/-- An authorizer with given objects. -/
def seen (rs : List R2) (ts : List T2) (us : List PR) (a : V2) : V2 :=
  { a with dag := { a.dag with objs := rs }, tobjs := ts, prs := us }

/-- Authorizer `k` with the objects of the program. -/
def World.view (W : World) (k : Nat) : V2 := seen W.roles W.tobjs W.prs ((W.auths[k]?).getD {})

/-- The objects alone. -/
def World.objects (W : World) : V2 := seen W.roles W.tobjs W.prs {}

/-- The program after authorizer `k` with the objects has become `w`. -/
def World.put (W : World) (k : Nat) (w : V2) : World :=
  { roles := w.dag.objs, tobjs := w.tobjs, prs := w.prs, auths := W.auths.set k (seen [] [] [] w) }

/-- The program after the objects alone have become those of `w`. -/
def World.putObjects (W : World) (w : V2) : World := { W with roles := w.dag.objs, tobjs := w.tobjs, prs := w.prs }

/-- The methods of `Authorizer` (v2/init.go:3-42, v2/v2.go:98-169, 355-439). The other calls are constructors and methods
of roles, tenants and assignments (v2/entities.go:23-88, v2/role.go:12-59, v2/v2.go:31-58): they reach no authorizer. -/
def ofAuthorizer : V2Op → Bool
  | .addRoles _ | .addChildRole .. | .addTenant _ | .setDefaultTenant _ | .addPrincipalRole _ | .removePrincipalRole _
  | .authorize .. | .can .. => true
  | _ => false

/-- A call: `k` is the authorizer if it is a method of an authorizer; there is none with a number not handed out. -/
def World.call (W : World) (k : Nat) (op : V2Op) : Out World :=
  if ofAuthorizer op then
    if k < W.auths.length then (op.apply (W.view k)).map (W.put k) else .panic
  else (op.apply W.objects).map W.putObjects

/-- What a program does: `NewAuthorizer` (v2/v2.go:84-96) with or without logger, or a call. -/
inductive Call where
  | new (logger : Bool)
  | on (k : Nat) (op : V2Op)

def World.step (W : World) : Call → Out World
  | .new l => .ok { W with auths := W.auths ++ [V2.newAuthorizer l] }
  | .on k op => W.call k op

/-- Run a history. -/
def World.run (W : World) (cs : List Call) : Out World := Out.loop World.step W cs

/-- `Authorize` of authorizer `k` (v2/v2.go:398-439). -/
def World.authorize (W : World) (k : Nat) (e : Env) (fuel : Nat) (site : List Val) (r : Req2) : Out Bool :=
  ((W.view k).authorize e fuel site r).map (·.1)

/-- `Can` of authorizer `k` (v2/v2.go:355-396). -/
def World.can (W : World) (k : Nat) (e : Env) (fuel : Nat) (site : List Val) (r : Req2) (roles : List Str) : Out Bool :=
  ((W.view k).can e fuel site r roles).map (·.1)

end VMA
end Verif
