import Verif.Model.Manager

/-!
# How often a decision of the root package calls `Tenant.GetDescendants` (/repo/tenant.go, role_manager.go, query.go, authorize.go)

The same code as in `Model/Manager.lean`, with the number of calls.  That the answers agree is theorem `C134_counted`.
-/

namespace Verif
namespace Mgr

/-- `Tenant.GetDescendants` (tenant.go:31-38) and the number of calls: this one and those made for the descendants (line 35). -/
def descendantsG (w : Mgr) (o : Ord) : Nat → List Val → Nat → Out (List Str × Nat)
  | 0, _, _ => .diverge
  | n + 1, site, c =>
    match w.tobjs[c]? with
    | none => .panic
    | some t =>
      (Out.collectI (fun i (e : Str × Nat) =>
        (descendantsG w o n (site ++ [.int i]) e.2).map fun x => [(e.1 :: x.1, x.2)]) 0 (o.ord site _ t.desc)).map fun ls =>
          ((ls.map (·.1)).flatten, 1 + (ls.map (·.2)).sum)

/-- `TenantChildren` (role_manager.go:124-135), with the calls it makes; none if the list is cached (lines 125-127) or the id is not
registered. -/
def tenantChildrenG (w : Mgr) (o : Ord) (fuel : Nat) (site : List Val) (id : Str) : Out ((List Val × Mgr) × Nat) :=
  match w.hierarchy.get id with
  | some hier => .ok ((hier, w), 0)
  | none =>
    match w.tenants.get id with
    | none => .ok (([], w), 0)
    | some c =>
      (w.descendantsG o fuel site c).map fun x =>
        ((x.1.map Val.str, { w with hierarchy := w.hierarchy.set id (compact (x.1.map Val.str)) }), x.2)

/-- The outer loop of `GetImplicitTenants` (query.go:46-59), counted; the calls made before are `k`. -/
def implicitLoopG (o : Ord) (fuel : Nat) (site : List Val) :
    Nat → List Data → List Str → Mgr → Nat → Out ((List Str × Mgr) × Nat)
  | _, [], E, w, k => .ok ((E, w), k)
  | i, rs :: rest, E, w, k =>
    match rs.tenant with
    | .str t =>
      if t ∈ E then implicitLoopG o fuel site (i + 1) rest E w k
      else if rs.manage = .bool true then
        (w.tenantChildrenG o fuel (site ++ [.int i]) t).bind fun x =>
        (addDescs (E ++ [t]) x.1.1).bind fun E' => implicitLoopG o fuel site (i + 1) rest E' x.1.2 (k + x.2)
      else implicitLoopG o fuel site (i + 1) rest (E ++ [t]) w k
    | _ => .panic

/-- `GetImplicitTenants` (query.go:39-62), counted. -/
def implicitTenantsG (w : Mgr) (o : Ord) (fuel : Nat) (site : List Val) (p : Str) : Out ((List Str × Mgr) × Nat) :=
  match w.pcache.get p with
  | some I => .ok ((I, w), 0)
  | none =>
    (implicitLoopG o fuel (site ++ [.int 1]) 0
      (w.search o (site ++ [.int 0]) { principal := .str p } filterTenantsByPrincipal) [] w 0).map fun x =>
        ((x.1.1, { x.1.2 with pcache := x.1.2.pcache.set p x.1.1 }), x.2)

/-- `Authorize` (authorize.go:9-44), counted; after line 18 it does not look at the hierarchy of tenants. -/
def authorizeG (w : Mgr) (o : Ord) (fuel : Nat) (site : List Val) (p : Str) (opts : List Opt) : Out ((Bool × Mgr) × Nat) :=
  if (w.principals.get p).isNone then .ok ((false, w), 0)
  else
    let r := opts.foldl Opt.apply {}
    (w.implicitTenantsG o fuel (site ++ [.int 0]) p).bind fun x =>
    if x.1.1.length = 0 then .ok ((false, x.1.2), x.2)
    else
      (x.1.2.validateResources r).bind fun v =>
      if !v then .ok ((false, x.1.2), x.2)
      else
        (x.1.2.check o fuel (site ++ [.int 1]) p r (flagsOf r)).bind fun b =>
        if b then .ok ((true, x.1.2), x.2)
        else
          (x.1.2.fallback o fuel (site ++ [.int 2]) p (flagsOf r) 0 r (o.ord (site ++ [.int 3]) _ x.1.1)).map
            fun b => ((b, x.1.2), x.2)

end Mgr
end Verif
