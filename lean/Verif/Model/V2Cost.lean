import Verif.Model.V2

/-!
# How often a decision of package v2 calls `traverse` and reads assignments (/repo/v2/v2.go:184-300, 355-439)

The same code as in `Model/V2.lean` with two counters: calls of `traverse`, and assignments read by the two loops of
`traverse` (each goes through the whole list).  That the answers agree is theorem `C130_counted`.  Assignments read by
`findPrincipalTenants` (once through the list), the walk through the role graph and the matching of permissions are not counted.
-/

namespace Verif
namespace V2

/-- Calls of `traverse`, assignments read. -/
structure Work where
  calls : Nat := 0
  reads : Nat := 0
  deriving DecidableEq, Repr

/-- `traverse` (v2/v2.go:200-236 and 262-291), with counters. -/
def traverseC {σ : Type} (w : V2) (e : Env) (site : List Val) (p : Str) (visit : Str → σ → Out σ) :
    Nat → Nat → (List Str × σ) × Work → Out ((List Str × σ) × Work)
  | 0, _, _ => .diverge
  | n + 1, c, st => w.withT c fun t =>
    if t.id ∈ st.1.1 then .ok (st.1, { st.2 with calls := st.2.calls + 1 })
    else (visit t.id st.1.2).bind fun s =>
      Out.loop (fun st xi => (w.prAt xi.1).bind fun u =>
          if u.principal = p ∧ u.tenant = t.id ∧ u.manage = true then
            Out.loop (fun st kd => w.traverseC e site p visit n kd.2 st) st
              (e.o.ord (site ++ [.str t.id, .int xi.2]) _ t.children)
          else .ok st)
        ((st.1.1 ++ [t.id], s), ⟨st.2.calls + 1, st.2.reads + 2 * w.userRoles.length⟩) w.userRoles.zipIdx

/-- `resolvePrincipalPermissions` (v2/v2.go:184-247), with counters. -/
def resolvePermsC (w : V2) (e : Env) (fuel : Nat) (site : List Val) (p tid ns sc : Str) :
    Out ((Option (List Str) × Dag) × Work) :=
  match w.tenants.get tid with
  | none => .ok ((none, w.dag), {})
  | some c =>
    (w.traverseC e site p (fun tid s => Out.loop (w.permRow e fuel site p ns sc tid) s w.userRoles.zipIdx) fuel c
      (([], { dag := w.dag }), {})).map fun r =>
        ((if r.1.2.scopedP.length > 0 then some r.1.2.scopedP
          else if r.1.2.globalP.length > 0 then some r.1.2.globalP
          else none, r.1.2.dag), r.2)

/-- `resolvePrincipalRoles` (v2/v2.go:249-300), with counters. -/
def resolveRolesC (w : V2) (e : Env) (fuel : Nat) (site : List Val) (p tid ns : Str) : Out ((Option (List Str) × Dag) × Work) :=
  match w.tenants.get tid with
  | none => .ok ((none, w.dag), {})
  | some c =>
    (w.traverseC e site p (fun tid s => Out.loop (w.roleRow e fuel site p ns tid) s w.userRoles.zipIdx) fuel c
      (([], { dag := w.dag }), {})).map fun r => ((if r.1.2.roles.length > 0 then some r.1.2.roles else none, r.1.2.dag), r.2)

/-- The loop over the target tenants (v2/v2.go:361-393 and 404-436), adding up counters. -/
def tenantLoopC (r : Req2) (body : Nat → Str → Str → V2 → Out ((Bool × V2) × Work)) : Nat → List Nat → V2 → Out ((Bool × V2) × Work)
  | _, [], w => .ok ((false, w.logMsg r .failed), {})
  | k, c :: cs, w => w.withT c fun t =>
    match nsOf t r with
    | none => tenantLoopC r body (k + 1) cs w
    | some ns =>
      match t.namespaces.get ns with
      | none => tenantLoopC r body (k + 1) cs w
      | some scs =>
        if r.scope ≠ [] ∧ !scopeValid scs r.scope then tenantLoopC r body (k + 1) cs w
        else (body k t.id ns w).bind fun bw =>
          if bw.1.1 then .ok bw
          else (tenantLoopC r body (k + 1) cs bw.1.2).map fun x => (x.1, ⟨bw.2.calls + x.2.calls, bw.2.reads + x.2.reads⟩)

/-- v2/v2.go:425-435, with counters. -/
def authBodyC (e : Env) (fuel : Nat) (site : List Val) (r : Req2) (k : Nat) (tid ns : Str) (w : V2) : Out ((Bool × V2) × Work) :=
  (w.resolvePermsC e fuel (site ++ [.int k]) r.principal tid ns r.scope).bind fun pd =>
    match pd.1.1 with
    | none => .ok ((false, ({ w with dag := pd.1.2 } : V2).logMsg r .noPerms), pd.2)
    | some perms =>
      (Out.anyI (fun _ perm => matchPermission perm r) 0 (e.o.ord (site ++ [.int k]) _ perms)).map fun b =>
        ((b, if b then ({ w with dag := pd.1.2 } : V2).logMsg r .granted else { w with dag := pd.1.2 }), pd.2)

/-- `Authorizer.Authorize` (v2/v2.go:398-439), with counters. -/
def authorizeC (w : V2) (e : Env) (fuel : Nat) (site : List Val) (r : Req2) : Out ((Bool × V2) × Work) :=
  (w.findTargets e.o site r).bind fun ts =>
    match ts with
    | none => .ok ((false, w.logMsg r .invalidTenant), {})
    | some cs => tenantLoopC r (authBodyC e fuel site r) 0 cs w

/-- v2/v2.go:382-392, with counters. -/
def canBodyC (e : Env) (fuel : Nat) (site : List Val) (r : Req2) (roles : List Str) (k : Nat) (tid ns : Str) (w : V2) :
    Out ((Bool × V2) × Work) :=
  (w.resolveRolesC e fuel (site ++ [.int k]) r.principal tid ns).bind fun pd =>
    match pd.1.1 with
    | none => .ok ((false, ({ w with dag := pd.1.2 } : V2).logMsg r .noRoles), pd.2)
    | some rs =>
      let b := (e.o.ord (site ++ [.int k]) _ rs).any fun x => decide (x ∈ roles)
      .ok ((b, if b then ({ w with dag := pd.1.2 } : V2).logMsg r .granted else { w with dag := pd.1.2 }), pd.2)

/-- `Authorizer.Can` (v2/v2.go:355-396), with counters. -/
def canC (w : V2) (e : Env) (fuel : Nat) (site : List Val) (r : Req2) (roles : List Str) : Out ((Bool × V2) × Work) :=
  (w.findTargets e.o site r).bind fun ts =>
    match ts with
    | none => .ok ((false, w.logMsg r .invalidTenant), {})
    | some cs => tenantLoopC r (canBodyC e fuel site r roles) 0 cs w

end V2
end Verif
