import Verif.Model.Manager

/-!
# Model of the reports of the root package
(/repo/permission.go:84-115, /repo/activity_group.go:35-86)
-/

namespace Verif

/-- `m[k] = append(m[k], v)` on a map of slices. -/
def appendOne {κ ν : Type} [DecidableEq κ] (m : GoMap κ (List ν)) (k : κ) (v : ν) : GoMap κ (List ν) :=
  m.set k ((m.get k).getD [] ++ [v])

namespace Mgr

/-- The loop over one role's permission map in `GetRolesForAvailablePermissions`
(permission.go:93-102); `id` is the role's id. -/
def seenGroups (id : Str) (seen : GoMap Str (GoMap Attr (List Str))) (l : List (Str × List Attr)) :
    GoMap Str (GoMap Attr (List Str)) :=
  l.foldl (fun seen e =>
    seen.set e.1 (e.2.foldl (fun gp a => appendOne gp a id) ((seen.get e.1).getD []))) seen

/-- The `ForEach` over the roles in `GetRolesForAvailablePermissions` (permission.go:92-104). -/
def seenRoles (w : Mgr) (o : Ord) (fuel : Nat) (site : List Val) :
    Nat → List (Str × Nat) → GoMap Str (GoMap Attr (List Str)) → Out (GoMap Str (GoMap Attr (List Str)))
  | _, [], seen => .ok seen
  | i, (_, r) :: rest, seen =>
    match w.heap.roles[r]? with
    | none => .panic
    | some ro =>
      (w.heap.allImplicit o fuel (site ++ [.int 0, .int i]) r []).bind fun m =>
      seenRoles w o fuel site (i + 1) rest (seenGroups ro.id seen (o.ord (site ++ [.int 1, .int i]) _ m))

/-- The final loops of `GetRolesForAvailablePermissions` (permission.go:105-112). -/
def availResponse (o : Ord) (site : List Val) : Nat → List (Str × GoMap Attr (List Str)) →
    GoMap Str (List (Attr × List Str)) → GoMap Str (List (Attr × List Str))
  | _, [], resp => resp
  | i, (c, ar) :: rest, resp =>
    availResponse o site (i + 1) rest
      ((o.ord (site ++ [.int i]) _ ar).foldl (fun resp x => appendOne resp c x) resp)

/-- `GetRolesForAvailablePermissions` (permission.go:89-115). An `AttributeResponse` is a pair. -/
def rolesForAvailable (w : Mgr) (o : Ord) (fuel : Nat) (site : List Val) :
    Out (GoMap Str (List (Attr × List Str))) :=
  (seenRoles w o fuel (site ++ [.int 0]) 0 (o.ord (site ++ [.int 1]) _ w.roles) []).map fun seen =>
    availResponse o (site ++ [.int 2]) 0 (o.ord (site ++ [.int 3]) _ seen) []

/-- The fallback loop of `GetScopesWithRolesForPrincipal` (activity_group.go:45-54): the tenant left
in `data` and the rows found last. -/
def otherTenant (w : Mgr) (o : Ord) (site : List Val) (p t n : Val) :
    Nat → List Str → Val → Val × List Data
  | _, [], cur => (cur, [])
  | i, x :: rest, cur =>
    if t = .str x then otherTenant w o site p t n (i + 1) rest cur
    else
      let rows := w.search o (site ++ [.int i]) { principal := p, tenant := .str x, namespace_ := n }
        filterPrincipalByTenant
      if 0 < rows.length then (.str x, rows) else otherTenant w o site p t n (i + 1) rest (.str x)

/-- activity_group.go:57-85: the rows of tenant `cur` joined with the rows `tps` of the principal. A
`ScopeRoles` is a pair. -/
def scopeRoles (w : Mgr) (o : Ord) (site : List Val) (p cur n : Val) (tps : List Data) : List (Val × List Val) :=
  let data : Data := { principal := p, tenant := cur, namespace_ := n }
  let ents0 := w.search o (site ++ [.int 0]) data filterScopeByTenantAndNamespace
  let ents := if ents0.length = 0 then w.search o (site ++ [.int 1]) data filterScopeByTenant else ents0
  let own := w.search o (site ++ [.int 2]) data filterScopePrincipalByTenant
  let joined := joinSlices ents tps (fun e a => matchTenant e a)
    (fun e a => ({ tenant := e.tenant, scope := e.scope, principal := a.principal, role := a.role } : Data))
  o.ord (site ++ [.int 3]) _ ((joined ++ own).foldl (fun seen r => appendOne seen r.scope r.role) [])

/-- `GetScopesWithRolesForPrincipal` (activity_group.go:40-86). The search at line 50 clears and
refills `tenantPrincipals`, so a fallback loop that finds nothing leaves it empty. -/
def scopesWithRoles (w : Mgr) (o : Ord) (fuel : Nat) (site : List Val) (p t n : Val) :
    Out (List (Val × List Val) × Mgr) :=
  let tps := w.search o (site ++ [.int 0]) { principal := p, tenant := t, namespace_ := n } filterPrincipalByTenant
  if tps.length = 0 then
    match p with
    | .str ps =>
      (w.implicitTenants o fuel (site ++ [.int 1]) ps).map fun x =>
        let y := x.2.otherTenant o (site ++ [.int 2]) p t n 0 (o.ord (site ++ [.int 3]) _ x.1) t
        (x.2.scopeRoles o (site ++ [.int 4]) p y.1 n y.2, x.2)
    | _ => .panic
  else .ok (w.scopeRoles o (site ++ [.int 4]) p t n tps, w)

end Mgr
end Verif
