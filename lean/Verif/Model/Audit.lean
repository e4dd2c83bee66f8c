import Verif.Model.V2

/-!
# Model of the audit record of /repo/v2 (v2/v2.go:302-325) and of the tenant status text (v2/entities.go:52-64)
-/

namespace Verif

/-- `slog.String(key, value)` appended if the value is not empty (v2/v2.go:305-322). -/
def auditArg (key value : Str) (args : List (Str × Str)) : List (Str × Str) :=
  if value ≠ [] then args ++ [(key, value)] else args

/-- The arguments `Log` hands to the logger after the timestamp (v2/v2.go:302-325). -/
def auditArgs (r : Req2) : List (Str × Str) :=
  auditArg (str "action") r.action (auditArg (str "resource") r.resource (auditArg (str "scope") r.scope
    (auditArg (str "namespace") r.namespace_ (auditArg (str "tenant") r.tenant
      (auditArg (str "principal") r.principal [])))))

/-- The message texts (v2/v2.go:358, 384, 389, 394, 401, 427, 432, 437). -/
def Msg.text : Msg → Str
  | .granted => str "Authorization granted"
  | .failed => str "Authorization failed"
  | .invalidTenant => str "Failed authorization due to invalid tenant"
  | .noPerms => str "Failed to resolve permissions for authorization"
  | .noRoles => str "Failed to resolve roles for authorization"

/-- `TenantStatus.String` (v2/entities.go:54-56): an index outside the array panics. -/
def statusText (t : Int) : Out Str :=
  if t < 0 then .panic
  else
    match [str "active", str "inactive", str "pending", str "blocked", str "banned"][t.toNat]? with
    | none => .panic
    | some s => .ok s

end Verif
