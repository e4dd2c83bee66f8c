import Verif.Base
import Verif.Props.Match
import Verif.Props.Utils
import Verif.Props.Trie
import Verif.Props.Role
import Verif.Props.Manager
import Verif.Props.Authorize
import Verif.Props.Grants
import Verif.Props.V1
import Verif.Props.V1Assign
import Verif.Props.V1Getters
import Verif.Props.V1Setup
import Verif.Props.V2
import Verif.Props.V2Remove
import Verif.Props.V2Cache
import Verif.Model.V2Pool
import Verif.Props.V2Pool
import Verif.Props.Getters
import Verif.Props.Reports
import Verif.Props.RoleOps
import Verif.Props.Text
import Verif.Props.Setup
import Verif.Props.V2Setup
import Verif.Props.V2Isolation
import Verif.Props.Isolation
import Verif.Props.V1Isolation
import Verif.Props.V1Pool
import Verif.Props.Bulk
import Verif.Props.Audit
import Verif.Props.Serialize
import Verif.Props.Keep
import Verif.Props.V1Keep
import Verif.Props.V2Locks
import Verif.Props.V2Conc
import Verif.Props.V2Serial
import Verif.Props.TrieConc
import Verif.Props.RegConc
import Verif.Props.RoleConc
import Verif.Props.ConcEnd
import Verif.Props.V2RoleSetup
import Verif.Props.V2Origin
import Verif.Props.V1Returns
import Verif.Props.V1Orders
import Verif.Props.Origin
import Verif.Props.V1Origin
import Verif.Props.AuthConc
import Verif.Props.V1Map
import Verif.Props.Json
import Verif.Props.TrieRace
import Verif.Props.RoleRace
import Verif.Props.Managers
import Verif.Props.RegExact
import Verif.Props.RoleLost
import Verif.Props.TrieLost
import Verif.Props.MatchExact
import Verif.Props.TenantConc
import Verif.Model.TenantRace
import Verif.Props.TenantRace
import Verif.Props.Examples
import Verif.Props.SearchOrder
import Verif.Props.ImplicitOrder
import Verif.Props.AuthDuring
import Verif.Props.Recover
import Verif.Props.V2Recover
import Verif.Props.V1Recover
import Verif.Props.Height
import Verif.Props.ManagersMade
import Verif.Props.Exact
import Verif.Props.RecoverWhen
import Verif.Props.V2RecoverWhen
import Verif.Props.V1RecoverWhen
import Verif.Props.AuthorizeWhen
import Verif.Props.Bench
import Verif.Props.Cost
import Verif.Props.Repeats
import Verif.Props.V1More
import Verif.Props.V2More
import Verif.Props.V1Managers
import Verif.Props.V2Authorizers
import Verif.Props.MatchCost
import Verif.Props.V2Cost
import Verif.Props.Locked
import Verif.Props.Borrowed
import Verif.Props.RoleFrame
import Verif.Props.RoleFrameMgr
import Verif.Props.TrieCost
import Verif.Props.AuthCost
import Verif.Props.TenantCost
import Verif.Props.RoleLate
import Verif.Props.V2Careless
import Verif.Props.V2Revoke
import Verif.Props.V2Duration
import Verif.Props.V1Once
import Verif.Props.TrieNil
import Verif.Props.Memory
import Verif.Props.V2Memory
import Verif.Props.Opaque
import Verif.Props.V2Opaque
import Verif.Props.V1Opaque
import Verif.Props.Repeat
import Verif.Props.V1Repeat
import Verif.Props.V2Repeat
import Verif.Props.GrantExact
import Verif.Props.Asking
import Verif.Props.V2Asking
import Verif.Props.GrantOrder
import Verif.Props.V2GrantOrder
import Verif.Props.V1GrantOrder
import Verif.Props.V2Undo
import Verif.Props.V2Regrant
import Verif.Props.V2Wider
import Verif.Props.V2Link
import Verif.Props.V2Aside
import Verif.Axioms
