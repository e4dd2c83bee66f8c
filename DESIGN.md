# Formal model of oarkflow/permission (Lean 4)

## Trusted base
* Lean 4.33 kernel; axioms at most `propext`, `Classical.choice`, `Quot.sound`; `Verif/Axioms.lean` lists them
  per theorem and fails the build if a theorem depends on anything else.
* The reading of the Go source: every model definition cites the file and lines it models.
* Third-party code is not in /repo: `oarkflow/xsync` and `oarkflow/maps` are modelled as finite maps
  (`Get`, `Set`, `ForEach`, `Values`, `Size`/`Len`) with unspecified iteration order.

## Modelling conventions
* Go `string` = `Str` = list of bytes. `any` = `Val` (nil / string / bool / int, compared with `==`; the int
  constructor stands for all other comparable dynamic types). Uncomparable dynamic types (they panic in Go) are not modelled.
* A Go map = association list with unique keys (`GoMap`). Every iteration goes through an oracle `Ord`
  which returns an arbitrary permutation for every loop execution ("stamp"); theorems quantify over all oracles.
* Results: `Out a = ok a | panic | diverge`. nil dereference, failed type assertion = `panic`; infinite loop or
  unbounded recursion = `diverge`. Unbounded recursion takes a `fuel` (stack depth) argument; statements quantify over it.
* Pointers to mutable objects (roles, attribute groups, tenants, v1 namespaces, v2 assignments) are indices into a heap list.
* Several managers (`Model/Managers.lean`, v1: `Model/V1Managers.lean`, v2 authorizers: `Model/V2Authorizers.lean`) share tenants, roles and groups (v2: assignments); elsewhere there is one manager.
* Wall clock: an oracle value per read.
* Concurrency is modelled for v2 (`Model/V2Locks.lean`): a call is a program of single memory accesses and lock operations,
  a schedule is any order of steps; `sync.Mutex` and `sync.RWMutex` as documented. It is modelled
  too for the trie (`Model/TrieConc.lean`: one step per map access and per access of `isEnd` and `data`) and for the
  registries and roles of the root package (`Model/RegConc.lean`, `Model/RoleConc.lean`: one step per map access and per
  access of `lock`) and for `Authorize` of the root package while nothing else is called (`Model/AuthConc.lean`: one step per access
  of one of the two caches) and while other calls change things (`Model/AuthDuring.lean`: one step per access of a registry, node of the trie, tenant, role,
  group or cache; the other calls are one step each) and for the methods of tenants (`Model/TenantConc.lean`: one step per access of `manager` and `defaultNamespace`, per map
  access and per `AddData`) and for the map of assignments of v1, which has no lock (`Model/V1Map.lean`); the xsync maps are taken to be
  linearizable, and `Values` is one step. Everything else runs calls one at a time.

## Not modelled
What a data race does to memory (C84 says which occur in v2, C105 when one occurs on the assignments of v1, C108, C109 and C113 when one occurs on the nodes of the trie, the lock flags of roles and the fields of tenants), the timestamp and output of the audit logger, `ToByte`/`FromByte`
(unsafe casts), `Source`/`Data` (they hand out the trie itself), time and memory (C122 counts the calls of `Role.Has`, C129 the bytes read by the matcher, C130 the steps of v2 decisions, C132 the nodes visited by searches of the trie, C133 the searches made by decisions, C134 the calls of `Tenant.GetDescendants`; C140 bounds what decisions keep).
What a recovered panic leaves is modelled (root package: `Model/Recover.lean`, C118; v2: `Model/V2Recover.lean`, C119; v1: `Model/V1Recover.lean`, C120). The Go standard library is modelled only where used: `strings.IndexByte`, `strings.Split`,
`slices.Compact`, `sort.Slice` (any admissible result), `encoding/json` of a struct of counts and of a slice of rows, `hash/fnv` (FNV-1, 64 bits), `time.ParseDuration` (`Model/Duration.lean`, C139). No source of the standard library was available: these models are written
from knowledge of the library and have not been compared with its code, so they belong to the trusted base. The float64 arithmetic inside
`time.ParseDuration` is modelled too (`Model/Float64.lean`: exact rationals rounded to 53 binary digits, exponents unbounded).

## Files
* `Verif/Base.lean` strings, values, maps, oracles, outcomes.
* `Verif/Model/*.lean` the model; `Verif/Spec/*.lean` small specifications; `Verif/Lemmas/*.lean` helper lemmas;
  `Verif/Props/*.lean` the property theorems with non-vacuity examples and counterexamples.

## Plan per property
C01 literal patterns: `MatchResource` is an index machine (one step per loop iteration), proved equal to a structural function, and that to the grammar `Matches`; a literal has only itself in the grammar.
C02 parameters: the grammar has a rule for `:name`; `true` exactly on the grammar, no panic, and `false` otherwise when there is no '*'.
C03 termination: `Hangs` describes the diverging pairs; the machine has no value for any number of steps exactly there. By pattern (`C03_pattern`): a value to hang on is built from the pattern.
C04 trailing star: from the grammar, by induction on the prefix.
C05 actions: the literal tail of a matching value is that of the pattern; conversely (`C05_exact`) a last segment with a parameter is matched with another action.
C06 segments: '/' are counted along the grammar.
C07 search: nested-inductive trie, `dfs` with early stop and oracle order; invariant "the rows are the last row per sequence of non-nil keys".
C08 first: `dfs` with `stop` against `dfs` without, by induction over the trie.
C09 loss: from C07 for one more row; fields of different kinds make the keys injective.
C10 order: from C07; survivors of a permutation are a permutation.
C11 default search: the filter function against the fields.
C12 Compact, C13 JoinSlices: induction over the slices.
C14 Intersection, Union: lists filtered by the texts of `Serialize`; when the texts separate, set operations.
C15 ds.Link: induction over the constructors.
C16 Has: heap of roles and groups, `has` by fuel; the answer against an inductive reachability relation, for every map order.
C17 termination of Has: well-founded descendants give fuel; a cycle runs out of every fuel.
C18 listings: the walk's result against the reachability relation; the group condition of `Has` gives the counterexample, and (`Props/Exact.lean`) exactly decides which listed permissions are granted.
C19 locked roles: each mutator's result and heap.
C20 frozen permissions: invariant over all histories of role calls for groups no other role shares; for shared groups, the attributes calls give to the group are collected along the history.
C21 AddPermissionsToRole: error cases in order, unchanged state, and the grant by C16.
C22 registries: history = list of registrations; first-wins specification.
C23 GetDescendants: the recursion against the transitive closure; returns exactly if the relation is well-founded below the tenant.
C24 implicit tenants, sound: loop invariant over the rows of the principal.
C25 implicit tenants, exact: the same when the flags of a tenant agree; two map orders otherwise.
C26 unknown ids, C34 incomplete requests: from the exact decision.
C27, C28 exact decision: world state, queries and caches; the branches of `Authorize` against a table of conditions on stored rows.
C29 tenants, C30 tenant-wide activities, C31 borrowed roles: corollaries of C27/C28, each with the state that violates the claim; for a principal without roles the rows that decide are exactly the borrowed ones.
C32 grants take effect: C27 after the grant, by cases on the cache; what is cached follows from the calls by induction: the tenants of the first look-up (`Props/GrantExact.lean`).
C33 repeatable: only caches change, and a filled cache fixes the implicit tenants.
C35 grant calls: errors in order, rows inserted as an explicit list.
C36 v1 codes: the stored text split at '_' gives the fields back; ids with '_' give collisions.
C37 v1 decisions: set of encoded assignments, one table of conditions per option shape. C38, C39: corollaries with violating states.
C40 v1 allowed roles: the loop over assignments against sets. C41, C42: activity decisions through C16 with the allow-list; C42_empty: the decision for the empty allow-list.
C43 v1 assignments: effect of each call on the set of texts; invariant over histories.
C44 acyclic graph: invariant over histories; C45 the check: depth-first search with explicit visited set against reachability.
C46 closure: breadth-first search with visited set; the result against reachability through registered roles.
C47 cache: entries never change once stored; decisions use them.
C48 removal: the compacting loop on a list of possibly-nil pointers, as an explicit list.
C49, C54 v2 decisions: resolution per tenant against a relation of applicable assignments, for every map order. C50, C52: corollaries; C52_ignored: with a named or default tenant the flag is never read.
C51 expiry: assignments expired before the call are dropped from the list without effect.
C53 more assignments: C49 before and after; C53_exact: when exactly the new one hides the others.
C55 traversal: the visited set bounds the recursion on every tenant graph.
C56 target tenants: the loop over assignments against a set, with `Nodup`.
C57 pool: interleaving state machine over a heap of shared maps; counterexample trace and quiescence theorem. Memory-level
races inside one Go map operation cannot be exhibited by the model.
C58 role permissions: set operations on the map of texts.
C59 audit log: the log of a call as a list; its last record and the number of decision records.
C60 expiry setters: effect of each call on the assignment, for every clock value.
C61 options: fold over the option list; "last of its kind" as a separate list function.
C62 queries: filter predicates over `Stored` rows, with `Nodup` from the trie refinement.
C63, C64 reports (`Model/Reports.lean`): maps of slices built by loops; membership and multiplicity by induction over the loops.
C65, C66 role mutators: effect of one call on the heap as "value kept, else first given"; attribute texts by splitting at a space; `C66_exact` says exactly which attributes share a text.
C67 texts and filters: decimal numerals are read back by a separate reader; filters as propositions over the fields.
C68 v1 getters: each getter against the rows of the log as propositions; "each tenant once" refuted, with the exact condition under which it holds in all orders.
C69 v1 implicit roles and descendants: the walk related to an inductive transitive relation; termination related to the absence of endless chains.
C70 v1 registries: as C22, over v1 histories.
C71 v1 setup: effect of one call on the heap of tenants and namespaces as "value kept, else first given" (or "last given" where the code overwrites).
C72 tenant setup: rows inserted as an explicit list, links as "value kept, else first given", default namespaces object by object.
C73 v2 setup: each changed object or map entry given explicitly, "nothing else" as equality of the state with the changed fields put back; index against list by induction over histories.
C74 v2 isolation: a relation between two states that agree on tenants, roles and a principal's assignments; equal decisions from the exactness theorems; preserved by every call about other principals, by induction over histories.
C75 Root isolation: the same with rows of the principal and of no principal; a grant to others inserts rows of others only, which leave its rows in place unless their keys clash.
C76 v1 isolation: the same with decoded rows; the principal decoded from a stored text is the assigned one or what precedes its first underscore, which gives the exact condition on other principals' ids.
C77 v1 pooled slices: backing arrays, pools and the local slices of a call as data; each append, Get and Put refines the list operation under the invariant that every array is in one place; frame for arrays not handed out; decisions by rewriting with the refinement.
C78 bulk calls (`Model/Bulk.lean`): loops of single calls; registry entries as "value kept, else first given"; summaries from C22 and C70; the JSON text of a summary is read back number by number.
C79 audit records (`Model/Audit.lean`): the argument list as a filter of the six fields; status texts by cases.
C80 `Serialize` on maps (`Model/Serialize.lean`): the sort result is any sorted permutation; uniqueness by antisymmetry of bytewise order; two integer keys as counterexample; `C80_exact`: unique exactly when entries with equal sort text commute as texts.
C81 granted stays granted: a growth relation (`Lemmas/Grow.lean`) for the role graph, the row log and the cached tenants, kept by every call; monotonicity of the exact decision of C26-C28.
C82 the same for v1: rows and registries grow, so the table of C37 is monotone; the allow-list is not, which gives the counterexample; it only restricts descendants, so what a role has itself is kept.
C83 v2 locks: every program holds at most one lock and releases it; progress by cases, termination by an ordinal measure (breadth-first loops lose unvisited names).
C84 v2 races: every access under the lock of its location, except the listed calls; schedules in which each of these races (the call goes to its access by itself, then somebody else to a change). `Status` counts as never written: no method sets it, but the field is exported.
C85 v2 resolutions under concurrency: an invariant over sets of known results that grows with the graph (Lemmas/V2Conc); under the lock a call knows the current graph; one concrete schedule for the violation.
C86 v2 graph under concurrency: the same rules with links and registrations as knowledge; the search under the lock is the sequential cycle check of C45.
C87 v2 one at a time: a goroutine inside its write lock sees the locations of that lock as if alone, so memory is simulated by the calls in the order of their unlocks; each uninterrupted program is the sequential model's call.
C88 trie insertions at once: the trie is a heap of nodes, each map access and field access one step; at every moment the rows reachable are those of the marks set so far in order, as long as no node is created twice. `C88_lost` builds the losing order for any two goroutines that next insert rows needing the same new node.
C89 searches among insertions: invariant relating a search's remaining work to the rows reachable; the three failures are concrete schedules; the first two are then shown for every trie, row and filter, by running a search alone against a half-done insertion.
C90 registrations at once: `Get` and `Set` are single steps; invariant that every registered or returned object was given under its id, and, if ids are apart, that a goroutine about to `Set` still sees nothing. The converse (`C90_exact`) runs two goroutines with conflicting first registrations up to their `Set`.
C91 grants at once: roles and groups are the sequential heap, each map access one step; invariant for one role and group that every goroutine inside a call works on the group the role has or will have; ownership of created groups for the converse. `C91_lost` builds the losing order for any two goroutines that grant in a group the role does not have.
C92 locking a role in use: from any situation in which nobody has passed the check, every call is refused at the check. A call past the check does not depend on the lock any more (relock), so it does all it would have done.
C93 concurrent calls end: accesses left of insertions and of changes of roles decrease; a search has the nodes below its front left, counted by a rank that decreases along edges; lexicographic, because an insertion adds nodes.
C94 v2 role setup: per call, the touched object and a frame; `lastNamed` is the last role passed under a name.
C95 v2 standing assignments: induction over the history from its end; an entry of the assignment list is old and not selected, or comes from the last call.
C96 v2 given permissions: every cached set belongs to the graph after some beginning of the history; every permission of a role object comes from AddPermission; `Can` with a role named "*" as counterexample.
C97 v1 answers: stack bounds of the roles asked (C17), the role lists always computed (C40) when tenants are registered; an unregistered tenant and a cycle of roles as counterexamples.
C98 v1 map orders: a simulation between states that differ in the order of the set of assignments, call by call; C37 and C41 describe answers by the set alone.
C99 access comes from grants: by induction over the history from its end, each call appends rows to the log and every row with a principal is one the call gives; C24 links a grant to a row.
C100 granted activities: the same for entries of groups (HOrigin): roles keep groups under their ids, and new entries are listed by the call.
C101 v1 assignments: every call appends to the log what it assigns (V1Op.Assigns, from C43); stored texts are encodings of logged tuples, and the first field of a text is the principal up to `_`.
C102 v1 activities: as C100, on the v1 calls.
C103 concurrent decisions: Model/AuthConc.lean; the invariant says that every goroutine is where the same call made alone would be, with the same set of tenants (`LoopAt`), because a subtree cached meanwhile has the same elements as one computed afresh.
C104 agreeing decisions: from C103, and C25 for the set; the counterexample is a schedule in the world of C25.
C105 v1 map without lock: accesses with a beginning and an end (`Model/V1Map.lean`); a goroutine that writes found its key missing, so the key was not stored at the start, and conversely it can be run alone up to its first write.
C106 AsString: a reader of the text that stops at the closing quote (`Reads`) gets back what `tells` says of a string; then values and rows by cancelling known prefixes; Lean's own UTF-8 encoder is the specification of UTF-8.
C107 ToInt64: the factor is odd, so each step is injective in the state; pigeonhole for the counterexample.
C108 trie races: a plain field is accessed by an insertion of its node's identity or by a search (invariant); conversely goroutine j runs alone up to the field, then i does.
C109 role races: `lock` is accessed by calls on its role; conversely each goroutine runs alone to the beginning of the call, as nobody blocks.
C110 managers: a simulation; the manager's view with the tenants of others blanked is the state of a single manager; each call on one's own tenants commutes with blanking, each other call leaves the blanked view or is a grant to a shared role. Managers made while the program runs (`Model/ManagersMade.lean`): making them earlier changes no returning run.
C111 tenants' managers: induction over the calls; the effect of each method on the world is classified (kept, registered, default set, grant).
C112 tenant calls at once: `Model/TenantConc.lean`, every field and map access one step; each call gets a point where it takes effect (the second read of the default namespace for a grant, the write of `manager` for AddTenant, the last lookup or write for AddDescendant); rows inserted and links made before, and rows and tenants still to come after it, are accounted for. No crash and recorded rows are checked along the steps of each call.
C113 races on tenants: `Model/TenantRace.lean`; every step of a call accesses fields its call may access (invariant of runs); conversely two calls are brought to the two accesses, after calls that make their checks pass.
C114 own tests and examples: the setups as histories of calls, one evaluation by the kernel in one order, carried to all orders and clocks by the determinacy theorems (C68, C74, C98) and, for `examples/main.go`, to all interleavings by the exact answers of C103.
C115 search order: which lists are walks of the trie; necessary by induction over the nodes, sufficient by building the map order node by node from the list. Specification: `Arranged`, two conditions on the keys of the rows of a list.
C116 dependence on map order: the first row of a tenant decides whether its descendants are included, for a given order; C115 says which rows can come first, one choice for all tenants at once; the least and the greatest set of tenants are each met by one order, which carries over to decisions.
C117 decisions during changes: `Model/AuthDuring.lean`; weakest preconditions over all later states, where later means that registries, rows, links and permissions only grow; `C117_alone` ties the steps to the sequential `Authorize`. The intended statement (one moment of the call gives the answer) fails by an older computation overwriting the cached tenants, and by replaced rows. `C117_depth` bounds the trie after every history by the number of fields, so `C117_alone` holds for every history (`C117_histories`).
C118 recovered panics: `Model/Recover.lean`, every call as a computation that ends (returns, panics, runs out of stack) and leaves a manager; every write before a panic is matched with a call of the sequential description that returns, so the invariant and the exact decisions carry over; then exactly what each call leaves. The two descriptions are proved to agree when calls return. `Props/RecoverWhen.lean` states for every call but `Authorize` exactly when it panics, by one lemma about loops. `Props/AuthorizeWhen.lean`: the exact panics of `Authorize`, from the totality lemmas of C27 and C28 and a walk through the fallback in which nothing can be granted.
C119 v2, recovered panics: `Model/V2Recover.lean`, the same for v2. The nil pointer that `AddPrincipalRole` leaves is an element `none` of `userRoles`; every decision walks through all of them, so a scan panics or never says yes. Proved to agree with the sequential description when calls return, and to panic in the same cases. `Props/V2RecoverWhen.lean` states for every call exactly when it panics.
C120 v1, recovered panics: `Model/V1Recover.lean`, the same for v1, where a tenant that was never registered has no manager and its assigning calls panic. Proved like C118; `AddScopesToNamespace` is the one call that changes something for an object and then panics on it, and C120_scope says exactly when and what. `Props/V1RecoverWhen.lean`: C120_when says of every call whose addresses lead to objects exactly when it panics, by a specification that mentions only pointers, registries, associations and locks; for Authorize it is C97_panics_exact, for every stack and map order.
C121 benchmarks: as C114, for the set-ups of test/permission_test.go and trie/trie_test.go (`Props/Bench.lean`).
C122 calls of `Has`: `Model/Cost.lean` is `has` with a counter; the descendants listed are counted by walks, and summing the recursive calls over that list doubles the weight of a walk with every link (`Lemmas/Cost.lean`). A chain gives the counterexample.
C123 repetitions: the same sums with the weight 1 for one object; tenants are read as roles with links only (`Props/Repeats.lean`).
C124 repetitions of permissions: the same sums as C122 with the weight "the role has the attribute"; a group lists an attribute once because attributes are stored under their own text.
C125 several v1 managers: a call runs on the manager it reaches and the shared objects; the invariant holds for the view of every manager because other calls only extend the objects, and `AddTenant` alone changes the manager of a tenant. The theorems about one manager then hold for each view.
C126 answers of other managers: what a decision reads is compared before and after a call; which tenants and namespaces a call can change is found per call, and for calls on roles C131 is used.
C127 several v2 authorizers: objects have no pointer to an authorizer, so a call on an object is the same for all and a call on an authorizer changes no object; the state of an authorizer is then, by induction over the history, that of one alone.
C128 equal registrations: a registration reads names of objects only, and no call changes them, so the registries are computed with the objects at the end of the history; then C47 for both.
C129 work of the matcher: every byte read is counted (`Model/MatchCost.lean`); both indices only grow, and a search for the byte after '*' that succeeds is never followed by a return.
C130 work of v2 decisions: `Model/V2Cost.lean` is the decision with counters; every tenant id is visited once, so the calls are paid by the child links of the tenants not yet visited.
C131 other roles and groups: the role with its descendants and their groups is closed, and a call that does not concern it leaves it alike up to locks, which no question reads; decisions ask registered roles only.
C132 trie search: `Model/TrieCost.lean` logs every call of the closure `dfs` (path of the node, row passed to the callback); each visit contributes a permutation of the nodes below, or stops with its last entry.
C133 searches per decision: `Model/AuthCost.lean` threads a counter through `Authorize`; each check costs a fixed number for the request, and the loop over tenants skips only a first tenant equal to the one asked for.
C134 hierarchy walks: `Model/TenantCost.lean` counts the calls of `Tenant.GetDescendants`; a listing takes one call for each walk (C123), the loop of `GetImplicitTenants` lists no tenant twice. Counterexample: complete order of n + 1 tenants, built by calls, 2^n walks.
C135-C138 taking away and giving more: one lemma (`Less`) for any two states and times of which one has no more tenants, assignments, live assignments, role permissions and roles below; then each change is shown to be of this kind. Counterexamples: a role for scope "s" that hides an unscoped one.
C139 durations: `Model/Duration.lean` models `time.ParseDuration`, which v2 hands its texts to; the grammar is stated separately in `Spec/Duration.lean` (terms, their worth, sums in 64 bits) and proved to be exactly what is read, by cutting the text into digits, fraction and unit. `Lemmas/Float64.lean` bounds the rounding errors (at most the 2^53th part per operation). Counterexample: "1d".
C140 memory kept: for any number of calls, by a quantity that no call increases: the size of a cache plus the most that entries for registered keys without one can still add. New entries are described by what they contain, independently of the cache (`Props/Memory.lean`, `Props/V2Memory.lean`).
C141 opaque ids: the model is followed function by function, from the renamed state (`Opaque.mgr`), each result being the renamed result; maps, trie and comparisons need only that different ids stay different. The empty texts `slices.Compact` leaves in the list of allowed roles would break it, but that list is always empty (C62).
C142 opaque ids in v2: as C141, with one renaming per kind and one more for the entries of the role cache: the identity for permissions, that of the roles for role names. A history with both kinds of decisions needs both at once, so role names must stay (`Props/V2Opaque.lean`).
C143 opaque ids in v1: as C141, one renaming per kind; the store of encoded assignments is not renamed text by text but rebuilt from the renamed log of assignments (`Opaque1.mgr`), which agrees with it as long as encoding can be undone, that is, without `_` (C36) (`Props/V1Opaque.lean`).
C144 repeated calls: for each call, what it leaves behind (a stored row, a registered id, a known descendant) makes a second run find nothing to do; loops keep what earlier turns left, as rows of one call with the same path are equal. The ghost log grows, so it is shown not to be read (`Props/Repeat.lean`).
C145 repeated calls in v1: as C144; a class of steps (`Fix`) that grow the state and change nothing in any state grown from their result is closed under sequence and loops. Calls that read back stored texts are done separately: what they add is read back with the role it was stored with. Counterexample: `AssignScopesToPrincipal` with a default namespace (`Props/V1Repeat.lean`).
C146 repeated calls in v2: each call but the two that append writes what a second one writes again; loops over lists of pointers become one list of writes that does not depend on the maps written. The decisions after the appending calls depend on the set of assignments and of links only (C49, C54). Counterexample: a child role linked twice counts as a cycle later (`Props/V2Repeat.lean`).
C147 earlier questions: every other call gives the same result whatever the caches hold and leaves them as they are, so leaving the questions out gives the same state with empty caches. The kept tenants are those of the first look-up (C32_kept); C24 and C116 in that state and C26-C28 in the present one give the decision (`Props/Asking.lean`).
C148 earlier decisions in v2: every other call gives the same result whatever the role cache and the log hold (`Ask2.op_lg`), and a decision changes nothing else. A kept set stays (C47_frozen), so it is what the first call that kept it computed, given by the exact result of that call's resolutions (`Props/V2Asking.lean`).
C149 order of grants: what a grant stores does not depend on the rows stored before (`GrantOrder.grant_gives`), so a permuted block stores permuted rows; without clashes the last row with a key is the only one, so the same rows are found, and a decision depends on those and the rest of the state only (`Props/GrantOrder.lean`).
C150 order of grants in v2: by induction over the block, its effect on links, permissions and assignments as sets (`GrantOrder2.block`); the sets of two orders are equal if the same links were accepted, and decisions depend on the sets only (C49, C54). Counterexample: two roles with a common child (`Props/V2GrantOrder.lean`).
C151 order of grants in v1: what such a grant stores does not depend on what was stored since the start of the block (`GrantOrder1.Det`, closed under sequence, loops and branches on the objects), so a permuted block stores the permuted list; the set of assignments is the same, and decisions depend on the set only (C98); for the other grants, what is stored depends as a set only on the assignments of the same principal (`GrantOrder1.Dep`), so neighbours for different principals can be exchanged (`Props/V1GrantOrder.lean`).
C152 taking back a grant in v2: the two calls are computed on the lists (`Undo2.assignment` by the shape of the list RemovePrincipalRole leaves, `Undo2.filters`, `Undo2.adds` for the permission sets), and the state is the old one iff nothing else was selected; decisions do not read the index (C49, C54) (`Props/V2Undo.lean`).
C153 granting again in v2: RemovePrincipalRole of the last assignments leaves the others (C48), AddPrincipalRole puts the selected ones back, so the same assignments are there, possibly in another order, which decisions do not see (C49, C54); permission sets are the same up to order, and `Fewer` (C146) holds in both directions (`Props/V2Regrant.lean`).
C154 setting up more in v2: such a call keeps assignments, roles and child links and, but for the two exceptions, every registered tenant and the place of the request in it (`Wider2.Wider`), and the exact decisions (C49, C54) are monotone in these (`Props/V2Wider.lean`).
C155 linking child tenants in v2: the call keeps all child links and adds some (`Link2.Linked`), so more tenants are covered; a grant is lost only through the preference of permissions for the requested scope (C49), as in C135 to C138 (`Props/V2Link.lean`).
C156 objects that are not registered in v2: such a call changes no object that is reached from the registries (`Aside2.Unseen`, an equivalence that keeps which objects those are), and the exact decisions (C49, C54) go by these only (`Props/V2Aside.lean`).
