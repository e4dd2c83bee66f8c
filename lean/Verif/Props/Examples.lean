import Verif.Props.V2Isolation
import Verif.Props.AuthConc
import Verif.Props.V1Orders
import Verif.Props.V1Getters

/-!
# The repository's own tests and examples (C114)

The setups of `examples/main.go`, `examples/trie.go`, `examples/v2.go`, `v1/permission_test.go` and `v2/v2_test.go` as histories of calls, and the
answers that these files expect (or, for `examples/v2.go`, print), for every iteration order of the maps, every clock, and whatever was asked before.
-/

namespace Verif
open Spec

/-! ## Package v2 -/

namespace V2
variable {w w' v v' : V2} {e e' : Env} {fuel fuel' : Nat} {site site' : List Val}

/-- Different tenants have different ids, assignments have no expiry and are not nil, and no permission has a '*'. -/
structure Plain (w : V2) : Prop where
  ids : (w.tobjs.map (·.id)).Nodup
  forever : ∀ u ∈ w.prs, u.expiry = none
  noNil : none ∉ w.userRoles
  perms : ∀ o ∈ w.dag.objs, ∀ x ∈ o.perms, 42 ∉ x
  fresh : w.dag.resolved = []

instance : Decidable (Plain w) :=
  decidable_of_iff ((w.tobjs.map (·.id)).Nodup ∧ (∀ u ∈ w.prs, u.expiry = none) ∧ none ∉ w.userRoles ∧
    (∀ o ∈ w.dag.objs, ∀ x ∈ o.perms, 42 ∉ x) ∧ w.dag.resolved = [])
    ⟨fun ⟨a, b, c, d, e⟩ => ⟨a, b, c, d, e⟩, fun ⟨a, b, c, d, e⟩ => ⟨a, b, c, d, e⟩⟩

theorem Plain.steady (h : Plain w) (e : Env) (now : Int) : Steady w e now := by
  rintro u ⟨i, _, hi⟩ s
  have := h.forever u (List.mem_of_getElem? hi)
  constructor <;> intro _ x hx <;> rw [this] at hx <;> cases hx

theorem Plain.twins (h : Plain w) (p : Str) (c : Nat) : NoTwins w p c := by
  refine noTwins_of_distinct (fun c1 c2 t1 t2 g1 g2 e => ?_) p c
  have k1 : (w.tobjs.map (·.id))[c1]? = some t1.id := by rw [List.getElem?_map, g1]; rfl
  have k2 : (w.tobjs.map (·.id))[c2]? = some t1.id := by rw [List.getElem?_map, g2, e]; rfl
  exact (List.getElem?_inj (List.getElem?_eq_some_iff.1 k1).1 h.ids).1 (k1.trans k2.symm)

theorem Plain.star (h : Plain w) {r x : Str} (g : RolePerm w.dag r x) : 42 ∉ x := by
  rcases g with ⟨s, hs, _⟩ | ⟨_, b, _, a, o, _, ho, hx⟩
  · rw [h.fresh] at hs; cases hs
  · exact h.perms o (List.mem_of_getElem? ho) x hx

/-- What earlier decisions leave as it was. -/
structure Asked (w v : V2) : Prop where
  inv : Inv v
  frame : Frame w v
  perms : SamePerms w v

theorem Asked.same (h : Asked w v) (p : Str) : SameFor p w v := by
  rw [h.frame]
  exact ⟨rfl, rfl, rfl, fun u _ => .rfl⟩

theorem asked_run (inv : Inv w) {before : List V2Op} (hb : ∀ op ∈ before, ∃ e fuel site r, op = .authorize e fuel site r)
    (h : V2Op.run w before = .ok v) : Asked w v := by
  refine Out.loop_inv (P := fun v : V2 => Asked w v) (fun v v' op hop hv hf => ?_) ⟨inv, .refl w, fun _ _ => .rfl⟩ h
  obtain ⟨e, fuel, site, r, rfl⟩ := hb op hop
  obtain ⟨⟨b, d⟩, h1, rfl⟩ := Out.map_eq_ok.1 hf
  have hr := authorize_run hv.inv h1
  exact ⟨hr.inv hv.inv, hv.frame.trans hr.frame, fun r x => (hv.perms r x).trans (hr.dag.res r x).symm⟩

/-- C114. With such tenants, assignments and permissions every request is answered, and the answer depends on the request alone:
not on the iteration order of maps, the clock, or the requests answered before. -/
theorem C114_v2_determined (inv : Inv w) (hp : Plain w) {r : Req2} {e0 : Env} {fuel0 : Nat} {site0 : List Val} {b : Bool} {w0 : V2}
    (h0 : w.authorize e0 fuel0 site0 r = .ok (b, w0)) {before : List V2Op}
    (hb : ∀ op ∈ before, ∃ e fuel site q, op = .authorize e fuel site q) (hv : V2Op.run w before = .ok v) :
    ∃ n, ∀ m ≥ n, ∀ e site, ∃ v', v.authorize e m site r = .ok (b, v') := by
  have ha := asked_run inv hb hv
  have hf := ha.frame
  have hnil : none ∉ v.userRoles := by rw [hf]; exact hp.noNil
  have hst : ∀ e now, Steady v e now := by
    intro e now u hu
    exact hp.steady e now u (by rw [hf] at hu; exact hu)
  obtain ⟨n, hn⟩ := C49_returns ha.inv hnil
  refine ⟨n, fun m hm e site => ?_⟩
  obtain ⟨b', v', h1⟩ := hn m hm e site r (fun c tid u x _ _ _ _ _ hx =>
    not_hangs_of_no_star (hp.star ((ha.perms _ _).2 hx)))
  have : b = b' := C74_authorize inv ha.inv (ha.same _) ha.perms (hp.steady e0 0) (hst e 0) (fun c _ => hp.twins _ c) h0 h1
  exact ⟨v', this ▸ h1⟩

/-- `setupAuthorizer` (v2/v2_test.go:126-144). -/
def testSetup : List V2Op := [.newRole (str "role1"), .addPermission 0 [⟨str "resourceA", str "GET", str "category1"⟩], .addRoles [0],
  .newTenant (str "tenant1") (some (str "coding")), .addScopes 0 (str "coding") [str "scope1"], .addTenant 0,
  .newPrincipalRole { principal := str "user1", tenant := str "tenant1", role := str "role1" }, .addPrincipalRole [0]]

/-- The requests of v2/v2_test.go:7-124 to that authorizer, with the answers that the tests expect. -/
def testRequests : List (Req2 × Bool) := [
  (⟨str "user1", str "tenant1", [], str "scope1", str "resourceA", str "GET"⟩, true),
  (⟨str "user2", str "childTenant1", [], str "scope1", str "resourceB", str "POST"⟩, false),
  (⟨str "user3", str "tenant2", [], [], str "resourceC", str "DELETE"⟩, false),
  (⟨str "user1", str "tenant1", [], str "scope2", str "resourceA", str "GET"⟩, false),
  (⟨str "user1", str "invalidTenant", [], str "scope1", str "resourceA", str "GET"⟩, false),
  (⟨str "user1", str "tenant1", [], str "nonexistentScope", str "resourceA", str "GET"⟩, false),
  (⟨str "user4", str "tenant3", [], str "scope1", str "resourceD", str "PATCH"⟩, false)]

/-- The setup of examples/v2.go:9-55; `AddChildRole` (line 24) comes before the roles are added. -/
def exampleSetup : List V2Op := [.newRole (str "Admin"),
  .addPermission 0 [⟨str "user/:id", str "create", str "backend"⟩, ⟨str "user", str "delete", str "backend"⟩],
  .newRole (str "Editor"), .addPermission 1 [⟨str "post", str "edit", str "backend"⟩, ⟨str "post", str "publish", str "backend"⟩],
  .addChildRole 9 (str "Admin") [str "Editor"], .addRoles [0, 1],
  .newTenant (str "tenant-a") (some (str "default-namespace")), .addNamespace 0 (str "marketing") false,
  .addNamespace 0 (str "engineering") false, .addTenant 0,
  .addScopes 0 (str "default-namespace") [str "default-scope"], .addScopes 0 (str "marketing") [str "campaign-management"],
  .newPrincipalRole { principal := str "user1", tenant := str "tenant-a", role := str "Admin", manage := true },
  .newPrincipalRole { principal := str "user2", tenant := str "tenant-a", namespace_ := str "marketing", scope := str "campaign-management",
                      role := str "Editor" },
  .addPrincipalRole [0, 1]]

/-- The five requests of examples/v2.go:57-93; the file states no expectation, these are the answers printed. -/
def exampleRequests : List (Req2 × Bool) := [
  (⟨str "user1", str "tenant-a", [], [], str "user/1", str "create"⟩, true),
  (⟨str "user2", str "tenant-a", str "marketing", str "campaign-management", str "post", str "publish"⟩, true),
  (⟨str "user2", str "tenant-a", str "engineering", str "engineering-scope", str "post", str "publish"⟩, false),
  (⟨str "user1", str "tenant-a", [], [], str "post", str "publish"⟩, true),
  (⟨str "user1", [], [], [], str "post", str "publish"⟩, true)]

/-- The answers of an authorizer after `setup`, in whatever order maps are iterated, whatever time it is, and whatever was asked before. -/
def Expects (setup : List V2Op) (rs : List (Req2 × Bool)) : Prop :=
  ∃ w, V2Op.run {} setup = .ok w ∧ ∀ before v, (∀ op ∈ before, ∃ e fuel site q, op = .authorize e fuel site q) →
    V2Op.run w before = .ok v → ∃ n, ∀ r ∈ rs, ∀ m ≥ n, ∀ e site, ∃ v', v.authorize e m site r.1 = .ok (r.2, v')

theorem expects_of_once {setup : List V2Op} {rs : List (Req2 × Bool)}
    (h : ∃ w, V2Op.run {} setup = .ok w ∧ Plain w ∧ ∀ r ∈ rs, (w.authorize exEnv 9 [] r.1).map (·.1) = .ok r.2) : Expects setup rs := by
  obtain ⟨w, h1, h2, h3⟩ := h
  have inv := reachable_inv (l := false) h1
  refine ⟨w, h1, fun before v hb hv => ?_⟩
  clear h1
  induction rs with
  | nil => exact ⟨0, fun r hr => by cases hr⟩
  | cons r rs ih =>
    obtain ⟨n1, k1⟩ := ih (fun q hq => h3 q (List.mem_cons_of_mem _ hq))
    obtain ⟨⟨b, w0⟩, g1, g2⟩ := Out.map_eq_ok.1 (h3 r List.mem_cons_self)
    obtain ⟨n2, k2⟩ := C114_v2_determined inv h2 g1 hb hv
    refine ⟨max n1 n2, fun q hq m hm e site => ?_⟩
    rcases List.mem_cons.1 hq with rfl | hq
    · obtain ⟨v', hv'⟩ := k2 m (by omega) e site
      exact ⟨v', by rw [hv']; exact congrArg (fun b => Out.ok (b, v')) g2⟩
    · exact k1 q hq m (by omega) e site

/-- C114. The tests of package v2 pass. -/
theorem C114_v2_tests : Expects testSetup testRequests := expects_of_once (Out.chk_ok (by decide +kernel))

/-- C114. The test with roles that would be circular asks an authorizer that nothing was added to (v2/v2_test.go:146-149). -/
theorem C114_v2_empty : Expects [] [(⟨str "user1", str "tenant1", [], str "scope1", str "resourceA", str "GET"⟩, false)] :=
  expects_of_once (Out.chk_ok (by decide +kernel))

/-- C114. What the example of package v2 prints: a child role named before the roles are added counts. -/
theorem C114_v2_example : Expects exampleSetup exampleRequests := expects_of_once (Out.chk_ok (by decide +kernel))

end V2

/-! ## Package v1 -/

/-- An attribute (v1/role.go:12-15, role.go:13-16). -/
def attr (r a : String) : Attr := ⟨str r, str a⟩

/-- `coderPermissions` (v1/permission_test.go:141-148, examples/main.go:71-78). -/
def coderAttrs : List Attr := [attr "/coding/:wid/:eid/start-coding" "POST", attr "/coding/:wid/open" "GET",
  attr "/coding/:wid/in-progress" "GET", attr "/coding/:wid/:eid/review" "POST"]

namespace V1
variable {w v : V1} {o : Ord} {site : List Val}

/-- The setup of `TestAuthorize` (v1/permission_test.go:33-55). -/
def authSetup (o : Ord) : List V1Op := [.role (.newGroup (str "backend")), .role (.addAttrs 0 coderAttrs), .addAttributeGroup 0,
  .role (.newRole (str "coder")), .addRole 0, .addPermissionsToRole (str "coder") (str "backend") coderAttrs,
  .newTenant (str "TenantA"), .addTenant 0, .newNamespace (str "NamespaceA"), .addNamespace 0, .tAddNamespace 0 [0], .tAddRole 0 [0],
  .addScope (str "29") 0, .tAddScopes 0 [(str "29", 0)], .addPrincipal (str "principalA") 0,
  .tAddPrincipal 0 (str "principalA") [str "coder"], .tAddPrincipalInNamespace o [] 0 (str "principalA") (str "NamespaceA") [],
  .tAssignScopesToPrincipal o [] 0 (str "principalA") [str "29"], .tAddScopesToNamespace 0 (str "NamespaceA") [str "29"]]

/-- `TestAllFunctions` up to the first question about the principal (v1/permission_test.go:65-112). -/
def allSetup : List V1Op := [.addAttribute (attr "/coding/:wid/:eid/start-coding" "POST") 0, .role (.newRole (str "coder")), .addRole 0,
  .role (.newGroup (str "backend")), .addAttributeGroup 0, .role (.addAttrs 0 [attr "/coding/:wid/:eid/start-coding" "POST"]),
  .addPermissionsToRole (str "coder") (str "backend") [attr "/coding/:wid/:eid/start-coding" "POST"],
  .newTenant (str "TenantA"), .addTenant 0, .newNamespace (str "NamespaceA"), .addNamespace 0, .tAddNamespace 0 [0], .tAddRole 0 [0],
  .addScope (str "29") 0, .addPrincipal (str "principalA") 0, .tAddPrincipal 0 (str "principalA") [str "coder"]]

/-- The rest of it (v1/permission_test.go:123-124). -/
def allMore (o : Ord) : List V1Op := [.tAddScopes 0 [(str "29", 0)], .tAssignScopesToPrincipal o [] 0 (str "principalA") [str "29"]]

/-- What is answered once without group and activity is answered so in every order. -/
theorem once_then_always {setup : Ord → List V1Op} (ha : ∀ o, List.Forall₂ V1Op.Alike (setup .fwd) (setup o)) {p : Str} {opts : List Opt} {b : Bool}
    (hr : ResourceRequest (requestOf opts)) (h : ∃ w, V1Op.run {} (setup .fwd) = .ok w ∧ w.authorize .fwd 9 [] p opts = .ok b) (o : Ord) :
    ∃ v, V1Op.run {} (setup o) = .ok v ∧ ∀ o' fuel site, v.authorize o' fuel site p opts = .ok b := by
  obtain ⟨w, h1, h2⟩ := h
  obtain ⟨v, k1, _⟩ := C98_decisions (o' := o) (fuel' := 0) (site' := []) (c := b) (ha o) h1 h2
  refine ⟨v, k1, fun o' fuel site => ?_⟩
  obtain ⟨c, hc⟩ := C37_returns (V1Op.reachable_inv k1) hr o' fuel site
  obtain ⟨v', k2, k3⟩ := C98_decisions (o' := o') (fuel' := fuel) (site' := site) (c := c) (ha o) h1 h2
  rw [k1] at k2; cases k2
  rw [hc, k3 hc]

/-- C114. `TestAuthorize` prints true (the test states no expectation), in whatever order maps are iterated during setup and decision. -/
theorem C114_v1_authorize (o : Ord) : ∃ v, V1Op.run {} (authSetup o) = .ok v ∧ ∀ o' fuel site,
    v.authorize o' fuel site (str "principalA") [.tenant (.str (str "TenantA")), .namespace_ (.str (str "NamespaceA")),
      .scope (.str (str "29"))] = .ok true :=
  once_then_always (setup := authSetup) (fun o => by
    unfold authSetup
    repeat' first | exact .refl _ | exact .scopes .. | exact .inNamespace .. | constructor)
    (by unfold ResourceRequest; decide) (Out.chk_ok (by decide +kernel)) o

/-- C114. The last expectation of `TestAllFunctions`. -/
theorem C114_v1_tenant (o : Ord) : ∃ v, V1Op.run {} (allSetup ++ allMore o) = .ok v ∧ ∀ o' fuel site,
    v.authorize o' fuel site (str "principalA") [.tenant (.str (str "TenantA"))] = .ok true :=
  once_then_always (setup := fun o => allSetup ++ allMore o) (fun o => by
    simp only [allSetup, allMore, List.cons_append, List.nil_append]
    repeat' first | exact .refl _ | exact .scopes .. | constructor)
    (by unfold ResourceRequest; decide) (Out.chk_ok (by decide +kernel)) o

/-- C114. `TestAllFunctions` finds the scope. -/
theorem C114_v1_scopes (o : Ord) : ∃ v, V1Op.run {} (allSetup ++ allMore o) = .ok v ∧ ∀ o' site,
    ∃ ss, v.scopesForPrincipal o' site (str "principalA") = .ok (some ss) ∧ str "29" ∈ ss := by
  have ha : List.Forall₂ V1Op.Alike (allSetup ++ allMore .fwd) (allSetup ++ allMore o) := by
    simp only [allSetup, allMore, List.cons_append, List.nil_append]
    repeat' first | exact .refl _ | exact .scopes .. | constructor
  obtain ⟨w, h1, h2⟩ := Out.chk_ok (x := V1Op.run {} (allSetup ++ allMore .fwd))
    (P := fun w => (w.scopesForPrincipal .fwd [] (str "principalA")).Chk fun r => str "29" ∈ r.getD []) (by decide +kernel)
  obtain ⟨r, h2, h3⟩ := Out.chk_ok h2
  have hs := C98_histories ha
  rw [h1] at hs
  cases hv : V1Op.run {} (allSetup ++ allMore o) with
  | panic => rw [hv] at hs; exact hs.elim
  | diverge => rw [hv] at hs; exact hs.elim
  | ok v =>
    rw [hv] at hs
    refine ⟨v, rfl, fun o' site => ?_⟩
    have inv := V1Op.reachable_inv h1
    by_cases hp : In w.principals (str "principalA")
    · obtain ⟨ss, k1, l, ⟨k2, _⟩, k3⟩ := (C68_scopes inv .fwd [] (str "principalA")).2 hp
      rw [h2] at k1; cases k1
      obtain ⟨x, hx, hx'⟩ := List.mem_map.1 (k3 ▸ h3)
      obtain ⟨ss', g1, l', ⟨g2, _⟩, g3⟩ := (C68_scopes (V1Op.reachable_inv hv) o' site (str "principalA")).2 (by rw [hs.rest]; exact hp)
      refine ⟨ss', g1, ?_⟩
      rw [g3]
      exact List.mem_map.2 ⟨x, (g2 x).2 (by rw [hs.rows]; exact (k2 x).1 hx), hx'⟩
    · rw [(C68_scopes inv .fwd [] (str "principalA")).1 hp] at h2
      cases h2; cases h3

/-- C114. The expectations of `TestNewAttribute`, `TestNewRole` and the first part of `TestAllFunctions`: ids and texts, the stored attribute, no error,
the namespace and role of the tenant, the role of the principal. -/
theorem C114_v1_all : ∃ w, V1Op.run {} allSetup = .ok w ∧
    (attr "/coding/:wid/:eid/start-coding" "POST").toStr = str "/coding/:wid/:eid/start-coding POST" ∧
    (w.heap.roles.map (·.id) = [str "coder"] ∧ w.heap.groups[0]?.map (·.id) = some (str "backend") ∧ w.tobjs.map (·.id) = [str "TenantA"]) ∧
    (∃ g, w.heap.groups[0]? = some g ∧ (g.perms.get (str "/coding/:wid/:eid/start-coding POST")).isSome) ∧
    ((V1Op.run {} (allSetup.take 6)).bind fun w => w.heap.addPermissionsToRole w.roles w.attrGroups (str "coder") (str "backend")
      [attr "/coding/:wid/:eid/start-coding" "POST"]).map (·.1) = .ok none ∧
    (∃ t, w.tobjs[0]? = some t ∧ (t.namespaces.get (str "NamespaceA")).isSome ∧ (t.roles.get (str "coder")).isSome) ∧
    ∀ o site, ∃ l, w.principalRoles o site (str "TenantA") (str "principalA") = .ok l ∧ ∃ x ∈ l, x.role = str "coder" := by
  obtain ⟨w, h1, h2, h3, h4, h5, h7, h8⟩ := Out.chk_ok (x := V1Op.run {} allSetup)
    (P := fun w => w.heap.roles.map (·.id) = [str "coder"] ∧ w.heap.groups[0]?.map (·.id) = some (str "backend") ∧ w.tobjs.map (·.id) = [str "TenantA"] ∧
      (w.heap.groups[0]?.any fun g => (g.perms.get (str "/coding/:wid/:eid/start-coding POST")).isSome) = true ∧
      (w.tobjs[0]?.any fun t => (t.namespaces.get (str "NamespaceA")).isSome && (t.roles.get (str "coder")).isSome) = true ∧
      (w.principalRoles .fwd [] (str "TenantA") (str "principalA")).Chk fun l => ∃ x ∈ l, x.role = str "coder") (by decide +kernel)
  refine ⟨w, h1, by decide, ⟨h2, h3, h4⟩, ?_, by decide +kernel, ?_, fun o site => ?_⟩
  · cases hg : w.heap.groups[0]? with
    | none => rw [hg] at h5; cases h5
    | some g => rw [hg] at h5; exact ⟨g, rfl, h5⟩
  · cases hg : w.tobjs[0]? with
    | none => rw [hg] at h7; cases h7
    | some g => rw [hg] at h7; exact ⟨g, rfl, by simpa using h7⟩
  · have inv := V1Op.reachable_inv h1
    obtain ⟨l, k1, k2, _⟩ := (C68_roles inv .fwd [] (str "TenantA") (str "principalA")).1
    obtain ⟨l', g1, g2, _⟩ := (C68_roles inv o site (str "TenantA") (str "principalA")).1
    obtain ⟨l0, e, x, hx, hx'⟩ := Out.chk_ok h8
    rw [k1] at e; cases e
    exact ⟨l', g1, x, (g2 x).2 ((k2 x).1 hx), hx'⟩

end V1

/-! ## Root package -/

namespace AC

/-- `v2qaPermissions` (examples/main.go:79-86). -/
def qaAttrs : List Attr := [attr "/coding/:wid/:eid/start-qa" "POST", attr "/coding/:wid/qa" "GET", attr "/coding/:wid/qa-in-progress" "GET",
  attr "/coding/:wid/:eid/qa-review" "POST"]

/-- `v2suspendManagerPermissions` (examples/main.go:88-94). -/
def suspendAttrs : List Attr := [attr "/coding/:wid/suspended" "GET", attr "/coding/:wid/:eid/release-suspend" "POST",
  attr "/coding/:wid/:eid/request-abandon" "POST"]

/-- `v2adminManagerPermissions` (examples/main.go:96-101). -/
def adminAttrs : List Attr := [attr "/admin/principal/add" "POST", attr "/admin/principal/edit" "PUT"]

/-- The setup of `mai1n` (examples/main.go:10-29), with `v2addAttributes` (131-141) and `v2myRoles` (103-129). `tenantChildren` is the call of
`GetDescendantTenant` that is printed (line 17); the tenant has one descendant, so that there is only one order. -/
def mainSetup : List MOp := [
  .role (.newGroup (str "backend")), .role (.addAttrs 0 (qaAttrs ++ coderAttrs ++ suspendAttrs)), .role (.newGroup (str "page")),
  .role (.addAttrs 1 adminAttrs), .addAttributeGroup 0, .addAttributeGroup 1,
  .newTenant (str "TenantA"), .addTenant 0, .newTenant (str "TenantB"), .addTenant 1, .addNamespace (str "NamespaceA") 0,
  .tAddNamespace 0 (str "NamespaceA"), .tAddDescendant 0 [1], .tenantChildren .fwd 3 [] (str "TenantA"),
  .role (.newRole (str "coder")), .addRole 0, .role (.newRole (str "qa")), .addRole 1, .role (.newRole (str "suspend-manager")), .addRole 2,
  .role (.newRole (str "admin")), .addRole 3,
  .addPermissionsToRole (str "coder") (str "backend") coderAttrs, .addPermissionsToRole (str "qa") (str "backend") qaAttrs,
  .addPermissionsToRole (str "suspend-manager") (str "backend") suspendAttrs, .addPermissionsToRole (str "admin") (str "page") adminAttrs,
  .role (.addDesc 3 [0, 1, 2]),
  .tAddRole 0 (str "coder"), .tAddRole 0 (str "qa"), .tAddRole 0 (str "suspend-manager"),
  .addScope (str "Entity29") 0, .addScope (str "Entity30") 1, .tAddScope 0 (str "Entity29"), .tAddScope 1 (str "Entity30"),
  .addPrincipal (str "principalA") 0, .tAddScopesToNamespace 0 (str "NamespaceA") (str "Entity29"),
  .tAddPrincipal 0 (str "principalA") true [str "coder"]]

/-- The manager after the setup. -/
def mainMgr : Mgr := match MOp.run {} mainSetup with
  | .ok w => w
  | _ => {}

theorem mainMgr_run : MOp.run {} mainSetup = .ok mainMgr := by
  have : ∃ w, MOp.run {} mainSetup = .ok w := Out.chk_ok (P := fun _ => True) (by decide +kernel) |>.imp fun _ h => h.1
  obtain ⟨w, hw⟩ := this
  unfold mainMgr
  rw [hw]

def onTenantOpt (s : String) : Opt := .tenant (.str (str s))
def onNsOpt (s : String) : Opt := .namespace_ (.str (str s))
def onScopeOpt (s : String) : Opt := .scope (.str (str s))
/-- The attribute group and activity of the requests. -/
def startCoding : List Opt := [.group (.str (str "backend")), .activity (.str (str "/coding/1/2/start-coding POST"))]

/-- The six requests of examples/main.go:30-67; all of them are expected to be granted. -/
def mainRequests : List (List Opt) := [
  [onTenantOpt "TenantA", onNsOpt "NamespaceA", onScopeOpt "Entity29"],
  [onTenantOpt "TenantA", onNsOpt "NamespaceA", onScopeOpt "Entity29"] ++ startCoding,
  [onTenantOpt "TenantA", onNsOpt "NamespaceA"] ++ startCoding,
  [onTenantOpt "TenantB", onNsOpt "NamespaceA", onScopeOpt "Entity29"],
  [onTenantOpt "TenantB", onNsOpt "NamespaceA", onScopeOpt "Entity29"] ++ startCoding,
  [onTenantOpt "TenantB", onNsOpt "NamespaceA", onScopeOpt "Entity30"] ++ startCoding]

def coderRow : Data := { tenant := .str (str "TenantA"), principal := .str (str "principalA"), role := .str (str "coder"), manage := .bool true }
def scopeRow : Data := { tenant := .str (str "TenantA"), namespace_ := .str (str "NamespaceA"), scope := .str (str "Entity29") }

theorem coderRow_stored : Stored mainMgr coderRow := by
  have : coderRow ∈ survivors (rowKey dataKeys) mainMgr.log := by decide +kernel
  exact this

theorem scopeRow_stored : Stored mainMgr scopeRow := by
  have : scopeRow ∈ survivors (rowKey dataKeys) mainMgr.log := by decide +kernel
  exact this

/-- The role coder may start coding. -/
theorem coder_starts : Granted mainMgr.heap [] (str "backend") (str "/coding/1/2/start-coding POST") 0 := by
  have h : (mainMgr.heap.roles[0]?.any fun ro => ro.perms.any fun e => e.1 == str "backend" &&
    (mainMgr.heap.groups[e.2]?.any fun g => g.perms.any fun k => k.1 == str "/coding/:wid/:eid/start-coding POST")) = true := by decide +kernel
  cases h1 : mainMgr.heap.roles[0]? with
  | none => rw [h1] at h; cases h
  | some ro =>
    rw [h1] at h
    obtain ⟨e, h2, h3⟩ := List.any_eq_true.1 h
    obtain ⟨h3, h4⟩ := Bool.and_eq_true_iff.1 h3
    cases h6 : mainMgr.heap.groups[e.2]? with
    | none => rw [h6] at h4; cases h4
    | some g =>
      rw [h6] at h4
      obtain ⟨k, h7, h8⟩ := List.any_eq_true.1 h4
      have hg : GroupOf mainMgr.heap 0 (str "backend") g := ⟨ro, e.2, h1, by rw [← eq_of_beq h3]; exact h2, h6⟩
      refine ⟨⟨g, hg⟩, .inl ⟨g, hg, k.1, k.2, h7, .inr ?_⟩⟩
      rw [eq_of_beq h8]
      exact (C02_param_language _ _ (by decide)).2.1 (by decide +kernel)

theorem roles_down {c d : Nat} (h : Child mainMgr.heap c d) : d < c := by
  obtain ⟨ro, k, h1, h2⟩ := h
  have key : ∀ x ∈ mainMgr.heap.roles.zipIdx, ∀ e ∈ x.1.desc, e.2 < x.2 := by decide +kernel
  exact key (ro, c) (List.mk_mem_zipIdx_iff_getElem?.2 h1) (k, d) h2

theorem tenants_up {c d : Nat} (h : TChild mainMgr.tobjs c d) : c < d ∧ d < 2 := by
  obtain ⟨ro, k, h1, h2⟩ := h
  have key : ∀ x ∈ mainMgr.tobjs.zipIdx, ∀ e ∈ x.1.desc, x.2 < e.2 ∧ e.2 < 2 := by decide +kernel
  exact key (ro, c) (List.mk_mem_zipIdx_iff_getElem?.2 h1) (k, d) h2

theorem main_returns {opts : List Opt} (ho : opts ∈ mainRequests) : Returns mainMgr (str "principalA") (requestOf opts) := by
  have hrows : ∀ row ∈ survivors (rowKey dataKeys) mainMgr.log, (∃ t, row.tenant = .str t) ∧ (row.role = .nil ∨ ∃ s, row.role = .str s) := by
    have : ∀ row ∈ survivors (rowKey dataKeys) mainMgr.log, (match row.tenant with | .str _ => true | _ => false) = true ∧
        (match row.role with | .str _ => true | .nil => true | _ => false) = true := by decide +kernel
    intro row hr
    obtain ⟨h1, h2⟩ := this row hr
    constructor
    · cases h : row.tenant with
      | str s => exact ⟨s, rfl⟩
      | _ => rw [h] at h1; cases h1
    · cases h : row.role with
      | str s => exact .inr ⟨s, rfl⟩
      | nil => exact .inl rfl
      | _ => rw [h] at h2; cases h2
  have hstars : ∀ g ∈ mainMgr.heap.groups, ∀ e ∈ g.perms, (42 : UInt8) ∉ e.1 := by decide +kernel
  have hstr : ∀ opts ∈ mainRequests, (∃ s, (requestOf opts).tenant = .str s) ∧ (∃ s, (requestOf opts).namespace_ = .str s) ∧
      ((requestOf opts).scope = .nil ∨ ∃ s, (requestOf opts).scope = .str s) ∧ ((requestOf opts).group = .nil ∨
        (requestOf opts).group = .str (str "backend") ∧ (requestOf opts).activity = .str (str "/coding/1/2/start-coding POST")) := by
    intro opts ho
    simp only [mainRequests, List.mem_cons, List.not_mem_nil, or_false] at ho
    rcases ho with rfl | rfl | rfl | rfl | rfl | rfl <;>
      exact ⟨⟨_, rfl⟩, ⟨_, rfl⟩, by first | exact .inl rfl | exact .inr ⟨_, rfl⟩, by first | exact .inl rfl | exact .inr ⟨rfl, rfl⟩⟩
  obtain ⟨s1, s2, s3, s4⟩ := hstr opts ho
  refine ⟨fun row hr _ _ => (hrows row hr).1, fun a c _ _ => ?_, .inr s1, .inr s2, s3, fun ha => ⟨fun row hr => (hrows row hr).2, ?_⟩⟩
  · have : WellFounded fun d c => TChild mainMgr.tobjs c d :=
      Subrelation.wf (fun h => by have := tenants_up h; show 2 - _ < 2 - _; omega) (measure fun d => 2 - d).wf
    exact this.apply c
  · rcases s4 with s4 | ⟨s4, s5⟩
    · exact absurd s4 ha.1
    · refine ⟨_, _, s4, s5, fun k a _ => ⟨?_, fun d _ gr ⟨ro, ga, _, _, hg⟩ e he => not_hangs_of_no_star (hstars gr (List.mem_of_getElem? hg) e he)⟩⟩
      have : WellFounded fun d c => Child mainMgr.heap c d := Subrelation.wf (fun h => roles_down h) Nat.lt_wfRel.wf
      exact this.apply a

theorem main_allowed {opts : List Opt} (ho : opts ∈ mainRequests) {I : List Str} (hI : str "TenantA" ∈ I) :
    Allowed mainMgr (str "principalA") (requestOf opts) I := by
  have hp : (str "principalA", 0) ∈ mainMgr.principals := by decide +kernel
  have ht : ∃ a b, (str "TenantA", a) ∈ mainMgr.tenants ∧ (str "TenantB", b) ∈ mainMgr.tenants := ⟨0, 1, by decide +kernel⟩
  have hn : (str "NamespaceA", 0) ∈ mainMgr.namespaces := by decide +kernel
  have hs : (str "Entity29", 0) ∈ mainMgr.scopes ∧ (str "Entity30", 1) ∈ mainMgr.scopes := by decide +kernel
  have hr : (str "coder", 0) ∈ mainMgr.roles := by decide +kernel
  obtain ⟨a, b, ha, hb⟩ := ht
  have scopd : ∀ t, Decides mainMgr (str "principalA") (.str (str "TenantA"))
      (requestOf [onTenantOpt t, onNsOpt "NamespaceA", onScopeOpt "Entity29"]) := fun t =>
    .inl ⟨fun h => h.1 rfl, .inr (.inr (.inr (.inl ⟨nofun, nofun, nofun, scopeRow, scopeRow_stored,
      rfl, rfl, .inr ⟨rfl, .inr rfl⟩⟩)))⟩
  have acts : ∀ t s, Decides mainMgr (str "principalA") (.str (str "TenantA"))
      (requestOf ([onTenantOpt t, onNsOpt "NamespaceA", onScopeOpt s] ++ startCoding)) := fun t s =>
    .inr ⟨_, _, rfl, rfl, coderRow, _, 0, coderRow_stored, .inr (.inr (.inl ⟨nofun, nofun, nofun,
      rfl, .inl rfl, .inl rfl, .inl rfl⟩)), rfl, hr, coder_starts⟩
  have act2 : Decides mainMgr (str "principalA") (.str (str "TenantA"))
      (requestOf ([onTenantOpt "TenantA", onNsOpt "NamespaceA"] ++ startCoding)) :=
    .inr ⟨_, _, rfl, rfl, coderRow, _, 0, coderRow_stored, .inl ⟨nofun, nofun, rfl, .inr ⟨rfl, rfl, rfl⟩⟩,
      rfl, hr, coder_starts⟩
  have ne : I ≠ [] := List.ne_nil_of_mem hI
  have kA : ∀ {s : String} {x : Nat} {m : GoMap Str Nat}, (str s, x) ∈ m → Spec.Known m (.str (str s)) := fun h => .inr ⟨_, _, rfl, h⟩
  simp only [mainRequests, List.mem_cons, List.not_mem_nil, or_false] at ho
  rcases ho with rfl | rfl | rfl | rfl | rfl | rfl
  · exact ⟨⟨_, hp⟩, ne, ⟨kA ha, kA hn, kA hs.1⟩, _, .inr ⟨_, hI, rfl⟩, scopd _⟩
  · exact ⟨⟨_, hp⟩, ne, ⟨kA ha, kA hn, kA hs.1⟩, _, .inr ⟨_, hI, rfl⟩, acts _ _⟩
  · exact ⟨⟨_, hp⟩, ne, ⟨kA ha, kA hn, .inl rfl⟩, _, .inr ⟨_, hI, rfl⟩, act2⟩
  · exact ⟨⟨_, hp⟩, ne, ⟨kA hb, kA hn, kA hs.1⟩, _, .inr ⟨_, hI, rfl⟩, scopd _⟩
  · exact ⟨⟨_, hp⟩, ne, ⟨kA hb, kA hn, kA hs.1⟩, _, .inr ⟨_, hI, rfl⟩, acts _ _⟩
  · exact ⟨⟨_, hp⟩, ne, ⟨kA hb, kA hn, kA hs.2⟩, _, .inr ⟨_, hI, rfl⟩, acts _ _⟩

/-- C114. The requests of `examples/main.go` are granted as the file expects, whatever other requests are made before them or by other goroutines
meanwhile, and in whatever order maps are iterated. -/
theorem C114_main_granted {fuel : Nat} {calls : List (List Call)} {is : List Nat} {c : Conf}
    (h : (Conf.start mainMgr calls).run fuel is = some c) {t : Thread} (ht : t ∈ c.ts) {k : Call} {b : Bool} (hk : (k, b) ∈ t.out)
    (hp : k.p = str "principalA") (ho : k.opts ∈ mainRequests) : b = true := by
  have inv := MOp.reachable_inv mainMgr_run
  have hm : Member mainMgr (str "principalA") (str "TenantA") := ⟨coderRow, coderRow_stored, rfl, rfl⟩
  rcases (C103_answers inv h ht hk).2 with ⟨h1, _⟩ | ⟨d, _, _, I, w', hI, hb⟩
  · exact absurd (hp ▸ (by decide +kernel : (str "principalA", 0) ∈ mainMgr.principals)) (h1 0)
  · rw [hp] at hI hb
    exact hb.2 (main_allowed ho ((C24_implicit_sound inv (by decide +kernel) hI).1 _ hm))

/-- C114. And they are answered: any number of goroutines making these requests get an answer to each, given enough stack and enough steps. -/
theorem C114_main_answered {calls : List (List Call)}
    (hc : ∀ k ∈ calls.flatten, k.p = str "principalA" ∧ k.opts ∈ mainRequests) :
    ∃ n, ∀ fuel ≥ n, ∀ is, ∃ c, (Conf.start mainMgr calls).run fuel is = some c ∧ ∀ i l, calls[i]? = some l →
      (l.map fun k => 2 * (rowsOf mainMgr k).length + 6).sum ≤ is.count i → ∃ t, c.ts[i]? = some t ∧ t.out = l.map fun k => (k, true) := by
  have inv := MOp.reachable_inv mainMgr_run
  obtain ⟨n, hn⟩ := C103_returns inv (calls := calls) (fun k hk => by rw [(hc k hk).1]; exact main_returns (hc k hk).2)
  refine ⟨n, fun fuel hf is => ?_⟩
  obtain ⟨c, h⟩ := hn fuel hf is
  refine ⟨c, h, fun i l hl hs => ?_⟩
  obtain ⟨t, ht, _, _, ho⟩ := C103_wait_free inv h hl hs
  refine ⟨t, ht, ?_⟩
  have hall : ∀ x ∈ t.out, x.2 = true := fun x hx => by
    have hm := (C103_answers inv h (List.mem_of_getElem? ht) (k := x.1) (b := x.2) hx).1
    exact C114_main_granted h (List.mem_of_getElem? ht) (k := x.1) (b := x.2) hx (hc _ hm).1 (hc _ hm).2
  rw [← ho, List.map_map]
  conv_lhs => rw [← List.map_id t.out]
  exact List.map_congr_left fun x hx => by
    obtain ⟨k, b⟩ := x
    have := hall _ hx
    simp only at this
    simp [this]

end AC

/-! ## The trie -/

/-- The rows of examples/trie.go:12-41, in the order in which they are inserted (lines 43-46). -/
def trieRows : List Data :=
  [⟨.str (str "tenant1"), .str (str "namespace1"), .str (str "scope1"), .str (str "principal1"), .str (str "role1"), .bool true⟩,
   ⟨.str (str "tenant2"), .str (str "namespace2"), .str (str "scope2"), .str (str "principal2"), .str (str "role2"), .bool false⟩,
   { tenant := .str (str "tenant1"), principal := .str (str "principal3") },
   ⟨.str (str "tenant2"), .str (str "namespace2"), .str (str "scope2"), .str (str "principal2"), .str (str "role1"), .bool false⟩]

/-- C114. The search of `examples/trie.go` finds the last of the four rows and nothing else. -/
theorem C114_trie : ∃ t, insertAll dataTrie (trieRows.map some) = .ok t ∧ ∀ o site,
    t.searchAll o site { tenant := .str (str "tenant2"), role := .str (str "role1") } =
      [⟨.str (str "tenant2"), .str (str "namespace2"), .str (str "scope2"), .str (str "principal2"), .str (str "role1"), .bool false⟩] := by
  obtain ⟨t, h⟩ := (C07_insert_total filterFunc dataKeys (trieRows.map some)).2 (by decide +kernel)
  refine ⟨t, h, fun o site => List.perm_singleton.1 ?_⟩
  refine (C07_search_default filterFunc dataKeys _ t h o site _).1.trans (List.Perm.of_eq ?_)
  decide +kernel

end Verif
