import Verif.Props.Examples

/-!
# The repository's own benchmarks (C121)

The set-ups of test/permission_test.go as histories of calls.  Each of the three benchmarks asks one request again and again and looks at no answer.
The request is meant to be the same in the three packages.
-/

namespace Verif
open Spec

/-! ## Package v2 -/

namespace V2

/-- `v2coderPermissions` (test/permission_test.go:57-64) and `NewRole`, `AddPermission`, `AddRole` of the four roles with `AddChildRole`
(test/permission_test.go:36-55; the other permissions in 66-88). -/
def benchRoles : List V2Op :=
  let perms (as : List Attr) : List Perm2 := as.map fun a => ⟨a.resource, a.action, str "backend"⟩
  [.newRole (str "coder"), .addPermission 0 (perms coderAttrs), .addRoles [0],
   .newRole (str "qa"), .addPermission 1 (perms AC.qaAttrs), .addRoles [1],
   .newRole (str "suspend-manager"), .addPermission 2 (perms AC.suspendAttrs), .addRoles [2],
   .newRole (str "admin"), .addPermission 3 (perms AC.adminAttrs), .addRoles [3],
   .addChildRole 9 (str "admin") [str "coder", str "qa", str "suspend-manager"]]

/-- The set-up of `BenchmarkV2` (test/permission_test.go:12-28).  `NewTenant` takes the default namespaces after the id and uses the first of them
only (v2/entities.go:78-81); the benchmark passes the id twice, so `firstA` and `firstB` are the ids of the tenants. -/
def benchSetup (firstA firstB : Str) : List V2Op :=
  [.newTenant (str "TenantA") (some firstA), .addScopes 0 (str "NamespaceA") [str "Entity29"],
   .newTenant (str "TenantB") (some firstB), .addScopes 1 (str "NamespaceA") [str "Entity30"], .addChildTenant 0 [1], .addTenant 0, .addTenant 1] ++
  benchRoles ++
  [.newPrincipalRole { principal := str "principalA", tenant := str "TenantA", role := str "coder" }, .addPrincipalRole [0]]

/-- test/permission_test.go:29. -/
def benchRequest : Req2 := ⟨str "principalA", str "TenantA", [], str "Entity29", str "/coding/1/2/start-coding", str "POST"⟩

/-- C121. `BenchmarkV2` asks a request that is refused every time: the scopes were never added, since the namespace is not there. -/
theorem C121_v2 : Expects (benchSetup (str "TenantA") (str "TenantB")) [(benchRequest, false)] ∧
    ∃ w, V2Op.run {} ((benchSetup (str "TenantA") (str "TenantB")).take 1) = .ok w ∧
      (w.tAddScope 0 (str "NamespaceA") [str "Entity29"]).map (·.1) = .ok true :=
  ⟨expects_of_once (Out.chk_ok (by decide +kernel)), Out.chk_ok (by decide +kernel)⟩

/-- C121. Without the second id it would be granted every time. -/
theorem C121_v2_meant : Expects (benchSetup (str "NamespaceA") (str "NamespaceA")) [(benchRequest, true)] :=
  expects_of_once (Out.chk_ok (by decide +kernel))

end V2

/-! ## Package v1 -/

namespace V1

/-- The set-up of `BenchmarkV1` (test/permission_test.go:114-131), with `addAttributes` (290-300) and `myRoles` (262-288). -/
def benchSetup (o : Ord) : List V1Op := [
  .role (.newGroup (str "backend")), .role (.addAttrs 0 (AC.qaAttrs ++ coderAttrs ++ AC.suspendAttrs)), .role (.newGroup (str "page")),
  .role (.addAttrs 1 AC.adminAttrs), .addAttributeGroup 0, .addAttributeGroup 1,
  .newTenant (str "TenantA"), .addTenant 0, .newTenant (str "TenantB"), .addTenant 1, .newNamespace (str "NamespaceA"), .addNamespace 0,
  .tAddNamespace 0 [0], .tAddDescendent 0 [1],
  .role (.newRole (str "coder")), .addRole 0, .role (.newRole (str "qa")), .addRole 1, .role (.newRole (str "suspend-manager")), .addRole 2,
  .role (.newRole (str "admin")), .addRole 3,
  .addPermissionsToRole (str "coder") (str "backend") coderAttrs, .addPermissionsToRole (str "qa") (str "backend") AC.qaAttrs,
  .addPermissionsToRole (str "suspend-manager") (str "backend") AC.suspendAttrs, .addPermissionsToRole (str "admin") (str "page") AC.adminAttrs,
  .role (.addDesc 3 [0, 1, 2]), .tAddRole 0 [0, 1, 2], .addScope (str "EntityA") 0, .tAddScopes 0 [(str "EntityA", 0)],
  .addPrincipal (str "principalA") 0, .tAddPrincipal 0 (str "principalA") [str "coder"],
  .tAssignScopesToPrincipal o [] 0 (str "principalA") [str "EntityA"]]

end V1

/-- The request of `BenchmarkV1` and `BenchmarkMain` (test/permission_test.go:219-227, 138-144). -/
def benchOpts : List Opt := [.tenant (.str (str "TenantA")), .namespace_ (.str (str "NamespaceA")), .scope (.str (str "EntityA"))]

namespace V1

/-- C121. `BenchmarkV1` asks a request that is refused every time, in whatever order maps are iterated. -/
theorem C121_v1 (o : Ord) : ∃ v, V1Op.run {} (benchSetup o) = .ok v ∧ ∀ o' fuel site, v.authorize o' fuel site (str "principalA") benchOpts = .ok false :=
  once_then_always (setup := benchSetup) (fun o => by
    unfold benchSetup
    repeat' first | exact .refl _ | exact .scopes .. | constructor)
    (by unfold ResourceRequest; decide) (Out.chk_ok (by decide +kernel)) o

/-- C121. With the scope added to the namespace too it would be granted every time. -/
theorem C121_v1_meant (o : Ord) : ∃ v, V1Op.run {} (benchSetup o ++ [.tAddScopesToNamespace 0 (str "NamespaceA") [str "EntityA"]]) = .ok v ∧
    ∀ o' fuel site, v.authorize o' fuel site (str "principalA") benchOpts = .ok true :=
  once_then_always (setup := fun o => benchSetup o ++ [.tAddScopesToNamespace 0 (str "NamespaceA") [str "EntityA"]]) (fun o => by
    simp only [benchSetup, List.cons_append, List.nil_append]
    repeat' first | exact .refl _ | exact .scopes .. | constructor)
    (by unfold ResourceRequest; decide) (Out.chk_ok (by decide +kernel)) o

end V1

/-! ## Root package -/

namespace AC

/-- The set-up of `BenchmarkMain` (test/permission_test.go:90-107), with `mainaddAttributes` (207-217) and `mainmyRoles` (179-205). -/
def benchSetup : List MOp := [
  .role (.newGroup (str "backend")), .role (.addAttrs 0 (qaAttrs ++ coderAttrs ++ suspendAttrs)), .role (.newGroup (str "page")),
  .role (.addAttrs 1 adminAttrs), .addAttributeGroup 0, .addAttributeGroup 1,
  .newTenant (str "TenantA"), .addTenant 0, .newTenant (str "TenantB"), .addTenant 1, .addNamespace (str "NamespaceA") 0,
  .tAddNamespace 0 (str "NamespaceA"), .tAddDescendant 0 [1],
  .role (.newRole (str "coder")), .addRole 0, .role (.newRole (str "qa")), .addRole 1, .role (.newRole (str "suspend-manager")), .addRole 2,
  .role (.newRole (str "admin")), .addRole 3,
  .addPermissionsToRole (str "coder") (str "backend") coderAttrs, .addPermissionsToRole (str "qa") (str "backend") qaAttrs,
  .addPermissionsToRole (str "suspend-manager") (str "backend") suspendAttrs, .addPermissionsToRole (str "admin") (str "page") adminAttrs,
  .role (.addDesc 3 [0, 1, 2]),
  .tAddRole 0 (str "coder"), .tAddRole 0 (str "qa"), .tAddRole 0 (str "suspend-manager"),
  .addScope (str "EntityA") 0, .tAddScope 0 (str "EntityA"), .addPrincipal (str "principalA") 0,
  .tAddPrincipal 0 (str "principalA") true [str "coder"], .tAssignScopes 0 (str "principalA") true [str "EntityA"]]

/-- The manager after the set-up. -/
def benchMgr : Mgr := match MOp.run {} benchSetup with
  | .ok w => w
  | _ => {}

theorem benchMgr_run : MOp.run {} benchSetup = .ok benchMgr := by
  have : ∃ w, MOp.run {} benchSetup = .ok w := Out.chk_ok (P := fun _ => True) (by decide +kernel) |>.imp fun _ h => h.1
  obtain ⟨w, hw⟩ := this
  unfold benchMgr
  rw [hw]

/-- The row written by `AssignScopesToPrincipal`. -/
def benchRow : Data := { tenant := .str (str "TenantA"), scope := .str (str "EntityA"), principal := .str (str "principalA"), manage := .bool true }

theorem benchRow_stored : Stored benchMgr benchRow := by
  have : benchRow ∈ survivors (rowKey dataKeys) benchMgr.log := by decide +kernel
  exact this

theorem bench_tenants {c d : Nat} (h : TChild benchMgr.tobjs c d) : c < d ∧ d < 2 := by
  obtain ⟨ro, k, h1, h2⟩ := h
  have key : ∀ x ∈ benchMgr.tobjs.zipIdx, ∀ e ∈ x.1.desc, x.2 < e.2 ∧ e.2 < 2 := by decide +kernel
  exact key (ro, c) (List.mk_mem_zipIdx_iff_getElem?.2 h1) (k, d) h2

theorem bench_returns : Returns benchMgr (str "principalA") (requestOf benchOpts) := by
  refine ⟨fun row hr _ _ => ?_, fun a c _ _ => ?_, .inr ⟨_, rfl⟩, .inr ⟨_, rfl⟩, .inr ⟨_, rfl⟩, fun ha => absurd rfl ha.1⟩
  · have : ∀ row ∈ survivors (rowKey dataKeys) benchMgr.log, (match row.tenant with | .str _ => true | _ => false) = true := by decide +kernel
    have h1 := this row hr
    cases h : row.tenant with
    | str s => exact ⟨s, rfl⟩
    | _ => rw [h] at h1; cases h1
  · have : WellFounded fun d c => TChild benchMgr.tobjs c d :=
      Subrelation.wf (fun h => by have := bench_tenants h; show 2 - _ < 2 - _; omega) (measure fun d => 2 - d).wf
    exact this.apply c

theorem bench_allowed {I : List Str} (hI : str "TenantA" ∈ I) : Allowed benchMgr (str "principalA") (requestOf benchOpts) I := by
  have hp : (str "principalA", 0) ∈ benchMgr.principals := by decide +kernel
  have ht : (str "TenantA", 0) ∈ benchMgr.tenants := by decide +kernel
  have hn : (str "NamespaceA", 0) ∈ benchMgr.namespaces := by decide +kernel
  have hs : (str "EntityA", 0) ∈ benchMgr.scopes := by decide +kernel
  have kA : ∀ {s : String} {x : Nat} {m : GoMap Str Nat}, (str s, x) ∈ m → Spec.Known m (.str (str s)) := fun h => .inr ⟨_, _, rfl, h⟩
  exact ⟨⟨_, hp⟩, List.ne_nil_of_mem hI, ⟨kA ht, kA hn, kA hs⟩, _, .inr ⟨_, hI, rfl⟩,
    .inl ⟨fun h => h.1 rfl, .inr (.inr (.inr (.inl ⟨nofun, nofun, nofun, benchRow, benchRow_stored, rfl, rfl, .inl rfl⟩)))⟩⟩

/-- C121. `BenchmarkMain` asks a request that is granted every time, by whatever number of goroutines and in whatever order maps are iterated. -/
theorem C121_main_granted {fuel : Nat} {calls : List (List Call)} {is : List Nat} {c : Conf}
    (h : (Conf.start benchMgr calls).run fuel is = some c) {t : Thread} (ht : t ∈ c.ts) {k : Call} {b : Bool} (hk : (k, b) ∈ t.out)
    (hp : k.p = str "principalA") (ho : k.opts = benchOpts) : b = true := by
  have inv := MOp.reachable_inv benchMgr_run
  have hm : Member benchMgr (str "principalA") (str "TenantA") := ⟨benchRow, benchRow_stored, rfl, rfl⟩
  rcases (C103_answers inv h ht hk).2 with ⟨h1, _⟩ | ⟨d, _, _, I, w', hI, hb⟩
  · exact absurd (hp ▸ (by decide +kernel : (str "principalA", 0) ∈ benchMgr.principals)) (h1 0)
  · rw [hp] at hI hb
    rw [ho] at hb
    exact hb.2 (bench_allowed ((C24_implicit_sound inv (by decide +kernel) hI).1 _ hm))

/-- C121. And it is answered. -/
theorem C121_main_answered {calls : List (List Call)}
    (hc : ∀ k ∈ calls.flatten, k.p = str "principalA" ∧ k.opts = benchOpts) :
    ∃ n, ∀ fuel ≥ n, ∀ is, ∃ c, (Conf.start benchMgr calls).run fuel is = some c ∧ ∀ i l, calls[i]? = some l →
      (l.map fun k => 2 * (rowsOf benchMgr k).length + 6).sum ≤ is.count i → ∃ t, c.ts[i]? = some t ∧ t.out = l.map fun k => (k, true) := by
  have inv := MOp.reachable_inv benchMgr_run
  obtain ⟨n, hn⟩ := C103_returns inv (calls := calls) (fun k hk => by rw [(hc k hk).1, (hc k hk).2]; exact bench_returns)
  refine ⟨n, fun fuel hf is => ?_⟩
  obtain ⟨c, h⟩ := hn fuel hf is
  refine ⟨c, h, fun i l hl hs => ?_⟩
  obtain ⟨t, ht, _, _, ho⟩ := C103_wait_free inv h hl hs
  refine ⟨t, ht, ?_⟩
  have hall : ∀ x ∈ t.out, x.2 = true := fun x hx => by
    have hm := (C103_answers inv h (List.mem_of_getElem? ht) (k := x.1) (b := x.2) hx).1
    exact C121_main_granted h (List.mem_of_getElem? ht) (k := x.1) (b := x.2) hx (hc _ hm).1 (hc _ hm).2
  rw [← ho, List.map_map]
  conv_lhs => rw [← List.map_id t.out]
  exact List.map_congr_left fun x hx => by
    obtain ⟨k, b⟩ := x
    have := hall _ hx
    simp only at this
    simp [this]

end AC

/-! ## The trie -/

theorem survivors_replicate {T : Type} (key : T → List Val) (x : T) (n : Nat) : survivors key (List.replicate (n + 1) x) = [x] := by
  induction n with
  | zero => rfl
  | succ n ih =>
    rw [List.replicate_succ]
    have : (List.replicate (n + 1) x).any (fun e => key e = key x) = true := by
      rw [List.any_eq_true]
      exact ⟨x, by simp, by simp⟩
    show (if (List.replicate (n + 1) x).any (fun e => key e = key x) = true then _ else _) = _
    rw [if_pos this, ih]

/-- C121. The benchmark of the trie (trie/trie_test.go:10-35): however often the row was inserted, the search finds it once.  Of a row, a map, only the
entry that is the key is kept here. -/
theorem C121_trie (n : Nat) (x q : Val) : ∃ t, insertAll (Trie.new (fun _ _ => true) fun v => some [v]) (List.replicate (n + 1) (some x)) = .ok t ∧
    ∀ o site, t.searchAll o site q = [x] := by
  obtain ⟨t, h⟩ := (C07_insert_total (fun _ _ : Val => true) (fun v => some [v]) (List.replicate (n + 1) (some x))).2 (by simp)
  refine ⟨t, h, fun o site => List.perm_singleton.1 ?_⟩
  refine (C07_search_default _ _ _ t h o site q).1.trans (List.Perm.of_eq ?_)
  have : (List.replicate (n + 1) (some x)).filterMap id = List.replicate (n + 1) x := by
    exact List.filterMap_replicate_of_some rfl
  rw [this, survivors_replicate]
  rfl

end Verif
