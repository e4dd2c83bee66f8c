import Verif.Props.V2Role

/-!
# Package v2: decisions (C49-C56, C59, C60)
-/

namespace Verif
open Spec
namespace V2
variable {w w' : V2} {e : Env} {fuel : Nat} {site : List Val}

/-! ## Example states -/

/-- Role "r" may read "x"; role "q" may read "y". -/
def exRoles : List V2Op := [.newRole (str "r"), .addPermission 0 [⟨str "x", str "read", []⟩],
  .newRole (str "q"), .addPermission 1 [⟨str "y", str "read", []⟩], .addRoles [0, 1]]

/-- Tenant "t" with default namespace "n" that has scope "s". -/
def exTenant : List V2Op := [.newTenant (str "t") (some (str "n")), .addScopes 0 (str "n") [str "s"], .addTenant 0]

/-- `p` has role "r" in tenant "t". -/
def exUser : List V2Op := [.newPrincipalRole { principal := str "p", tenant := str "t", role := str "r" }, .addPrincipalRole [0]]

/-- The clock stands at 100; maps are iterated in storage order. -/
def exEnv : Env := ⟨.fwd, fun _ => 100⟩

def exReq : Req2 := { principal := str "p", tenant := str "t", resource := str "x", action := str "read" }

/-! ## C49 -/

/-- C49. If tenant ids identify tenants (no two objects with one id are reached) and no assignment expires while
the call runs, `Authorize` answers exactly the specification. -/
theorem C49_exact_partial (inv : Inv w) {now : Int} (st : Steady w e now) {r : Req2}
    (tw : ∀ c, Target w r c → NoTwins w r.principal c) {b : Bool} (h : w.authorize e fuel site r = .ok (b, w')) :
    b = true ↔ Grants2 w now r := authorize_exact inv st tw h

/-- C49. With any clock and any tenant graph, a grant rests on an assignment that was live when it was read, in a
target tenant or a managed child of it, whose permission covers the request. -/
theorem C49_sound (inv : Inv w) {r : Req2} (h : w.authorize e fuel site r = .ok (true, w')) :
    ∃ c t ns tid u x s, Target w r c ∧ w.tobjs[c]? = some t ∧ Place t r ns ∧ Covers w r.principal c tid ∧
      Counts w r.principal ns tid (e.now s) u ∧ (u.scope = r.scope ∨ u.scope = []) ∧ RolePerm w.dag u.role x ∧ Permits x r :=
  authorize_sound inv h

/-- C49. A decision changes only the role cache and the log. -/
theorem C49_frame (inv : Inv w) {r : Req2} {b : Bool} (h : w.authorize e fuel site r = .ok (b, w')) :
    w' = { w with dag := { w.dag with resolved := w'.dag.resolved }, log := w'.log } := by
  have hr := authorize_run inv h
  obtain ⟨h1, h2, h3⟩ := hr.dag.same
  have : w'.dag = { w.dag with resolved := w'.dag.resolved } := by
    show w'.dag = ⟨w.dag.objs, w.dag.roles, w.dag.edges, w'.dag.resolved⟩
    rw [← h1, ← h2, ← h3]
  rw [← this]; exact hr.frame

/-- C49. `Authorize` returns when the assignment list has no nil entry and no permission in question makes the
matcher hang, with one bound for all requests, clocks and iteration orders. -/
theorem C49_returns (inv : Inv w) (hnil : none ∉ w.userRoles) : ∃ n, ∀ m ≥ n, ∀ e site r,
    (∀ c tid u x, Target w r c → Covers w r.principal c tid → Assigned w u → u.principal = r.principal →
      u.tenant = tid → RolePerm w.dag u.role x → ¬ Hangs x (r.resource ++ [32] ++ r.action)) →
    ∃ b w', w.authorize e m site r = .ok (b, w') :=
  ⟨w.needs, fun _ hm _ _ _ hp => authorize_total inv hnil hm hp⟩

/-- C49. Granted by an unscoped assignment, also for a scope of the namespace; denied for another resource. -/
example : ∃ w, V2Op.run {} (exRoles ++ exTenant ++ exUser) = .ok w ∧
    (w.authorize exEnv 9 [] exReq).map (·.1) = .ok true ∧
    (w.authorize exEnv 9 [] { exReq with scope := str "s" }).map (·.1) = .ok true ∧
    (w.authorize exEnv 9 [] { exReq with resource := str "y" }).map (·.1) = .ok false := Out.chk_ok (by decide +kernel)

theorem noTwins_of_distinct (h : ∀ (c1 c2 : Nat) (t1 t2 : T2), w.tobjs[c1]? = some t1 → w.tobjs[c2]? = some t2 → t1.id = t2.id → c1 = c2)
    (p : Str) (c : Nat) : NoTwins w p c := fun c1 c2 t1 t2 _ _ h1 h2 h3 => h c1 c2 t1 t2 h1 h2 h3

/-- C49. A clock that stands still is steady. -/
theorem steady_const {now : Int} (h : ∀ s, e.now s = now) : Steady w e now := fun u _ s => by rw [h]

/-- C49. The hypotheses of the exact theorem are met in a state that grants. -/
example : ∃ w, V2Op.run {} (exRoles ++ exTenant ++ exUser) = .ok w ∧ Inv w ∧ Steady w exEnv 100 ∧
    (∀ c, NoTwins w (str "p") c) ∧ Grants2 w 100 exReq := by
  obtain ⟨w, h, h1, h2⟩ := Out.chk_ok (x := V2Op.run {} (exRoles ++ exTenant ++ exUser))
    (P := fun w => ((w.authorize exEnv 9 [] exReq).Chk fun x => x.1 = true) ∧ w.tobjs.length = 1) (by decide +kernel)
  have inv := reachable_inv (l := false) h
  have st : Steady w exEnv 100 := steady_const fun _ => rfl
  have tw : ∀ c, NoTwins w (str "p") c := noTwins_of_distinct (fun c1 c2 t1 t2 g1 g2 _ => by
    have := (List.getElem?_eq_some_iff.1 g1).1
    have := (List.getElem?_eq_some_iff.1 g2).1
    omega) _
  obtain ⟨⟨b, w'⟩, h3, h4⟩ := Out.chk_ok h1
  exact ⟨w, h, inv, st, tw, (C49_exact_partial inv st (fun c _ => tw c) h3).1 h4⟩

/-- C49 as intended: the decision is exact on every tenant graph. -/
def C49_full : Prop := ∀ (l : Bool) ops w e fuel site r now b w', V2Op.run { logger := l } ops = .ok w → Steady w e now →
  w.authorize e fuel site r = .ok (b, w') → (b = true ↔ Grants2 w now r)

/-- Root "t" with children "x" and "y" that each have their own child object with id "a"; only the second has
the child "c", in which `p` has role "r".  `p` manages the children of all of them. -/
def exTwins : List V2Op := exRoles ++ [
  .newTenant (str "t") (some (str "n")), .newTenant (str "x") none, .newTenant (str "y") none,
  .newTenant (str "a") none, .newTenant (str "a") none, .newTenant (str "c") none,
  .addChildTenant 0 [1, 2], .addChildTenant 1 [3], .addChildTenant 2 [4], .addChildTenant 4 [5], .addTenant 0,
  .newPrincipalRole { principal := str "p", tenant := str "t", manage := true },
  .newPrincipalRole { principal := str "p", tenant := str "x", manage := true },
  .newPrincipalRole { principal := str "p", tenant := str "y", manage := true },
  .newPrincipalRole { principal := str "p", tenant := str "a", manage := true },
  .newPrincipalRole { principal := str "p", tenant := str "c", role := str "r" },
  .addPrincipalRole [0, 1, 2, 3, 4]]

/-- C49. With two tenant objects of one id the answer depends on the iteration order of the child map. -/
theorem C49_order_dependent : ∃ w, V2Op.run {} exTwins = .ok w ∧
    (w.authorize exEnv 9 [] exReq).map (·.1) = .ok false ∧
    (w.authorize { exEnv with o := .rev } 9 [] exReq).map (·.1) = .ok true := Out.chk_ok (by decide +kernel)

/-- C49. So exactness fails without the hypothesis on ids. -/
theorem C49_full_false : ¬ C49_full := by
  intro h
  obtain ⟨w, h1, h2, h3⟩ := C49_order_dependent
  obtain ⟨⟨b1, w1⟩, g1, g2⟩ := Out.map_eq_ok.1 h2
  obtain ⟨⟨b2, w2⟩, g3, g4⟩ := Out.map_eq_ok.1 h3
  simp only at g2 g4
  subst g2; subst g4
  have k1 := h false exTwins w exEnv 9 [] exReq 100 false w1 h1 (steady_const fun _ => rfl) g1
  have k2 := h false exTwins w { exEnv with o := .rev } 9 [] exReq 100 true w2 h1 (steady_const fun _ => rfl) g3
  exact Bool.false_ne_true (k1.2 (k2.1 rfl))

/-! ## C50 -/

/-- C50. An unknown tenant is denied at once, by both calls. -/
theorem C50_tenant {r : Req2} (roles : List Str) (hn : named w r ≠ []) (hu : ∀ c, (named w r, c) ∉ w.tenants) :
    w.authorize e fuel site r = .ok (false, w.logMsg r .invalidTenant) ∧
    w.can e fuel site r roles = .ok (false, w.logMsg r .invalidTenant) := by
  have hg : w.tenants.get (named w r) = none := by
    cases h : w.tenants.get (named w r) with
    | none => rfl
    | some c => exact absurd (GoMap.get_some_mem h) (hu c)
  have : w.findTargets e.o site r = .ok none := by
    unfold findTargets
    rw [named_eq]
    simp only [if_neg hn, hg]
  exact ⟨by rw [authorize_eq, this]; rfl, by rw [can_eq, this]; rfl⟩

/-- C50. No grant when namespace and scope of the request exist together in no target tenant. -/
theorem C50_place (inv : Inv w) {r : Req2} {b : Bool}
    (hp : ∀ c t ns, Target w r c → w.tobjs[c]? = some t → ¬ Place t r ns) :
    (w.authorize e fuel site r = .ok (b, w') → b = false) ∧ (∀ roles, w.can e fuel site r roles = .ok (b, w') → b = false) := by
  constructor
  · intro h
    cases b with
    | false => rfl
    | true =>
      obtain ⟨c, t, ns, _, _, _, _, h1, h2, h3, _⟩ := authorize_sound inv h
      exact absurd h3 (hp c t ns h1 h2)
  · intro roles h
    cases b with
    | false => rfl
    | true =>
      obtain ⟨c, t, ns, _, _, _, h1, h2, h3, _⟩ := can_sound inv h
      exact absurd h3 (hp c t ns h1 h2)

/-- C50. In particular an unknown namespace is denied. -/
theorem C50_namespace (inv : Inv w) {r : Req2} {b : Bool} (hn : r.namespace_ ≠ [])
    (hu : ∀ c t scs, Target w r c → w.tobjs[c]? = some t → (r.namespace_, scs) ∉ t.namespaces) :
    (w.authorize e fuel site r = .ok (b, w') → b = false) ∧ (∀ roles, w.can e fuel site r roles = .ok (b, w') → b = false) :=
  C50_place inv fun c t ns hc ht hp => by
    obtain ⟨h1, scs, h2, _⟩ := hp
    rcases h1 with ⟨_, rfl⟩ | ⟨h, _⟩ | ⟨h, _⟩
    · exact hu c t scs hc ht h2
    · exact hn h
    · exact hn h

/-- C50. In particular a scope that no namespace of a target tenant has is denied. -/
theorem C50_scope (inv : Inv w) {r : Req2} {b : Bool} (hn : r.scope ≠ [])
    (hu : ∀ c t ns scs, Target w r c → w.tobjs[c]? = some t → (ns, scs) ∈ t.namespaces → r.scope ∉ scs) :
    (w.authorize e fuel site r = .ok (b, w') → b = false) ∧ (∀ roles, w.can e fuel site r roles = .ok (b, w') → b = false) :=
  C50_place inv fun c t ns hc ht hp => by
    obtain ⟨_, scs, h2, h3⟩ := hp
    exact hu c t ns scs hc ht h2 (h3.resolve_left hn)

/-- C50. `p` is granted in "t", but not for an unknown tenant, namespace or scope. -/
example : ∃ w, V2Op.run {} (exRoles ++ exTenant ++ exUser) = .ok w ∧
    (w.authorize exEnv 9 [] exReq).map (·.1) = .ok true ∧ (w.can exEnv 9 [] exReq [str "r"]).map (·.1) = .ok true ∧
    (w.authorize exEnv 9 [] { exReq with tenant := str "u" }).map (·.1) = .ok false ∧
    (w.authorize exEnv 9 [] { exReq with namespace_ := str "m" }).map (·.1) = .ok false ∧
    (w.authorize exEnv 9 [] { exReq with scope := str "z" }).map (·.1) = .ok false ∧
    (w.can exEnv 9 [] { exReq with scope := str "z" } [str "r"]).map (·.1) = .ok false := Out.chk_ok (by decide +kernel)

/-! ## C51 -/

/-- Same principal, tenant and coverage, and either equal or both expired at `now`. -/
def AlikeAt (now : Int) (u v : PR) : Prop :=
  u.principal = v.principal ∧ u.tenant = v.tenant ∧ u.manage = v.manage ∧ (u = v ∨ (¬ Live u now ∧ ¬ Live v now))

/-- The states differ only in the role, scope, namespace and expiry time of expired assignments. -/
structure SameLive (now : Int) (w v : V2) : Prop where
  rest : v = { w with prs := v.prs }
  there : ∀ u, Assigned w u → ∃ u', Assigned v u' ∧ AlikeAt now u u'
  back : ∀ u, Assigned v u → ∃ u', Assigned w u' ∧ AlikeAt now u u'

theorem AlikeAt.symm {now : Int} {u v : PR} (h : AlikeAt now u v) : AlikeAt now v u :=
  ⟨h.1.symm, h.2.1.symm, h.2.2.1.symm, h.2.2.2.imp Eq.symm And.symm⟩

theorem AlikeAt.live {now : Int} {u v : PR} (h : AlikeAt now u v) (hu : Live u now) : u = v :=
  h.2.2.2.resolve_right fun g => g.1 hu

theorem SameLive.symm {now : Int} {w v : V2} (h : SameLive now w v) : SameLive now v w :=
  ⟨by rw [h.rest], h.back, h.there⟩

theorem SameLive.covers {now : Int} {w v : V2} (h : SameLive now w v) {p : Str} {c : Nat} {t : Str}
    (g : Covers w p c t) : Covers v p c t := by
  obtain ⟨c', t', h1, h2, h3⟩ := g
  have ht : v.tobjs = w.tobjs := by rw [h.rest]
  refine ⟨c', t', ?_, ht.symm ▸ h2, h3⟩
  clear h2 h3
  induction h1 with
  | self => exact .self
  | child _ g1 g2 g3 ih =>
    obtain ⟨u, k1, k2, k3, k4⟩ := g2
    obtain ⟨u', m1, m2⟩ := h.there u k1
    exact .child ih (ht.symm ▸ g1) ⟨u', m1, m2.1 ▸ k2, m2.2.1 ▸ k3, m2.2.2.1 ▸ k4⟩ g3

theorem SameLive.target {now : Int} {w v : V2} (h : SameLive now w v) {r : Req2} {c : Nat} (g : Target w r c) : Target v r c := by
  have ht : v.tobjs = w.tobjs := by rw [h.rest]
  have ht2 : v.tenants = w.tenants := by rw [h.rest]
  have hn : named v r = named w r := by unfold named; rw [h.rest]
  rcases g with ⟨g1, g2⟩ | ⟨g1, u, t, g2, g3, g4, g5, g6, g7⟩
  · exact .inl ⟨hn.symm ▸ g1, by rw [hn, ht2]; exact g2⟩
  · obtain ⟨u', m1, m2⟩ := h.there u g2
    exact .inr ⟨hn.trans g1, u', t, m1, m2.1 ▸ g3, m2.2.1 ▸ g4, by rw [ht2, ← m2.2.1]; exact g5, ht.symm ▸ g6, g7⟩

theorem SameLive.counts {now : Int} {w v : V2} (h : SameLive now w v) {p ns t : Str} {u : PR} (g : Counts w p ns t now u) :
    Counts v p ns t now u := by
  obtain ⟨g1, g2, g3, g4, g5⟩ := g
  obtain ⟨u', m1, m2⟩ := h.there u g1
  have := m2.live g4
  subst this
  exact ⟨m1, g2, g3, g4, g5⟩

theorem SameLive.scoped {now : Int} {w v : V2} (h : SameLive now w v) {r : Req2} {c : Nat} {ns x : Str}
    (g : ScopedPerm w now r c ns x) : ScopedPerm v now r c ns x := by
  obtain ⟨t, u, h1, h2, h3, h4⟩ := g
  exact ⟨t, u, h.covers h1, h.counts h2, h3, by rw [h.rest]; exact h4⟩

theorem SameLive.unscoped {now : Int} {w v : V2} (h : SameLive now w v) {r : Req2} {c : Nat} {ns x : Str}
    (g : UnscopedPerm w now r c ns x) : UnscopedPerm v now r c ns x := by
  obtain ⟨t, u, h1, h2, h3, h4⟩ := g
  exact ⟨t, u, h.covers h1, h.counts h2, h3, by rw [h.rest]; exact h4⟩

theorem SameLive.grants {now : Int} {w v : V2} (h : SameLive now w v) {r : Req2} (g : Grants2 w now r) : Grants2 v now r := by
  obtain ⟨c, t, ns, x, h1, h2, h3, h4, h5⟩ := g
  refine ⟨c, t, ns, x, h.target h1, by rw [h.rest]; exact h2, h3, ?_, h5⟩
  rcases h4 with h4 | ⟨h4, h6⟩
  · exact .inl (h.scoped h4)
  · exact .inr ⟨fun y hy => h4 y (h.symm.scoped hy), h.unscoped h6⟩

theorem SameLive.can {now : Int} {w v : V2} (h : SameLive now w v) {r : Req2} {roles : List Str} (g : Can2 w now r roles) :
    Can2 v now r roles := by
  obtain ⟨c, t, ns, x, h1, h2, h3, h4, t', u, h5, h6, h7, h8⟩ := g
  exact ⟨c, t, ns, x, h.target h1, by rw [h.rest]; exact h2, h3, h4, t', u, h.covers h5, h.counts h6, h7, by rw [h.rest]; exact h8⟩

/-- C51. Role, scope and namespace of expired assignments have no influence on the answers: two states that
differ only there give the same decisions. -/
theorem C51_no_influence {v v' : V2} {e' : Env} {now : Int} (inv : Inv w) (inv' : Inv v) (h : SameLive now w v)
    (st : Steady w e now) (st' : Steady v e' now) {r : Req2} (tw : ∀ c, Target w r c → NoTwins w r.principal c)
    (tw' : ∀ c, Target v r c → NoTwins v r.principal c) {b b' : Bool} :
    (w.authorize e fuel site r = .ok (b, w') → v.authorize e' fuel site r = .ok (b', v') → b = b') ∧
    ∀ roles, w.can e fuel site r roles = .ok (b, w') → v.can e' fuel site r roles = .ok (b', v') → b = b' := by
  constructor
  · intro h1 h2
    have k1 := authorize_exact inv st tw h1
    have k2 := authorize_exact inv' st' tw' h2
    rw [Bool.eq_iff_iff, k1, k2]
    exact ⟨h.grants, h.symm.grants⟩
  · intro roles h1 h2
    have k1 := can_exact inv st tw h1
    have k2 := can_exact inv' st' tw' h2
    rw [Bool.eq_iff_iff, k1, k2]
    exact ⟨h.can, h.symm.can⟩

/-- C51. A principal whose assignments are all expired gets nothing, whatever the clock does meanwhile. -/
theorem C51_all_expired (inv : Inv w) {r : Req2} {b : Bool}
    (hx : ∀ u, Assigned w u → u.principal = r.principal → ∀ s, ¬ Live u (e.now s)) :
    (w.authorize e fuel site r = .ok (b, w') → b = false) ∧ ∀ roles, w.can e fuel site r roles = .ok (b, w') → b = false := by
  constructor
  · intro h
    cases b with
    | false => rfl
    | true =>
      obtain ⟨c, t, ns, tid, u, x, s, _, _, _, _, h1, _⟩ := authorize_sound inv h
      exact absurd h1.2.2.2.1 (hx u h1.1 h1.2.1 s)
  · intro roles h
    cases b with
    | false => rfl
    | true =>
      obtain ⟨c, t, ns, tid, u, s, _, _, _, _, h1, _⟩ := can_sound inv h
      exact absurd h1.2.2.2.1 (hx u h1.1 h1.2.1 s)

/-- C51. Granted until the expiry time, denied after it. -/
example : ∃ w, V2Op.run {} (exRoles ++ exTenant ++ exUser ++ [.setExpiry 0 0 100]) = .ok w ∧
    (w.authorize exEnv 9 [] exReq).map (·.1) = .ok true ∧
    (w.authorize { exEnv with now := fun _ => 101 } 9 [] exReq).map (·.1) = .ok false ∧
    (w.can { exEnv with now := fun _ => 101 } 9 [] exReq [str "r"]).map (·.1) = .ok false := Out.chk_ok (by decide +kernel)

/-- C51. An expired assignment that covers child tenants still opens them: the permission of a child counts for a
request about the parent. -/
theorem C51_expired_manager : ∃ w, V2Op.run {} (exRoles ++ exTenant ++ [.newTenant (str "c") none, .addChildTenant 0 [1],
      .newPrincipalRole { principal := str "p", tenant := str "t", manage := true, expiry := some 5 },
      .newPrincipalRole { principal := str "p", tenant := str "c", role := str "r" }, .addPrincipalRole [0, 1]]) = .ok w ∧
    (w.authorize exEnv 9 [] exReq).map (·.1) = .ok true := Out.chk_ok (by decide +kernel)

/-! ## C52 -/

/-- C52 as intended: with inactive target tenants only, nothing is granted. -/
def C52_full : Prop := ∀ (l : Bool) ops w e fuel site r b w', V2Op.run { logger := l } ops = .ok w →
  (∀ (c : Nat) (t : T2), Target w r c → w.tobjs[c]? = some t → t.status ≠ 0) → w.authorize e fuel site r = .ok (b, w') → b = false

/-- C52. Named by the request or as default tenant, an inactive tenant is still used. -/
theorem C52_counterexample : ∃ w, V2Op.run {} (exRoles ++ exTenant ++ exUser ++ [.setStatus 0 1]) = .ok w ∧
    (w.authorize exEnv 9 [] exReq).map (·.1) = .ok true ∧
    (∀ c ∈ w.tenants, c.2 = 0) ∧ w.tobjs.map (·.status) = [1] := Out.chk_ok (by decide +kernel)

theorem C52_counterexample_default : ∃ w, V2Op.run {} (exRoles ++ exTenant ++ exUser ++ [.setStatus 0 1, .setDefaultTenant (str "t")]) = .ok w ∧
    (w.authorize exEnv 9 [] { exReq with tenant := [] }).map (·.1) = .ok true ∧
    w.tobjs.map (·.status) = [1] := Out.chk_ok (by decide +kernel)

/-- C52. So the intended property fails. -/
theorem C52_full_false : ¬ C52_full := by
  intro h
  obtain ⟨w, h1, h2, h3, h4⟩ := C52_counterexample
  obtain ⟨⟨b1, w1⟩, g1, g2⟩ := Out.map_eq_ok.1 h2
  simp only at g2; subst g2
  refine Bool.false_ne_true (h false _ w exEnv 9 [] exReq true w1 h1 (fun c t _ ht => ?_) g1).symm
  have : t.status ∈ w.tobjs.map (·.status) := List.mem_map.2 ⟨t, List.mem_of_getElem? ht, rfl⟩
  rw [h4, List.mem_singleton] at this
  omega

/-- C52. Without tenant in the request and without default tenant, every target tenant is active, so a grant goes
through an active tenant.  Missing: requests that name a tenant, a default tenant, and the child tenants visited
from the target (their status is never read). -/
theorem C52_partial (inv : Inv w) {r : Req2} (hn : named w r = []) :
    (w.authorize e fuel site r = .ok (true, w') → ∃ (c : Nat) (t : T2), Target w r c ∧ w.tobjs[c]? = some t ∧ t.status = 0) ∧
    (∀ roles, w.can e fuel site r roles = .ok (true, w') → ∃ (c : Nat) (t : T2), Target w r c ∧ w.tobjs[c]? = some t ∧ t.status = 0) ∧
    ∀ (c : Nat) (t : T2), Target w r c → w.tobjs[c]? = some t → t.status = 0 := by
  have key : ∀ (c : Nat) (t : T2), Target w r c → w.tobjs[c]? = some t → t.status = 0 := by
    rintro c t (⟨h, _⟩ | ⟨_, u, t', _, _, _, _, h1, h2⟩) ht
    · exact absurd hn h
    · rw [ht] at h1; cases h1; exact h2
  refine ⟨fun h => ?_, fun roles h => ?_, key⟩
  · obtain ⟨c, t, _, _, _, _, _, h1, h2, _⟩ := authorize_sound inv h
    exact ⟨c, t, h1, h2, key c t h1 h2⟩
  · obtain ⟨c, t, _, _, _, _, h1, h2, _⟩ := can_sound inv h
    exact ⟨c, t, h1, h2, key c t h1 h2⟩

/-- C52. Without tenant in the request: granted while active, denied when inactive. -/
example : (∃ w, V2Op.run {} (exRoles ++ exTenant ++ exUser) = .ok w ∧
      (w.authorize exEnv 9 [] { exReq with tenant := [] }).map (·.1) = .ok true) ∧
    (∃ w, V2Op.run {} (exRoles ++ exTenant ++ exUser ++ [.setStatus 0 1]) = .ok w ∧
      (w.authorize exEnv 9 [] { exReq with tenant := [] }).map (·.1) = .ok false) :=
  ⟨Out.chk_ok (by decide +kernel), Out.chk_ok (by decide +kernel)⟩

/-! ## C53 -/

/-- C53 as intended: a new assignment never takes access away. -/
def C53_full : Prop := ∀ (l : Bool) ops w v i e fuel site r w' b v', V2Op.run { logger := l } ops = .ok w →
  w.addPrincipalRole [i] = .ok v → w.authorize e fuel site r = .ok (true, w') → v.authorize e fuel site r = .ok (b, v') → b = true

/-- C53. One permission for the scope hides all unscoped ones. -/
theorem C53_counterexample : ∃ w, V2Op.run {} (exRoles ++ exTenant ++ exUser ++
      [.newPrincipalRole { principal := str "p", tenant := str "t", role := str "q", scope := str "s" }]) = .ok w ∧
    (w.authorize exEnv 9 [] { exReq with scope := str "s" }).map (·.1) = .ok true ∧
    ((w.addPrincipalRole [1]).bind fun v => (v.authorize exEnv 9 [] { exReq with scope := str "s" }).map (·.1)) = .ok false :=
  Out.chk_ok (by decide +kernel)

/-- C53. So the intended property fails. -/
theorem C53_full_false : ¬ C53_full := by
  intro h
  obtain ⟨w, h1, h2, h3⟩ := C53_counterexample
  obtain ⟨⟨b1, w1⟩, g1, g2⟩ := Out.map_eq_ok.1 h2
  obtain ⟨v, g3, g4⟩ := Out.bind_eq_ok.1 h3
  obtain ⟨⟨b2, w2⟩, g5, g6⟩ := Out.map_eq_ok.1 g4
  simp only at g2 g6; subst g2; subst g6
  exact Bool.false_ne_true (h false _ w v 1 exEnv 9 [] _ w1 false w2 h1 g3 g1 g5)

theorem add_one {i : Nat} {v : V2} (h : w.addPrincipalRole [i] = .ok v) : ∃ u, w.prs[i]? = some u ∧
    v.dag = w.dag ∧ v.tobjs = w.tobjs ∧ v.tenants = w.tenants ∧ v.defTenant = w.defTenant ∧
    ∀ x, Assigned v x ↔ Assigned w x ∨ x = u := by
  obtain ⟨v', h1, h2⟩ := Out.bind_eq_ok.1 h
  cases h2
  obtain ⟨u, h3, h4⟩ := Out.bind_eq_ok.1 h1
  obtain ⟨j, hj, hu⟩ := prAt_eq_ok.1 h3
  cases hj
  cases h4
  refine ⟨u, hu, rfl, rfl, rfl, rfl, fun x => ?_⟩
  unfold Assigned
  constructor
  · rintro ⟨k, g1, g2⟩
    rcases List.mem_append.1 g1 with g1 | g1
    · exact .inl ⟨k, g1, g2⟩
    · rw [List.mem_singleton] at g1; cases g1
      rw [show w.prs[i]? = some x from g2] at hu; cases hu; exact .inr rfl
  · rintro (⟨k, g1, g2⟩ | rfl)
    · exact ⟨k, List.mem_append_left _ g1, g2⟩
    · exact ⟨i, by simp, hu⟩

section grow
variable {v : V2} (hd : v.dag = w.dag) (ht : v.tobjs = w.tobjs) (hts : v.tenants = w.tenants) (hdef : v.defTenant = w.defTenant)
  (ha : ∀ x, Assigned w x → Assigned v x)
include ht ha

theorem managed_grow {p : Str} {c c' : Nat} (h : Managed w p c c') : Managed v p c c' := by
  induction h with
  | self => exact .self
  | child _ g1 g2 g3 ih =>
    obtain ⟨u, k1, k2⟩ := g2
    exact .child ih (ht.symm ▸ g1) ⟨u, ha u k1, k2⟩ g3

theorem covers_grow {p : Str} {c : Nat} {t : Str} (h : Covers w p c t) : Covers v p c t := by
  obtain ⟨c', t', h1, h2, h3⟩ := h
  exact ⟨c', t', managed_grow ht ha h1, ht.symm ▸ h2, h3⟩

theorem noTwins_shrink {p : Str} {c : Nat} (h : NoTwins v p c) : NoTwins w p c := fun c1 c2 t1 t2 h1 h2 h3 h4 =>
  h c1 c2 t1 t2 (managed_grow ht ha h1) (managed_grow ht ha h2) (ht.symm ▸ h3) (ht.symm ▸ h4)

include hd in
theorem scoped_grow {now : Int} {r : Req2} {c : Nat} {ns x : Str} (h : ScopedPerm w now r c ns x) : ScopedPerm v now r c ns x := by
  obtain ⟨t, u, h1, h2, h3, h4⟩ := h
  exact ⟨t, u, covers_grow ht ha h1, ⟨ha u h2.1, h2.2⟩, h3, hd.symm ▸ h4⟩

include hd in
theorem unscoped_grow {now : Int} {r : Req2} {c : Nat} {ns x : Str} (h : UnscopedPerm w now r c ns x) :
    UnscopedPerm v now r c ns x := by
  obtain ⟨t, u, h1, h2, h3, h4⟩ := h
  exact ⟨t, u, covers_grow ht ha h1, ⟨ha u h2.1, h2.2⟩, h3, hd.symm ▸ h4⟩

include hts hdef in
theorem target_grow {r : Req2} {c : Nat} (h : Target w r c) : Target v r c := by
  have hn : named v r = named w r := by unfold named; rw [hdef]
  rcases h with ⟨h1, h2⟩ | ⟨h1, u, t, h2, h3, h4, h5, h6, h7⟩
  · exact .inl ⟨hn.symm ▸ h1, by rw [hn, hts]; exact h2⟩
  · exact .inr ⟨hn.trans h1, u, t, ha u h2, h3, h4, hts.symm ▸ h5, ht.symm ▸ h6, h7⟩

end grow

/-- C53. A new assignment takes no access away if the request has no scope, or if the assignment neither is for
the requested scope nor covers child tenants, or if the target tenants already have a permission for the
requested scope.  Missing: the other assignments, see the counterexample. -/
theorem C53_partial (inv : Inv w) {i : Nat} {v : V2} (hv : w.addPrincipalRole [i] = .ok v) {u : PR} (hu : w.prs[i]? = some u)
    {now : Int} (st : Steady v e now) {r : Req2} (tw : ∀ c, Target v r c → NoTwins v r.principal c)
    (hs : r.scope = [] ∨ (u.scope ≠ r.scope ∧ u.manage = false) ∨
      ∀ c t ns, Target w r c → w.tobjs[c]? = some t → Place t r ns → ∃ y, ScopedPerm w now r c ns y)
    {fuel' : Nat} {site' : List Val} {v' : V2} {b : Bool} (h : w.authorize e fuel site r = .ok (true, w'))
    (h' : v.authorize e fuel' site' r = .ok (b, v')) : b = true := by
  obtain ⟨u0, g1, hd, ht, hts, hdef, hiff⟩ := add_one hv
  rw [hu] at g1; cases g1
  have ha : ∀ x, Assigned w x → Assigned v x := fun x hx => (hiff x).2 (.inl hx)
  have st' : Steady w e now := fun u hu => st u (ha u hu)
  have invv := inv_addPrincipalRole inv hv
  have tw' : ∀ c, Target w r c → NoTwins w r.principal c := fun c hc =>
    noTwins_shrink ht ha (tw c (target_grow ht hts hdef ha hc))
  rw [authorize_exact invv st tw h']
  have hg := (authorize_exact inv st' tw' h).1 rfl
  obtain ⟨c, t, ns, x, h1, h2, h3, h4, h5⟩ := hg
  refine ⟨c, t, ns, x, target_grow ht hts hdef ha h1, ht.symm ▸ h2, h3, ?_, h5⟩
  rcases h4 with h4 | ⟨h4, h6⟩
  · exact .inl (scoped_grow hd ht ha h4)
  · rcases hs with hs | ⟨hs1, hs2⟩ | hs
    · obtain ⟨t', u', g1, g2, g3, g4⟩ := h6
      exact absurd ⟨t', u', g1, g2, g3.trans hs.symm, g4⟩ (h4 x)
    · refine .inr ⟨fun y hy => ?_, unscoped_grow hd ht ha h6⟩
      have hm : ∀ p t, ManagesChildren v p t → ManagesChildren w p t := by
        rintro p t ⟨x, k1, k2, k3, k4⟩
        rcases (hiff x).1 k1 with k1 | rfl
        · exact ⟨x, k1, k2, k3, k4⟩
        · rw [hs2] at k4; cases k4
      have hM : ∀ p c c', Managed v p c c' → Managed w p c c' := by
        intro p c c' h
        induction h with
        | self => exact .self
        | child _ g1 g2 g3 ih => exact .child ih (ht ▸ g1) (hm _ _ g2) g3
      obtain ⟨t', u', ⟨c', t2, k1, k2, k3⟩, g2, g3, g4⟩ := hy
      rcases (hiff u').1 g2.1 with g5 | rfl
      · exact h4 y ⟨t', u', ⟨c', t2, hM _ _ _ k1, ht ▸ k2, k3⟩, ⟨g5, g2.2⟩, g3, hd ▸ g4⟩
      · exact hs1 g3
    · obtain ⟨y, hy⟩ := hs c t ns h1 h2 h3
      exact absurd hy (h4 y)

/-- C53. A second unscoped assignment keeps the access. -/
example : ∃ w, V2Op.run {} (exRoles ++ exTenant ++ exUser ++
      [.newPrincipalRole { principal := str "p", tenant := str "t", role := str "q" }]) = .ok w ∧
    (w.authorize exEnv 9 [] { exReq with scope := str "s" }).map (·.1) = .ok true ∧
    ((w.addPrincipalRole [1]).bind fun v => (v.authorize exEnv 9 [] { exReq with scope := str "s" }).map (·.1)) = .ok true :=
  Out.chk_ok (by decide +kernel)

/-! ## C54 -/

/-- C54. If tenant ids identify tenants and no assignment expires while the call runs, `Can` answers exactly the
specification: assignment scopes play no part. -/
theorem C54_exact_partial (inv : Inv w) {now : Int} (st : Steady w e now) {r : Req2} {roles : List Str}
    (tw : ∀ c, Target w r c → NoTwins w r.principal c) {b : Bool} (h : w.can e fuel site r roles = .ok (b, w')) :
    b = true ↔ Can2 w now r roles := can_exact inv st tw h

/-- C54. With any clock and any tenant graph, a grant rests on an assignment that was live when it was read. -/
theorem C54_sound (inv : Inv w) {r : Req2} {roles : List Str} (h : w.can e fuel site r roles = .ok (true, w')) :
    ∃ c t ns tid u s, Target w r c ∧ w.tobjs[c]? = some t ∧ Place t r ns ∧ Covers w r.principal c tid ∧
      Counts w r.principal ns tid (e.now s) u ∧ u.role ≠ [] ∧ ∃ x ∈ roles, x = u.role ∨ RoleBelow w.dag u.role x :=
  can_sound inv h

/-- C54 as intended: the answer is exact on every tenant graph. -/
def C54_full : Prop := ∀ (l : Bool) ops w e fuel site r roles now b w', V2Op.run { logger := l } ops = .ok w → Steady w e now →
  w.can e fuel site r roles = .ok (b, w') → (b = true ↔ Can2 w now r roles)

/-- C54. With two tenant objects of one id the answer depends on the iteration order of the child map. -/
theorem C54_order_dependent : ∃ w, V2Op.run {} exTwins = .ok w ∧
    (w.can exEnv 9 [] exReq [str "r"]).map (·.1) = .ok false ∧
    (w.can { exEnv with o := .rev } 9 [] exReq [str "r"]).map (·.1) = .ok true := Out.chk_ok (by decide +kernel)

theorem C54_full_false : ¬ C54_full := by
  intro h
  obtain ⟨w, h1, h2, h3⟩ := C54_order_dependent
  obtain ⟨⟨b1, w1⟩, g1, g2⟩ := Out.map_eq_ok.1 h2
  obtain ⟨⟨b2, w2⟩, g3, g4⟩ := Out.map_eq_ok.1 h3
  simp only at g2 g4
  subst g2; subst g4
  have k1 := h false exTwins w exEnv 9 [] exReq [str "r"] 100 false w1 h1 (steady_const fun _ => rfl) g1
  have k2 := h false exTwins w { exEnv with o := .rev } 9 [] exReq [str "r"] 100 true w2 h1 (steady_const fun _ => rfl) g3
  exact Bool.false_ne_true (k1.2 (k2.1 rfl))

/-- C54. A role held for scope "z" counts for a request about scope "s", and child roles count. -/
example : ∃ w, V2Op.run {} (exRoles ++ exTenant ++ [.addChildRole 9 (str "r") [str "q"],
      .newPrincipalRole { principal := str "p", tenant := str "t", role := str "r", scope := str "z" }, .addPrincipalRole [0]]) = .ok w ∧
    (w.can exEnv 9 [] { exReq with scope := str "s" } [str "q"]).map (·.1) = .ok true ∧
    (w.can exEnv 9 [] exReq [str "u"]).map (·.1) = .ok false := Out.chk_ok (by decide +kernel)

/-! ## C55 -/

/-- C55. Resolution returns on every tenant graph, with one bound for all principals, clocks and orders. -/
theorem C55_resolution (inv : Inv w) (hnil : none ∉ w.userRoles) : ∃ n, ∀ m ≥ n, ∀ e site p tid ns sc,
    (∃ y, w.resolvePerms e m site p tid ns sc = .ok y) ∧ (∃ y, w.resolveRoles e m site p tid ns = .ok y) :=
  ⟨w.needs, fun m hm e site p tid ns sc => by
    unfold needs at hm
    exact ⟨resolvePerms_total inv hnil (by omega) (by omega) .., resolveRoles_total inv hnil (by omega) (by omega) ..⟩⟩

/-- C55. With a nil entry it panics at once: it never runs for ever. -/
theorem C55_never_diverges (inv : Inv w) : ∃ n, ∀ m ≥ n, ∀ e site p tid ns sc,
    w.resolvePerms e m site p tid ns sc ≠ .diverge ∧ w.resolveRoles e m site p tid ns ≠ .diverge := by
  by_cases hnil : none ∈ w.userRoles
  · refine ⟨w.roleFuel, fun m hm e site p tid ns sc => ?_⟩
    by_cases ht : ∃ c, (tid, c) ∈ w.tenants
    · rw [resolvePerms_panic inv hnil hm ht, resolveRoles_panic inv hnil hm ht]; simp
    · have hg : w.tenants.get tid = none := by
        cases h : w.tenants.get tid with
        | none => rfl
        | some c => exact absurd ⟨c, GoMap.get_some_mem h⟩ ht
      unfold resolvePerms resolveRoles
      rw [hg]; simp
  · obtain ⟨n, hn⟩ := C55_resolution inv hnil
    refine ⟨n, fun m hm e site p tid ns sc => ?_⟩
    obtain ⟨⟨y, h1⟩, ⟨z, h2⟩⟩ := hn m hm e site p tid ns sc
    rw [h1, h2]; simp

/-- C55. `Can` returns for every request. -/
theorem C55_can (inv : Inv w) (hnil : none ∉ w.userRoles) : ∃ n, ∀ m ≥ n, ∀ e site r roles,
    ∃ b w', w.can e m site r roles = .ok (b, w') := ⟨w.needs, fun _ hm _ _ _ _ => can_total inv hnil hm⟩

/-- C55. Tenants "t" and "c" that are children of each other. -/
example : ∃ w, V2Op.run {} (exRoles ++ exTenant ++ [.newTenant (str "c") none, .addChildTenant 0 [1], .addChildTenant 1 [0],
      .newPrincipalRole { principal := str "p", tenant := str "t", manage := true },
      .newPrincipalRole { principal := str "p", tenant := str "c", role := str "r", manage := true }, .addPrincipalRole [0, 1]]) = .ok w ∧
    (w.authorize exEnv 9 [] exReq).map (·.1) = .ok true := Out.chk_ok (by decide +kernel)

/-! ## C56 -/

/-- C56. Without tenant and default, the target tenants are the registered active tenants in which the principal
has an assignment, each once, however many. -/
theorem C56_targets (inv : Inv w) {o : Ord} {r : Req2} (hr : r.tenant = []) (hd : w.defTenant = []) {ts : Option (List Nat)}
    (h : w.findTargets o site r = .ok ts) : ∃ cs, ts = some cs ∧ cs.Nodup ∧ ∀ c, c ∈ cs ↔
      ∃ u t, Assigned w u ∧ u.principal = r.principal ∧ u.tenant ≠ [] ∧ (u.tenant, c) ∈ w.tenants ∧ w.tobjs[c]? = some t ∧ t.status = 0 := by
  have hn : named w r = [] := by unfold named; rw [if_pos hr, hd]
  obtain ⟨k1, k2⟩ := findTargets_spec inv h
  cases ts with
  | none => exact absurd hn (k2.1 rfl).1
  | some cs =>
    obtain ⟨g1, g2⟩ := k1 cs rfl
    refine ⟨cs, rfl, g1, fun c => (g2 c).trans ?_⟩
    unfold Target
    simp [hn]

/-- C56. The targets are found whenever the assignment list has no nil entry. -/
theorem C56_total (inv : Inv w) (hnil : none ∉ w.userRoles) (o : Ord) (r : Req2) : ∃ ts, w.findTargets o site r = .ok ts :=
  findTargets_total inv hnil o r

/-- C56. Eleven tenants, one beyond the buffer. -/
example : ∃ w, V2Op.run {} ((List.range 11).flatMap fun i => [.newTenant [UInt8.ofNat i] none, .addTenant i,
      .newPrincipalRole { principal := str "p", tenant := [UInt8.ofNat i] }, .addPrincipalRole [i, i]]) = .ok w ∧
    w.findTargets .fwd [] { principal := str "p" } = .ok (some [0, 1, 2, 3, 4, 5, 6, 7, 8, 9, 10]) ∧
    w.findTargets .rev [] { principal := str "q" } = .ok (some []) := Out.chk_ok (by decide +kernel)

/-! ## C59 -/

/-- What a decision adds to the log: some notes about tenants without permissions (or roles), then one decision
record, which agrees with the answer. -/
def LogsDecision (w w' : V2) (r : Req2) (note : Msg) (b : Bool) : Prop :=
  (w.logger = false → w'.log = w.log) ∧ (w.logger = true → ∃ n m,
    w'.log = w.log ++ List.replicate n (r, note) ++ [(r, m)] ∧
    ((b = true ∧ m = .granted) ∨
     (b = false ∧ m = .invalidTenant ∧ n = 0 ∧ named w r ≠ [] ∧ ∀ c, (named w r, c) ∉ w.tenants) ∨
     (b = false ∧ m = .failed ∧ (named w r = [] ∨ ∃ c, (named w r, c) ∈ w.tenants))))

/-- C59. `Authorize`. -/
theorem C59_authorize (inv : Inv w) {r : Req2} {b : Bool} (h : w.authorize e fuel site r = .ok (b, w')) :
    LogsDecision w w' r .noPerms b := by
  rw [authorize_eq] at h
  exact decision_log inv (fun _ _ _ _ _ _ h => authBody_log h) h

/-- C59. `Can`. -/
theorem C59_can (inv : Inv w) {r : Req2} {roles : List Str} {b : Bool} (h : w.can e fuel site r roles = .ok (b, w')) :
    LogsDecision w w' r .noRoles b := by
  rw [can_eq] at h
  exact decision_log inv (fun _ _ _ _ _ _ h => canBody_log h) h

/-- C59. A grant, a denial without permissions and an unknown tenant. -/
example : ∃ w, V2Op.run { logger := true } (exRoles ++ exTenant ++ exUser ++ [.authorize exEnv 9 [] exReq,
      .authorize exEnv 9 [] { exReq with principal := str "q" }, .can exEnv 9 [] { exReq with tenant := str "u" } []]) = .ok w ∧
    w.log = [(exReq, .granted), ({ exReq with principal := str "q" }, .noPerms), ({ exReq with principal := str "q" }, .failed),
      ({ exReq with tenant := str "u" }, .invalidTenant)] := Out.chk_ok (by decide +kernel)

end V2

/-! ## C60 -/

/-- C60. `SetExpiry` fails exactly for times before now, and then changes nothing. -/
theorem C60_setExpiry_rejects (u : PR) (now x : Int) : ((u.setExpiry now x).1 = true ↔ x < now) ∧
    (x < now → (u.setExpiry now x).2 = u) := by
  unfold PR.setExpiry
  by_cases h : x < now <;> simp [h]

/-- C60. After a success the assignment is expired exactly after that time; nothing else changes. -/
theorem C60_setExpiry_accepts (u : PR) {now x : Int} (h : now ≤ x) : (u.setExpiry now x).1 = false ∧
    (∀ t, (u.setExpiry now x).2.expired t = true ↔ x < t) ∧
    { (u.setExpiry now x).2 with expiry := u.expiry } = u := by
  unfold PR.setExpiry
  rw [if_neg (by omega)]
  exact ⟨rfl, fun t => by simp [PR.expired], rfl⟩

/-- C60. `SetExpiryDuration` (which always reports success): a string that is no duration changes nothing; a duration
or the duration named by a string counts from now; any other argument sets the expiry to now. -/
theorem C60_setExpiryDuration (u : PR) (parse : Str → Option Int) (now : Int) :
    (∀ s, parse s = none → u.setExpiryDuration parse now (.str s) = u) ∧
    (∀ s d, parse s = some d → ∀ t, (u.setExpiryDuration parse now (.str s)).expired t = true ↔ now + d < t) ∧
    (∀ d t, (u.setExpiryDuration parse now (.dur d)).expired t = true ↔ now + d < t) ∧
    (∀ t, (u.setExpiryDuration parse now .other).expired t = true ↔ now < t) ∧
    ∀ a, { u.setExpiryDuration parse now a with expiry := u.expiry } = u := by
  refine ⟨fun s h => by simp [PR.setExpiryDuration, h], fun s d h t => by simp [PR.setExpiryDuration, h, PR.expired],
    fun d t => by simp [PR.setExpiryDuration, PR.expired], fun t => by simp [PR.setExpiryDuration, PR.expired], fun a => ?_⟩
  cases a with
  | str s => cases h : parse s <;> simp [PR.setExpiryDuration, h]
  | dur d => rfl
  | other => rfl

/-- C60. After `ClearExpiry`, and without expiry, an assignment never expires. -/
theorem C60_clear (u : PR) : (∀ t, u.clearExpiry.expired t = false) ∧ { u.clearExpiry with expiry := u.expiry } = u ∧
    (u.expiry = none → ∀ t, u.expired t = false) :=
  ⟨fun _ => rfl, rfl, fun h t => by simp [PR.expired, h]⟩

/-- C60. A negative duration is accepted and expires the assignment at once. -/
example : let u : PR := {}
    (u.setExpiry 10 9).1 = true ∧ (u.setExpiry 10 10).1 = false ∧ ((u.setExpiry 10 20).2.expired 20 = false) ∧
    ((u.setExpiry 10 20).2.expired 21 = true) ∧ (u.setExpiryDuration (fun _ => none) 10 (.dur (-5))).expired 10 = true := by decide

end Verif
