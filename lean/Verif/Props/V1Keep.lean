import Verif.Props.V1Setup

/-!
# v1: which granted requests stay granted (C82)

Nothing is ever removed in v1, so requests without an activity stay granted.  Requests with an activity can be denied
after a further assignment or registration, because the list of allowed roles is not monotone.
-/

namespace Verif
open Spec
namespace V1
variable {w w' v v' : V1} {o o' : Ord} {fuel fuel' : Nat} {site site' : List Val}

/-- C82 as intended: once a request is granted, it is granted after any calls whatsoever. -/
def C82_full : Prop := ∀ (ops ops' : List V1Op) (w v : V1) (p : Str) (opts : List Opt) (o o' : Ord) (fuel fuel' : Nat)
  (site site' : List Val) (b : Bool), V1Op.run {} ops = .ok w → w.authorize o fuel site p opts = .ok true →
  V1Op.run w ops' = .ok v → v.authorize o' fuel' site' p opts = .ok b → b = true

theorem run_row {ops : List V1Op} (inv : Inv w) (h : V1Op.run w ops = .ok v) {x : TP} (hx : Row w x) : Row v x := by
  obtain ⟨iv, e⟩ := V1Op.run_good h inv
  obtain ⟨t, h1, h2⟩ := hx
  obtain ⟨y, h3, h4⟩ := (inv.tps t).1 h1
  obtain ⟨L, hL⟩ := e.log
  exact ⟨t, (iv.tps t).2 ⟨y, by rw [hL]; exact List.mem_append_left _ h3, h4⟩, h2⟩

theorem run_in {ops : List V1Op} (inv : Inv w) (h : V1Op.run w ops = .ok v) (k : Kind) {id : Str} (hx : In (w.reg k) id) : In (v.reg k) id := by
  have : ((v.reg k).get id).isSome := by
    rw [C70_run inv h]
    have : ((w.reg k).get id).isSome := in_iff.2 hx
    rw [Option.isSome_iff_exists] at this
    obtain ⟨a, ha⟩ := this
    rw [ha]; rfl
  exact in_iff.1 this

theorem run_tenant {ops : List V1Op} (inv : Inv w) (h : V1Op.run w ops = .ok v) {id : Str} {t : T1Obj} (ht : TenantAt w id t) :
    ∃ t', TenantAt v id t' ∧ TExt t t' := by
  obtain ⟨iv, e⟩ := V1Op.run_good h inv
  obtain ⟨a, h1, h2⟩ := (tenantAt_iff inv).1 ht
  obtain ⟨t', h3, h4⟩ := e.ts a t h2
  refine ⟨t', (tenantAt_iff iv).2 ⟨a, ?_, h3⟩, h4⟩
  have := C70_run inv h .tenant id
  rw [show (w.reg .tenant).get id = some a from h1] at this
  exact this

/-- C82. A granted request without group and activity is granted after any calls whatsoever. -/
theorem C82_resources {ops : List V1Op} (inv : Inv w) {p : Str} {opts : List Opt} {b : Bool} (hr : ResourceRequest (requestOf opts))
    (h1 : w.authorize o fuel site p opts = .ok true) (h2 : V1Op.run w ops = .ok v)
    (h3 : v.authorize o' fuel' site' p opts = .ok b) : b = true := by
  have iv := (V1Op.run_good h2 inv).1
  obtain ⟨hp, hg⟩ := (C37_exact inv hr h1).1 rfl
  rw [C37_exact iv hr h3]
  refine ⟨run_in inv h2 .principal hp, ?_⟩
  have row : ∀ {x}, Row w x → Row v x := run_row inv h2
  rcases hg with ⟨s, g⟩ | ⟨s, x, t, g1, g2, g3, g4⟩ | ⟨s, x, t, g1, g2, g3, g4, g5⟩ | ⟨s, x, g1, g2⟩ | ⟨s, x, g1, g2⟩ |
    ⟨s, x, g1, g2⟩ | ⟨s, x, g1, g2⟩
  · exact .inl ⟨s, run_in inv h2 .tenant g⟩
  · obtain ⟨t', k1, k2⟩ := run_tenant inv h2 g3
    exact .inr (.inl ⟨s, x, t', row g1, g2, k1, k2.namespaces _ g4⟩)
  · obtain ⟨t', k1, k2⟩ := run_tenant inv h2 g3
    exact .inr (.inr (.inl ⟨s, x, t', row g1, g2, k1, k2.scopes _ g4, g5⟩))
  · exact .inr (.inr (.inr (.inl ⟨s, x, row g1, g2⟩)))
  · exact .inr (.inr (.inr (.inr (.inl ⟨s, x, row g1, g2⟩))))
  · exact .inr (.inr (.inr (.inr (.inr (.inl ⟨s, x, row g1, g2⟩)))))
  · exact .inr (.inr (.inr (.inr (.inr (.inr ⟨s, x, row g1, g2⟩)))))

/-- The allow-list in tenant `T` was not empty and lost nothing, or is empty, which permits everything (C42). -/
def AllowKept (w v : V1) (p T n s : Str) : Prop :=
  ∀ t t', TenantAt w T t → TenantAt v T t' →
    ((∃ id, AllowIn w t p T n s id) ∧ ∀ id, AllowIn w t p T n s id → AllowIn v t' p T n s id) ∨ ∀ id, ¬ AllowIn v t' p T n s id

theorem allow_list (w : V1) (t : T1Obj) (p T n s : Str) : ∃ L : List Str, ∀ id, id ∈ L ↔ AllowIn w t p T n s id := by
  classical
  refine ⟨(t.roles.map (·.1)).filter fun id => AllowIn w t p T n s id, fun id => ?_⟩
  simp only [List.mem_filter, decide_eq_true_eq, and_iff_right_iff_imp]
  rintro ⟨h1, h2⟩
  obtain ⟨a, ha⟩ := Classical.byContradiction fun k => h1 (.inr (.inr (.inr (.inr ⟨id, h2, k⟩))))
  exact List.mem_map_of_mem (f := (·.1)) ha

/-- C82. A granted request with a group or activity and a tenant is granted after any calls that keep the list of
allowed roles of the principal in the tenant.  Missing: calls that change the list (see the counterexamples), and
requests with nothing but an activity. -/
theorem C82_activity_partial {ops : List V1Op} (inv : Inv w) {p : Str} {opts : List Opt} {b : Bool} (hr : ¬ ResourceRequest (requestOf opts))
    (hs : ¬ Shape (requestOf opts) false false false false true)
    (h1 : w.authorize o fuel site p opts = .ok true) (h2 : V1Op.run w ops = .ok v)
    (hk : AllowKept w v p (toStr (requestOf opts).tenant) (toStr (requestOf opts).namespace_) (toStr (requestOf opts).scope))
    (h3 : v.authorize o' fuel' site' p opts = .ok b) : b = true := by
  obtain ⟨iv, ex⟩ := V1Op.run_good h2 inv
  obtain ⟨hp, hg⟩ := (C41_exact inv hr h1).1 rfl
  rw [C41_exact iv hr h3]
  refine ⟨run_in inv h2 .principal hp, .inr ⟨hs, ?_⟩⟩
  obtain ⟨t, g1, g2, g3, L, g4, x, a, ⟨g5, g6, g7⟩, g8, g9⟩ := (hg.resolve_left fun k => hs k.1).2
  obtain ⟨t', k1, k2⟩ := run_tenant inv h2 g1
  have hrole : (x.role, a) ∈ v.roles := by
    have := C70_run inv h2 .role x.role
    rw [show (w.reg .role).get x.role = some a from (GoMap.mem_iff_get inv.rolesWF).1 g8] at this
    exact GoMap.get_some_mem (m := v.roles) this
  obtain ⟨L', hL'⟩ := allow_list v t' p (toStr (requestOf opts).tenant) (toStr (requestOf opts).namespace_) (toStr (requestOf opts).scope)
  refine ⟨t', k1, fun h => k2.namespaces _ (g2 h), fun h => k2.scopes _ (g3 h), L', hL', x, a, ⟨run_row inv h2 g5, g6, g7⟩, hrole, ?_⟩
  obtain ⟨q1, q2⟩ := ex.heap.granted inv.heap g9
  refine ⟨q1, q2.imp id ?_⟩
  rintro ⟨d, dr, m1, m2, m3, m4⟩
  refine ⟨d, dr, m1, m2, ?_, m4⟩
  rcases hk t t' g1 k1 with ⟨⟨id, n1⟩, n2⟩ | n
  · have hne : L ≠ [] := List.ne_nil_of_mem ((g4 id).2 n1)
    exact .inr ((hL' _).2 (n2 _ ((g4 _).1 (m3.resolve_left hne))))
  · exact .inl (List.eq_nil_iff_forall_not_mem.2 fun id hid => n id ((hL' id).1 hid))

/-- C82. The roles whose own permissions grant the activity keep it granted: after any calls whatsoever, whatever the list of
allowed roles has become. Only inherited activities can be taken away. -/
theorem C82_own {ops : List V1Op} (inv : Inv w) {p : Str} {opts : List Opt} {b : Bool} (hr : ¬ ResourceRequest (requestOf opts))
    (hs : ¬ Shape (requestOf opts) false false false false true)
    (h1 : w.authorize o fuel site p opts = .ok true) {x : TP} {a : Nat} (hx : RowsOf w p (toStr (requestOf opts).tenant) x)
    (ha : (x.role, a) ∈ w.roles) (hg : OwnGrant w.heap a (toStr (requestOf opts).group) (toStr (requestOf opts).activity))
    (h2 : V1Op.run w ops = .ok v) (h3 : v.authorize o' fuel' site' p opts = .ok b) : b = true := by
  obtain ⟨iv, ex⟩ := V1Op.run_good h2 inv
  obtain ⟨hp, h⟩ := (C41_exact inv hr h1).1 rfl
  rw [C41_exact iv hr h3]
  refine ⟨run_in inv h2 .principal hp, .inr ⟨hs, ?_⟩⟩
  obtain ⟨t, g1, g2, g3, _⟩ := (h.resolve_left fun k => hs k.1).2
  obtain ⟨t', k1, k2⟩ := run_tenant inv h2 g1
  have hrole : (x.role, a) ∈ v.roles := by
    have := C70_run inv h2 .role x.role
    rw [show (w.reg .role).get x.role = some a from (GoMap.mem_iff_get inv.rolesWF).1 ha] at this
    exact GoMap.get_some_mem (m := v.roles) this
  obtain ⟨L', hL'⟩ := allow_list v t' p (toStr (requestOf opts).tenant) (toStr (requestOf opts).namespace_) (toStr (requestOf opts).scope)
  refine ⟨t', k1, fun h => k2.namespaces _ (g2 h), fun h => k2.scopes _ (g3 h), L', hL', x, a,
    ⟨run_row inv h2 hx.1, hx.2⟩, hrole, ?_⟩
  obtain ⟨g, hG, _⟩ := id hg
  exact ex.heap.granted inv.heap ⟨⟨g, hG⟩, .inl hg⟩

/-- C82. What must have happened when a granted request with a tenant and an activity is refused later: none of the roles of the
principal in the tenant had the activity itself, there is now a list of allowed roles, and before there was none or one with a
role that is not in the new one. -/
theorem C82_lost {ops : List V1Op} (inv : Inv w) {p : Str} {opts : List Opt} (hr : ¬ ResourceRequest (requestOf opts))
    (hs : ¬ Shape (requestOf opts) false false false false true)
    (h1 : w.authorize o fuel site p opts = .ok true) (h2 : V1Op.run w ops = .ok v)
    (h3 : v.authorize o' fuel' site' p opts = .ok false) :
    (∀ x a, RowsOf w p (toStr (requestOf opts).tenant) x → (x.role, a) ∈ w.roles →
      ¬ OwnGrant w.heap a (toStr (requestOf opts).group) (toStr (requestOf opts).activity)) ∧
    ∃ t t', TenantAt w (toStr (requestOf opts).tenant) t ∧ TenantAt v (toStr (requestOf opts).tenant) t' ∧
      (∃ id, AllowIn v t' p (toStr (requestOf opts).tenant) (toStr (requestOf opts).namespace_) (toStr (requestOf opts).scope) id) ∧
      ((∀ id, ¬ AllowIn w t p (toStr (requestOf opts).tenant) (toStr (requestOf opts).namespace_) (toStr (requestOf opts).scope) id) ∨
       ∃ id, AllowIn w t p (toStr (requestOf opts).tenant) (toStr (requestOf opts).namespace_) (toStr (requestOf opts).scope) id ∧
        ¬ AllowIn v t' p (toStr (requestOf opts).tenant) (toStr (requestOf opts).namespace_) (toStr (requestOf opts).scope) id) := by
  refine ⟨fun x a hx ha hg => (by cases C82_own inv hr hs h1 hx ha hg h2 h3), Classical.byContradiction fun hn => ?_⟩
  have kept : AllowKept w v p (toStr (requestOf opts).tenant) (toStr (requestOf opts).namespace_) (toStr (requestOf opts).scope) := by
    refine fun t t' ht ht' => Classical.byContradiction fun hk => hn ?_
    rw [not_or] at hk
    obtain ⟨k1, k2⟩ := hk
    refine ⟨t, t', ht, ht', Classical.byContradiction fun h => k2 fun id hid => h ⟨id, hid⟩, ?_⟩
    by_cases hx : ∃ id, AllowIn w t p (toStr (requestOf opts).tenant) (toStr (requestOf opts).namespace_) (toStr (requestOf opts).scope) id
    · exact .inr (Classical.byContradiction fun h => k1 ⟨hx, fun id hid => Classical.byContradiction fun h' => h ⟨id, hid, h'⟩⟩)
    · exact .inl fun id hid => hx ⟨id, hid⟩
  cases C82_activity_partial inv hr hs h1 h2 kept h3

/-- C82. A granted request with nothing but an activity is granted after any calls that take no role off the lists of allowed
roles of the principal in its tenants. -/
theorem C82_activity_only_partial {ops : List V1Op} (inv : Inv w) {p : Str} {opts : List Opt} {b : Bool}
    (hs : Shape (requestOf opts) false false false false true)
    (h1 : w.authorize o fuel site p opts = .ok true) (h2 : V1Op.run w ops = .ok v)
    (hk : ∀ T t t' id, TenantAt w T t → TenantAt v T t' → AllowIn w t p T [] [] id → AllowIn v t' p T [] [] id)
    (h3 : v.authorize o' fuel' site' p opts = .ok b) : b = true := by
  classical
  have hr : ¬ ResourceRequest (requestOf opts) := by
    unfold ResourceRequest
    unfold Shape at hs
    simp only [Bool.false_eq_true, iff_false, iff_true, Classical.not_not, ne_eq] at hs
    rintro ⟨_, h, _⟩
    exact hs.2.2.2.2 h
  obtain ⟨iv, ex⟩ := V1Op.run_good h2 inv
  obtain ⟨hp, h⟩ := (C41_exact inv hr h1).1 rfl
  obtain ⟨_, L, hL, id, hid, a, ha, hg⟩ := h.resolve_right fun k => k.1 hs
  rw [C41_exact iv hr h3]
  refine ⟨run_in inv h2 .principal hp, .inl ⟨hs, ?_⟩⟩
  let P : Str → Prop := fun id => ∃ T t, (∃ x, RowsOf v p T x) ∧ TenantAt v T t ∧ AllowIn v t p T [] [] id
  have hsub : ∀ id ∈ L, P id := by
    intro id h
    obtain ⟨T, t, ⟨x, r1, r2⟩, g1, g2⟩ := (hL id).1 h
    obtain ⟨t', k1, _⟩ := run_tenant inv h2 g1
    exact ⟨T, t', ⟨x, run_row inv h2 r1, r2⟩, k1, hk T t t' id g1 k1 g2⟩
  refine ⟨(v.tobjs.flatMap fun t => t.roles.map (·.1)).filter fun id => P id, fun id => ?_, id, ?_, a, ?_, ?_⟩
  · simp only [List.mem_filter, decide_eq_true_eq]
    refine ⟨fun h => h.2, fun h => ⟨?_, h⟩⟩
    obtain ⟨T, t, _, g1, q1, q2⟩ := h
    obtain ⟨b, hb⟩ := Classical.byContradiction fun k => q1 (.inr (.inr (.inr (.inr ⟨id, q2, k⟩))))
    obtain ⟨c, _, hc⟩ := (tenantAt_iff iv).1 g1
    exact List.mem_flatMap.2 ⟨t, List.mem_of_getElem? hc, List.mem_map_of_mem (f := (·.1)) hb⟩
  · simp only [List.mem_filter, decide_eq_true_eq]
    refine ⟨?_, hsub id hid⟩
    obtain ⟨T, t, _, g1, q1, q2⟩ := hsub id hid
    obtain ⟨b, hb⟩ := Classical.byContradiction fun k => q1 (.inr (.inr (.inr (.inr ⟨id, q2, k⟩))))
    obtain ⟨c, _, hc⟩ := (tenantAt_iff iv).1 g1
    exact List.mem_flatMap.2 ⟨t, List.mem_of_getElem? hc, List.mem_map_of_mem (f := (·.1)) hb⟩
  · have := C70_run inv h2 .role id
    rw [show (w.reg .role).get id = some a from (GoMap.mem_iff_get inv.rolesWF).1 ha] at this
    exact GoMap.get_some_mem (m := v.roles) this
  · obtain ⟨q1, q2⟩ := ex.heap.granted inv.heap hg
    refine ⟨q1, q2.imp (fun h => h) ?_⟩
    rintro ⟨d, dr, m1, m2, m3, m4⟩
    refine ⟨d, dr, m1, m2, .inr ?_, m4⟩
    have m3 := m3.resolve_left (List.ne_nil_of_mem hid)
    simp only [List.mem_filter, decide_eq_true_eq]
    refine ⟨?_, hsub _ m3⟩
    obtain ⟨T, t, _, g1, q1, q2⟩ := hsub _ m3
    obtain ⟨b, hb⟩ := Classical.byContradiction fun k => q1 (.inr (.inr (.inr (.inr ⟨_, q2, k⟩))))
    obtain ⟨c, _, hc⟩ := (tenantAt_iff iv).1 g1
    exact List.mem_flatMap.2 ⟨t, List.mem_of_getElem? hc, List.mem_map_of_mem (f := (·.1)) hb⟩

/-- C82. The hypotheses of `C82_resources` hold: two granted requests, then calls of several kinds. -/
def exLater : List V1Op := [
  .newTenant (str "k"), .addTenant 2, .tAddDescendent 0 [2], .addPrincipal (str "q") 9, .addPrincipal (str "p") 7,
  .tAddPrincipal 0 (str "q") [str "q"], .tAddPrincipal 0 (str "p") [str "q"], .role (.addPerm 0 (str "h") [⟨str "/y", str "GET"⟩]),
  .tAddScopes 0 [(str "y", 4)], .role (.lock 0 true)]

example : ∃ w, V1Op.run {} exOps = .ok w ∧ w.authorize .fwd 9 [] (str "p") [.namespace_ (.str (str "n"))] = .ok true ∧
    w.authorize .fwd 9 [] (str "p") [.tenant (.str (str "t")), .scope (.str (str "s"))] = .ok true ∧
    (V1Op.run w exLater).Chk fun v => v.log.length = w.log.length + 4 ∧
      v.authorize .rev 9 [] (str "p") [.namespace_ (.str (str "n"))] = .ok true ∧
      v.authorize .rev 9 [] (str "p") [.tenant (.str (str "t")), .scope (.str (str "s"))] = .ok true := Out.chk_ok (by decide +kernel)

/-- The list is kept if the assignments, tenants and namespaces are. -/
theorem allowKept_same (inv : Inv w) (h1 : v.tps = w.tps) (h2 : v.tenants = w.tenants) (h3 : v.tobjs = w.tobjs) (h4 : v.nsobjs = w.nsobjs)
    (p T n s : Str) : AllowKept w v p T n s := by
  intro t t' ht ht'
  have ht' : TenantAt w T t' := by unfold TenantAt at ht' ⊢; rw [h2, h3] at ht'; exact ht'
  cases tenantAt_unique inv ht ht'
  have e : ∀ id, AllowIn v t p T n s id ↔ AllowIn w t p T n s id := by
    intro id
    unfold AllowIn Refused Candidate NsRole NsScope RowsOf Row
    rw [h1, h4]
  by_cases hx : ∃ id, AllowIn w t p T n s id
  · exact .inl ⟨hx, fun id h => (e id).2 h⟩
  · exact .inr fun id h => hx ⟨id, (e id).1 h⟩

/-- C82. The hypotheses of `C82_activity_partial` hold: more permissions, a new descendant of the role, a locked role. -/
example : ∃ w v, V1Op.run {} exOps = .ok w ∧ w.authorize .fwd 9 [] (str "p") [.tenant (.str (str "t")), .namespace_ (.str (str "n")), .scope (.str (str "s")),
        .group (.str (str "g")), .activity (.str (str "/a GET"))] = .ok true ∧
    V1Op.run w [.role (.addPerm 0 (str "h") [⟨str "/y", str "GET"⟩]), .role (.newRole (str "k")), .role (.addDesc 0 [2]), .role (.lock 0 true)] = .ok v ∧
    AllowKept w v (str "p") (str "t") (str "n") (str "s") ∧
    v.authorize .rev 9 [] (str "p") [.tenant (.str (str "t")), .namespace_ (.str (str "n")), .scope (.str (str "s")),
        .group (.str (str "g")), .activity (.str (str "/a GET"))] = .ok true := by
  obtain ⟨w, h1, h2, h3⟩ := Out.chk_ok (x := V1Op.run {} exOps) (P := fun w => w.authorize .fwd 9 [] (str "p") [.tenant (.str (str "t")),
        .namespace_ (.str (str "n")), .scope (.str (str "s")), .group (.str (str "g")), .activity (.str (str "/a GET"))] = .ok true ∧
    (V1Op.run w [.role (.addPerm 0 (str "h") [⟨str "/y", str "GET"⟩]), .role (.newRole (str "k")), .role (.addDesc 0 [2]), .role (.lock 0 true)]).Chk
      fun v => (v.tps = w.tps ∧ v.tenants = w.tenants ∧ v.tobjs = w.tobjs ∧ v.nsobjs = w.nsobjs) ∧
        v.authorize .rev 9 [] (str "p") [.tenant (.str (str "t")), .namespace_ (.str (str "n")), .scope (.str (str "s")),
          .group (.str (str "g")), .activity (.str (str "/a GET"))] = .ok true) (by decide +kernel)
  obtain ⟨v, h4, ⟨a, b, c, d⟩, h6⟩ := Out.chk_ok h3
  exact ⟨w, v, h1, h2, h4, allowKept_same (V1Op.reachable_inv h1) a b c d _ _ _ _, h6⟩

/-- `p` has role "r" for scope "s" only; "r" inherits from "q", which has the activity "/b GET". -/
def exNarrow : List V1Op := [
  .newTenant (str "t"), .addTenant 0, .role (.newRole (str "r")), .role (.newRole (str "q")), .addRole 0, .addRole 1,
  .role (.addPerm 0 (str "g") [⟨str "/a", str "GET"⟩]), .role (.addPerm 1 (str "g") [⟨str "/b", str "GET"⟩]), .role (.addDesc 0 [1]),
  .addPrincipal (str "p") 0, .tAddRole 0 [0, 1], .tAddScopes 0 [(str "s", 0)],
  .addPrincipalRole (str "p") (str "r") 0 none (some (str "s")) []]

/-- C82. Giving `p` the same role for the whole tenant takes an inherited activity away. -/
theorem C82_counterexample : ∃ w, V1Op.run {} exNarrow = .ok w ∧
    w.authorize .fwd 9 [] (str "p") [.tenant (.str (str "t")), .group (.str (str "g")), .activity (.str (str "/b GET"))] = .ok true ∧
    (V1Op.run w [.tAddPrincipal 0 (str "p") [str "r"]]).Chk fun v =>
      v.authorize .fwd 9 [] (str "p") [.tenant (.str (str "t")), .group (.str (str "g")), .activity (.str (str "/b GET"))] = .ok false :=
  Out.chk_ok (by decide +kernel)

/-- C82. What the role has itself stays granted: `C82_own`. -/
example : ∃ w, V1Op.run {} exNarrow = .ok w ∧
    w.authorize .fwd 9 [] (str "p") [.tenant (.str (str "t")), .group (.str (str "g")), .activity (.str (str "/a GET"))] = .ok true ∧
    (V1Op.run w [.tAddPrincipal 0 (str "p") [str "r"]]).Chk fun v =>
      v.authorize .rev 9 [] (str "p") [.tenant (.str (str "t")), .group (.str (str "g")), .activity (.str (str "/a GET"))] = .ok true :=
  Out.chk_ok (by decide +kernel)

/-- C82. A request with nothing but an activity, which needs a permission in the group without name. -/
example : ∃ w, V1Op.run {} (exNarrow ++ [.role (.addPerm 0 [] [⟨str "/c", str "GET"⟩]), .tAddPrincipal 0 (str "p") [str "r"]]) = .ok w ∧
    w.authorize .fwd 9 [] (str "p") [.activity (.str (str "/c GET"))] = .ok true ∧
    (V1Op.run w [.addPrincipal (str "q") 1, .tAddPrincipal 0 (str "q") [str "q"]]).Chk fun v =>
      v.authorize .rev 9 [] (str "p") [.activity (.str (str "/c GET"))] = .ok true := Out.chk_ok (by decide +kernel)

/-- C82. So the intended property fails. -/
theorem C82_full_false : ¬ C82_full := by
  intro h
  obtain ⟨w, h1, h2, h3⟩ := C82_counterexample
  obtain ⟨v, h4, h5⟩ := Out.chk_ok h3
  cases h _ _ w v (str "p") _ .fwd .fwd 9 9 [] [] _ h1 h2 h4 h5

end V1
end Verif
