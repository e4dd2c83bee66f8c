import Verif.Props.V2More

/-!
# Package v2: taking away and giving more (C135-C138)

Permissions of assignments for the requested scope hide those of unscoped assignments (v2/v2.go:184-246).  So whatever
removes the last permission for a scope may open the unscoped ones, and whatever adds the first may close them.
-/

namespace Verif
open Spec
namespace V2
variable {w w' : V2} {e : Env} {fuel : Nat} {site : List Val}

/-- State `v` at `now'` offers no more than state `w` at `now`: same tenants, and each assignment, live assignment,
role permission and role below is there too. -/
structure Less (v : V2) (now' : Int) (w : V2) (now : Int) : Prop where
  tobjs : v.tobjs = w.tobjs
  tenants : v.tenants = w.tenants
  defTenant : v.defTenant = w.defTenant
  asg : ∀ u, Assigned v u → Assigned w u
  live : ∀ u, Assigned v u → Live u now' → Live u now
  perm : ∀ r x, RolePerm v.dag r x → RolePerm w.dag r x
  below : ∀ r x, RoleBelow v.dag r x → RoleBelow w.dag r x

namespace Less
variable {v : V2} {now now' : Int} (L : Less v now' w now)
include L

theorem covers {p : Str} {c : Nat} {t : Str} (h : Covers v p c t) : Covers w p c t :=
  covers_grow L.tobjs.symm L.asg h

theorem noTwins {p : Str} {c : Nat} (h : NoTwins w p c) : NoTwins v p c := noTwins_shrink L.tobjs.symm L.asg h

theorem target {r : Req2} {c : Nat} (h : Target v r c) : Target w r c :=
  target_grow L.tobjs.symm L.tenants.symm L.defTenant.symm L.asg h

theorem counts {p ns t : Str} {u : PR} (h : Counts v p ns t now' u) : Counts w p ns t now u :=
  ⟨L.asg u h.1, h.2.1, h.2.2.1, L.live u h.1 h.2.2.2.1, h.2.2.2.2⟩

theorem scopedP {r : Req2} {c : Nat} {ns x : Str} (h : ScopedPerm v now' r c ns x) : ScopedPerm w now r c ns x := by
  obtain ⟨t, u, h1, h2, h3, h4⟩ := h
  exact ⟨t, u, L.covers h1, L.counts h2, h3, L.perm _ _ h4⟩

theorem unscopedP {r : Req2} {c : Nat} {ns x : Str} (h : UnscopedPerm v now' r c ns x) : UnscopedPerm w now r c ns x := by
  obtain ⟨t, u, h1, h2, h3, h4⟩ := h
  exact ⟨t, u, L.covers h1, L.counts h2, h3, L.perm _ _ h4⟩

/-- With less there are no more roles held. -/
theorem can2 {r : Req2} {roles : List Str} (h : Can2 v now' r roles) : Can2 w now r roles := by
  obtain ⟨c, t, ns, x, h1, h2, h3, h4, t', u, g1, g2, g3, g4⟩ := h
  exact ⟨c, t, ns, x, L.target h1, L.tobjs ▸ h2, h3, h4, t', u, L.covers g1, L.counts g2, g3, g4.imp_right (L.below _ _)⟩

/-- A request granted with less and refused with more: in some target tenant there are permissions for the requested
scope, none of them is for the request, and with less there is none. -/
theorem hidden {r : Req2} (h : Grants2 v now' r) (hn : ¬ Grants2 w now r) :
    r.scope ≠ [] ∧ ∃ c t ns, Target w r c ∧ w.tobjs[c]? = some t ∧ Place t r ns ∧ (∃ y, ScopedPerm w now r c ns y) ∧
      (∀ y, ScopedPerm w now r c ns y → ¬ Permits y r) ∧ ∀ y, ¬ ScopedPerm v now' r c ns y := by
  obtain ⟨c, t, ns, x, h1, h2, h3, h4, h5⟩ := h
  have h1' := L.target h1
  have h2' : w.tobjs[c]? = some t := L.tobjs ▸ h2
  rcases h4 with h4 | ⟨h4, h6⟩
  · exact absurd ⟨c, t, ns, x, h1', h2', h3, .inl (L.scopedP h4), h5⟩ hn
  · refine ⟨fun hs => ?_, c, t, ns, h1', h2', h3, ?_, fun y hy hp => ?_, h4⟩
    · obtain ⟨t', u', g1, g2, g3, g4⟩ := h6
      exact h4 x ⟨t', u', g1, g2, g3.trans hs.symm, g4⟩
    · refine Classical.byContradiction fun hc => hn ⟨c, t, ns, x, h1', h2', h3, .inr ⟨fun y hy => hc ⟨y, hy⟩, L.unscopedP h6⟩, h5⟩
    · exact hn ⟨c, t, ns, y, h1', h2', h3, .inl hy, hp⟩

end Less

/-- Permissions for the requested scope, none of them for the request, refuse a request about a named tenant. -/
theorem refused_of_hidden (inv : Inv w) {now : Int} {r : Req2} (hn : named w r ≠ []) {c : Nat} {t : T2} {ns : Str}
    (h1 : Target w r c) (h2 : w.tobjs[c]? = some t) (h3 : Place t r ns) (h4 : ∃ y, ScopedPerm w now r c ns y)
    (h5 : ∀ y, ScopedPerm w now r c ns y → ¬ Permits y r) : ¬ Grants2 w now r := by
  rintro ⟨c', t', ns', x, g1, g2, g3, g4, g5⟩
  have hc : c' = c := by
    rcases h1 with ⟨_, h1⟩ | ⟨h1, _⟩
    · rcases g1 with ⟨_, g1⟩ | ⟨g1, _⟩
      · have e1 := (GoMap.mem_iff_get inv.tenantsWF).1 g1
        have e2 := (GoMap.mem_iff_get inv.tenantsWF).1 h1
        rw [e2] at e1; cases e1; rfl
      · exact absurd g1 hn
    · exact absurd h1 hn
  subst hc
  rw [h2] at g2; cases g2
  cases place_unique (inv.nsWF t (List.mem_of_getElem? h2)) h3 g3
  rcases g4 with g4 | ⟨g4, _⟩
  · exact h5 x g4 g5
  · obtain ⟨y, hy⟩ := h4; exact g4 y hy

namespace Less
variable {v : V2} {now now' : Int} (L : Less v now' w now) (inv : Inv w) (invv : Inv v)
  {e' : Env} (st : Steady w e now) (st' : Steady v e' now') {r : Req2}
  (tw : ∀ c, Target w r c → NoTwins w r.principal c) {fuel' : Nat} {site' : List Val} {v' : V2} {b : Bool}
include L inv invv st st' tw

omit inv st in
theorem grants (h' : v.authorize e' fuel' site' r = .ok (true, v')) : Grants2 v now' r :=
  (authorize_exact invv st' (fun c hc => L.noTwins (tw c (L.target hc))) h').1 rfl

/-- Requests without scope: what is granted with less is granted with more. -/
theorem scopeless (hs : r.scope = []) (h : w.authorize e fuel site r = .ok (b, w'))
    (h' : v.authorize e' fuel' site' r = .ok (true, v')) : b = true := by
  rw [authorize_exact inv st tw h]
  exact Classical.byContradiction fun hn => (L.hidden (L.grants invv st' tw h') hn).1 hs

/-- A request granted with less is refused with more only through permissions for its scope that hide others. -/
theorem only (h : w.authorize e fuel site r = .ok (false, w'))
    (h' : v.authorize e' fuel' site' r = .ok (true, v')) :
    r.scope ≠ [] ∧ ∃ c t ns, Target w r c ∧ w.tobjs[c]? = some t ∧ Place t r ns ∧ (∃ y, ScopedPerm w now r c ns y) ∧
      (∀ y, ScopedPerm w now r c ns y → ¬ Permits y r) ∧ ∀ y, ¬ ScopedPerm v now' r c ns y :=
  L.hidden (L.grants invv st' tw h') fun hg => Bool.false_ne_true ((authorize_exact inv st tw h).2 hg)

/-- For a named tenant this is exact. -/
theorem exact (hn : named w r ≠ []) (h : w.authorize e fuel site r = .ok (b, w'))
    (h' : v.authorize e' fuel' site' r = .ok (true, v')) : b = false ↔
    r.scope ≠ [] ∧ ∃ c t ns, Target w r c ∧ w.tobjs[c]? = some t ∧ Place t r ns ∧ (∃ y, ScopedPerm w now r c ns y) ∧
      (∀ y, ScopedPerm w now r c ns y → ¬ Permits y r) ∧ ∀ y, ¬ ScopedPerm v now' r c ns y := by
  constructor
  · rintro rfl; exact L.only inv invv st st' tw h h'
  · rintro ⟨_, c, t, ns, h1, h2, h3, h4, h5, _⟩
    have := refused_of_hidden inv hn h1 h2 h3 h4 h5
    rw [← authorize_exact inv st tw h] at this
    simpa using this

/-- `Can` grants no more with less. -/
theorem can {roles : List Str} (h : w.can e fuel site r roles = .ok (b, w'))
    (h' : v.can e' fuel' site' r roles = .ok (true, v')) : b = true := by
  rw [can_exact inv st tw h]
  exact L.can2 ((can_exact invv st' (fun c hc => L.noTwins (tw c (L.target hc))) h').1 rfl)

end Less

/-! ## The four changes -/

theorem less_later {now now' : Int} (h : now ≤ now') : Less w now' w now :=
  ⟨rfl, rfl, rfl, fun _ h => h, fun _ _ g x hx => Int.le_trans h (g x hx), fun _ _ h => h, fun _ _ h => h⟩

theorem less_remove {target : PR} {b : Bool} {v : V2} (h : w.removePrincipalRole target = .ok (b, v)) (now : Int) :
    Less v now w now := by
  rcases (remove_eq h).2 with ⟨_, rfl, _⟩ | ⟨_, _, rfl⟩
  · exact less_later (Int.le_refl _)
  · refine ⟨rfl, rfl, rfl, fun u hu => ?_, fun _ _ h => h, fun _ _ h => h, fun _ _ h => h⟩
    obtain ⟨i, h1, h2⟩ := hu
    obtain ⟨x, hx, h3⟩ := List.mem_map.1 (List.mem_of_mem_take h1)
    split at h3
    · cases h3
    · subst h3; exact ⟨i, hx, h2⟩

/-- Fewer child links and permissions, same roles and cache. -/
structure Fewer (d' d : Dag) : Prop where
  roles : d'.roles = d.roles
  cache : d'.resolved = d.resolved
  edge : ∀ a b, Edge d' a b → Edge d a b
  perm : ∀ r x, HasPerm d' r x → HasPerm d r x

theorem Fewer.less {d d' : Dag} (F : Fewer d' d) (w : V2) (now : Int) :
    Less { w with dag := d' } now { w with dag := d } now := by
  have hb : ∀ r x, Below d' r x → Below d r x := fun r x h => by
    induction h with
    | self g => exact .self (by unfold Registered at *; rwa [← F.roles])
    | step _ g1 g2 ih => exact .step ih (F.edge _ _ g1) (by unfold Registered at *; rwa [← F.roles])
  refine ⟨rfl, rfl, rfl, fun _ h => h, fun _ _ h => h, fun r x h => ?_, fun r x h => ?_⟩
  · unfold RolePerm at *
    simp only [F.cache] at h
    exact h.imp_right fun ⟨g1, y, g2, g3⟩ => ⟨g1, y, hb _ _ g2, F.perm _ _ g3⟩
  · unfold RoleBelow at *
    simp only [F.cache] at h
    exact h.imp_right fun ⟨g1, g2⟩ => ⟨g1, hb _ _ g2⟩

theorem hasPerm_set {d : Dag} {a : Nat} {o o' : R2} (ho : d.objs[a]? = some o) (hs : ∀ x ∈ o.perms, x ∈ o'.perms) {r x : Str}
    (h : HasPerm d r x) : HasPerm { d with objs := d.objs.set a o' } r x := by
  obtain ⟨a', o1, h1, h2, h3⟩ := h
  by_cases e : a = a'
  · subst e
    rw [ho] at h2; cases h2
    exact ⟨a, o', h1, by simp [(List.getElem?_eq_some_iff.1 ho).1], hs x h3⟩
  · exact ⟨a', o1, h1, by simpa [e] using h2, h3⟩

theorem hasPerm_set' {d : Dag} {a : Nat} {o o' : R2} (ho : d.objs[a]? = some o) (hs : ∀ x ∈ o'.perms, x ∈ o.perms) {r x : Str}
    (h : HasPerm { d with objs := d.objs.set a o' } r x) : HasPerm d r x := by
  obtain ⟨a', o1, h1, h2, h3⟩ := h
  by_cases e : a = a'
  · subst e
    simp [(List.getElem?_eq_some_iff.1 ho).1] at h2; subst h2
    exact ⟨a, o, h1, ho, hs x h3⟩
  · exact ⟨a', o1, h1, by simpa [e] using h2, h3⟩

theorem less_removePermission {a : Nat} {ps : List Perm2} {d : Dag} (h : w.dag.removePermission a ps = .ok d) (now : Int) :
    Less { w with dag := d } now w now := by
  have F : Fewer d w.dag := by
    obtain ⟨o, ho, rfl⟩ := Dag.removePermission_eq h
    exact ⟨rfl, rfl, fun _ _ h => h, fun r x => hasPerm_set' ho fun y hy => (mem_removeStrs.1 hy).1⟩
  exact F.less w now

theorem less_addPermission {a : Nat} {ps : List Perm2} {d : Dag} (h : w.dag.addPermission a ps = .ok d) (now : Int) :
    Less w now { w with dag := d } now := by
  have F : Fewer w.dag d := by
    obtain ⟨o, ho, rfl⟩ := Dag.addPermission_eq h
    exact ⟨rfl, rfl, fun _ _ h => h, fun r x => hasPerm_set ho fun y hy => mem_addStrs.2 (.inl hy)⟩
  exact F.less w now

theorem less_addChildRole (inv : Inv w) {p : Str} {cs : List Str} {b : Bool} {d : Dag}
    (h : w.dag.addChildRole fuel p cs = .ok (b, d)) (now : Int) : Less w now { w with dag := d } now := by
  have inv' := Dag.dinv_addChildRole inv.dag h
  have F : Fewer w.dag d := by
    rcases (Dag.addChildRole_cases h).2 with ⟨_, rfl⟩ | ⟨_, rfl⟩
    · exact ⟨rfl, rfl, fun _ _ h => h, fun _ _ h => h⟩
    · refine ⟨rfl, rfl, fun a b hab => ?_, fun _ _ h => h⟩
      rw [Dag.edge_iff inv'.edgesWF]
      rw [Dag.edge_iff inv.dag.edgesWF] at hab
      unfold Dag.children
      rw [GoMap.get_set]
      split
      · subst_vars; exact List.mem_append_left _ hab
      · exact hab
  exact F.less w now

/-! ## C135: the passing of time -/

/-- C135 as intended: a request refused now is not granted later because an assignment has expired. -/
def C135_full : Prop := ∀ (l : Bool) ops w e e' now now' fuel site r b w' v', V2Op.run { logger := l } ops = .ok w →
  (∀ s, e.now s = now) → (∀ s, e'.now s = now') → now ≤ now' →
  w.authorize e fuel site r = .ok (b, w') → w.authorize e' fuel site r = .ok (true, v') → b = true

/-- `p` has role "r" everywhere in "t", and role "q" for scope "s" until 100. -/
def exExpiring : List V2Op := exRoles ++ exTenant ++ exUser ++ [
  .newPrincipalRole { principal := str "p", tenant := str "t", role := str "q", scope := str "s", expiry := some 100 },
  .addPrincipalRole [1]]

/-- C135. `p` may not read "x" in scope "s" until the role for that scope expires, and may from then on. -/
theorem C135_counterexample : ∃ w, V2Op.run {} exExpiring = .ok w ∧
    (w.authorize exEnv 9 [] { exReq with scope := str "s" }).map (·.1) = .ok false ∧
    (w.authorize { exEnv with now := fun _ => 101 } 9 [] { exReq with scope := str "s" }).map (·.1) = .ok true :=
  Out.chk_ok (by decide +kernel)

/-- C135. So the intended property fails. -/
theorem C135_full_false : ¬ C135_full := by
  intro h
  obtain ⟨w, h1, h2, h3⟩ := C135_counterexample
  obtain ⟨⟨b1, w1⟩, g1, g2⟩ := Out.map_eq_ok.1 h2
  obtain ⟨⟨b2, w2⟩, g5, g6⟩ := Out.map_eq_ok.1 h3
  simp only at g2 g6; subst g2; subst g6
  exact Bool.false_ne_true (h false _ w exEnv _ 100 101 9 [] _ false w1 w2 h1 (fun _ => rfl) (fun _ => rfl) (by decide) g1 g5)

section
variable {now now' : Int} (le : now ≤ now') (inv : Inv w) {e' : Env} (st : Steady w e now) (st' : Steady w e' now') {r : Req2}
  (tw : ∀ c, Target w r c → NoTwins w r.principal c) {fuel' : Nat} {site' : List Val} {v' : V2} {b : Bool}
include le inv st st' tw

/-- C135. For requests without scope, expiry gives no access.  Missing: the other requests, see the counterexample. -/
theorem C135_partial (hs : r.scope = []) (h : w.authorize e fuel site r = .ok (b, w'))
    (h' : w.authorize e' fuel' site' r = .ok (true, v')) : b = true :=
  (less_later le).scopeless inv inv st st' tw hs h h'

/-- C135. About a named (or default) tenant, a request granted later is refused now exactly if the target tenant has
permissions for the requested scope, none of them for the request, and all of them expire in between. -/
theorem C135_exact (hn : named w r ≠ []) (h : w.authorize e fuel site r = .ok (b, w'))
    (h' : w.authorize e' fuel' site' r = .ok (true, v')) : b = false ↔
    r.scope ≠ [] ∧ ∃ c t ns, Target w r c ∧ w.tobjs[c]? = some t ∧ Place t r ns ∧ (∃ y, ScopedPerm w now r c ns y) ∧
      (∀ y, ScopedPerm w now r c ns y → ¬ Permits y r) ∧ ∀ y, ¬ ScopedPerm w now' r c ns y :=
  (less_later le).exact inv inv st st' tw hn h h'

/-- C135. Without named tenant these are still necessary. -/
theorem C135_only (h : w.authorize e fuel site r = .ok (false, w'))
    (h' : w.authorize e' fuel' site' r = .ok (true, v')) :
    r.scope ≠ [] ∧ ∃ c t ns, Target w r c ∧ w.tobjs[c]? = some t ∧ Place t r ns ∧ (∃ y, ScopedPerm w now r c ns y) ∧
      (∀ y, ScopedPerm w now r c ns y → ¬ Permits y r) ∧ ∀ y, ¬ ScopedPerm w now' r c ns y :=
  (less_later le).only inv inv st st' tw h h'

/-- C135. `Can` never gains by expiry. -/
theorem C135_can {roles : List Str} (h : w.can e fuel site r roles = .ok (b, w'))
    (h' : w.can e' fuel' site' r roles = .ok (true, v')) : b = true :=
  (less_later le).can inv inv st st' tw h h'

end

/-- C135. In the state of the counterexample: the request without scope is granted before and after, `Can` finds
"q" before and not after, "r" both times; a request for "y" in scope "s" is granted before and not after. -/
example : ∃ w, V2Op.run {} exExpiring = .ok w ∧
    (w.authorize exEnv 9 [] exReq).map (·.1) = .ok true ∧
    (w.authorize { exEnv with now := fun _ => 101 } 9 [] exReq).map (·.1) = .ok true ∧
    (w.can exEnv 9 [] exReq [str "q"]).map (·.1) = .ok true ∧
    (w.can { exEnv with now := fun _ => 101 } 9 [] exReq [str "q"]).map (·.1) = .ok false ∧
    (w.can { exEnv with now := fun _ => 101 } 9 [] exReq [str "r"]).map (·.1) = .ok true ∧
    (w.authorize exEnv 9 [] { exReq with resource := str "y", scope := str "s" }).map (·.1) = .ok true ∧
    (w.authorize { exEnv with now := fun _ => 101 } 9 [] { exReq with resource := str "y", scope := str "s" }).map (·.1) = .ok false :=
  Out.chk_ok (by decide +kernel)

/-- C135. The hypotheses of the exact theorem are met there, and so are the conditions it gives. -/
example : ∃ w c t ns, V2Op.run {} exExpiring = .ok w ∧ Inv w ∧ Steady w exEnv 100 ∧
    (∀ c, NoTwins w (str "p") c) ∧ Target w { exReq with scope := str "s" } c ∧ w.tobjs[c]? = some t ∧
    (∃ y, ScopedPerm w 100 { exReq with scope := str "s" } c ns y) ∧
    ∀ y, ¬ ScopedPerm w 101 { exReq with scope := str "s" } c ns y := by
  obtain ⟨w, h, h1, h2, h3, h4⟩ := Out.chk_ok (x := V2Op.run {} exExpiring)
    (P := fun w => ((w.authorize exEnv 9 [] { exReq with scope := str "s" }).Chk fun x => x.1 = false) ∧
      ((w.authorize { exEnv with now := fun _ => 101 } 9 [] { exReq with scope := str "s" }).Chk fun x => x.1 = true) ∧
      w.tobjs.length = 1 ∧ named w { exReq with scope := str "s" } ≠ []) (by decide +kernel)
  have inv := reachable_inv (l := false) h
  have st : Steady w exEnv 100 := steady_const fun _ => rfl
  have st' : Steady w { exEnv with now := fun _ => 101 } 101 := steady_const fun _ => rfl
  have tw : ∀ c, NoTwins w (str "p") c := noTwins_of_distinct (fun c1 c2 t1 t2 g1 g2 _ => by
    have := (List.getElem?_eq_some_iff.1 g1).1
    have := (List.getElem?_eq_some_iff.1 g2).1
    omega) _
  obtain ⟨⟨b, w'⟩, g1, g2⟩ := Out.chk_ok h1
  obtain ⟨⟨b', v'⟩, g3, g4⟩ := Out.chk_ok h2
  simp only at g2 g4; subst g2; subst g4
  obtain ⟨_, c, t, ns, k1, k2, _, k3, _, k4⟩ := (C135_exact (now' := 101) (by decide) inv st st' (fun c _ => tw c) h4 g1 g3).1 rfl
  exact ⟨w, c, t, ns, h, inv, st, tw, k1, k2, k3, k4⟩

/-! ## C136: removing assignments -/

/-- C136 as intended: removing an assignment gives no access. -/
def C136_full : Prop := ∀ (l : Bool) ops w target m v e fuel site r b w' v', V2Op.run { logger := l } ops = .ok w →
  w.removePrincipalRole target = .ok (m, v) →
  w.authorize e fuel site r = .ok (b, w') → v.authorize e fuel site r = .ok (true, v') → b = true

/-- C136. Removing the role "q" that `p` has for scope "s" lets `p` read "x" there. -/
theorem C136_counterexample : ∃ w, V2Op.run {} exExpiring = .ok w ∧
    (w.authorize exEnv 9 [] { exReq with scope := str "s" }).map (·.1) = .ok false ∧
    ((w.removePrincipalRole { principal := str "p", role := str "q" }).bind fun v =>
      (v.2.authorize exEnv 9 [] { exReq with scope := str "s" }).map (·.1)) = .ok true :=
  Out.chk_ok (by decide +kernel)

/-- C136. So the intended property fails. -/
theorem C136_full_false : ¬ C136_full := by
  intro h
  obtain ⟨w, h1, h2, h3⟩ := C136_counterexample
  obtain ⟨⟨b1, w1⟩, g1, g2⟩ := Out.map_eq_ok.1 h2
  obtain ⟨⟨m, v⟩, g3, g4⟩ := Out.bind_eq_ok.1 h3
  obtain ⟨⟨b2, w2⟩, g5, g6⟩ := Out.map_eq_ok.1 g4
  simp only at g2 g6; subst g2; subst g6
  exact Bool.false_ne_true (h false _ w _ m v exEnv 9 [] _ false w1 w2 h1 g3 g1 g5)

section
variable (inv : Inv w) {target : PR} {m : Bool} {v : V2} (hv : w.removePrincipalRole target = .ok (m, v)) {now : Int}
  (st : Steady w e now) {r : Req2} (tw : ∀ c, Target w r c → NoTwins w r.principal c)
  {fuel' : Nat} {site' : List Val} {v' : V2} {b : Bool}
include inv hv st tw

/-- C136. For requests without scope, removing assignments gives no access.  Missing: the other requests, see the
counterexample. -/
theorem C136_partial (hs : r.scope = []) (h : w.authorize e fuel site r = .ok (b, w'))
    (h' : v.authorize e fuel' site' r = .ok (true, v')) : b = true :=
  (less_remove hv now).scopeless inv (inv_remove inv hv) st (fun u hu => st u ((less_remove hv now).asg u hu)) tw hs h h'

/-- C136. About a named (or default) tenant, a request granted after the removal was refused before exactly if the target
tenant had permissions for the requested scope, none of them for the request, and has none now. -/
theorem C136_exact (hn : named w r ≠ []) (h : w.authorize e fuel site r = .ok (b, w'))
    (h' : v.authorize e fuel' site' r = .ok (true, v')) : b = false ↔
    r.scope ≠ [] ∧ ∃ c t ns, Target w r c ∧ w.tobjs[c]? = some t ∧ Place t r ns ∧ (∃ y, ScopedPerm w now r c ns y) ∧
      (∀ y, ScopedPerm w now r c ns y → ¬ Permits y r) ∧ ∀ y, ¬ ScopedPerm v now r c ns y :=
  (less_remove hv now).exact inv (inv_remove inv hv) st (fun u hu => st u ((less_remove hv now).asg u hu)) tw hn h h'

/-- C136. Without named tenant these are still necessary. -/
theorem C136_only (h : w.authorize e fuel site r = .ok (false, w'))
    (h' : v.authorize e fuel' site' r = .ok (true, v')) :
    r.scope ≠ [] ∧ ∃ c t ns, Target w r c ∧ w.tobjs[c]? = some t ∧ Place t r ns ∧ (∃ y, ScopedPerm w now r c ns y) ∧
      (∀ y, ScopedPerm w now r c ns y → ¬ Permits y r) ∧ ∀ y, ¬ ScopedPerm v now r c ns y :=
  (less_remove hv now).only inv (inv_remove inv hv) st (fun u hu => st u ((less_remove hv now).asg u hu)) tw h h'

/-- C136. `Can` never gains by a removal. -/
theorem C136_can {roles : List Str} (h : w.can e fuel site r roles = .ok (b, w'))
    (h' : v.can e fuel' site' r roles = .ok (true, v')) : b = true :=
  (less_remove hv now).can inv (inv_remove inv hv) st (fun u hu => st u ((less_remove hv now).asg u hu)) tw h h'

end

/-- C136. In the same state `Can` finds "q" before the removal and not after, and "r" both times; the request without
scope is granted before and after. -/
example : ∃ w, V2Op.run {} exExpiring = .ok w ∧
    (w.can exEnv 9 [] exReq [str "q"]).map (·.1) = .ok true ∧
    ((w.removePrincipalRole { principal := str "p", role := str "q" }).bind fun v =>
      (v.2.can exEnv 9 [] exReq [str "q"]).map (·.1)) = .ok false ∧
    ((w.removePrincipalRole { principal := str "p", role := str "q" }).bind fun v =>
      (v.2.can exEnv 9 [] exReq [str "r"]).map (·.1)) = .ok true ∧
    (w.authorize exEnv 9 [] exReq).map (·.1) = .ok true ∧
    ((w.removePrincipalRole { principal := str "p", role := str "q" }).bind fun v =>
      (v.2.authorize exEnv 9 [] exReq).map (·.1)) = .ok true :=
  Out.chk_ok (by decide +kernel)

/-! ## C137: removing permissions -/

/-- C137 as intended: removing permissions from a role gives no access. -/
def C137_full : Prop := ∀ (l : Bool) ops w a ps d e fuel site r b w' v', V2Op.run { logger := l } ops = .ok w →
  w.dag.removePermission a ps = .ok d →
  w.authorize e fuel site r = .ok (b, w') → V2.authorize { w with dag := d } e fuel site r = .ok (true, v') → b = true

/-- C137. Removing from role "q" its only permission lets `p` read "x" in scope "s". -/
theorem C137_counterexample : ∃ w, V2Op.run {} exExpiring = .ok w ∧
    (w.authorize exEnv 9 [] { exReq with scope := str "s" }).map (·.1) = .ok false ∧
    ((w.dag.removePermission 1 [⟨str "y", str "read", []⟩]).bind fun d =>
      (V2.authorize { w with dag := d } exEnv 9 [] { exReq with scope := str "s" }).map (·.1)) = .ok true :=
  Out.chk_ok (by decide +kernel)

/-- C137. So the intended property fails. -/
theorem C137_full_false : ¬ C137_full := by
  intro h
  obtain ⟨w, h1, h2, h3⟩ := C137_counterexample
  obtain ⟨⟨b1, w1⟩, g1, g2⟩ := Out.map_eq_ok.1 h2
  obtain ⟨d, g3, g4⟩ := Out.bind_eq_ok.1 h3
  obtain ⟨⟨b2, w2⟩, g5, g6⟩ := Out.map_eq_ok.1 g4
  simp only at g2 g6; subst g2; subst g6
  exact Bool.false_ne_true (h false _ w 1 _ d exEnv 9 [] _ false w1 w2 h1 g3 g1 g5)

section
variable (inv : Inv w) {a : Nat} {ps : List Perm2} {d : Dag} (hd : w.dag.removePermission a ps = .ok d) {now : Int}
  (st : Steady w e now) {r : Req2} (tw : ∀ c, Target w r c → NoTwins w r.principal c)
  {fuel' : Nat} {site' : List Val} {v' : V2} {b : Bool}
include inv hd st tw

/-- C137. For requests without scope, removing permissions gives no access.  Missing: the other requests, see the
counterexample. -/
theorem C137_partial (hs : r.scope = []) (h : w.authorize e fuel site r = .ok (b, w'))
    (h' : V2.authorize { w with dag := d } e fuel' site' r = .ok (true, v')) : b = true :=
  (less_removePermission hd now).scopeless inv (inv_dag inv (Dag.dinv_removePermission inv.dag hd)) st st tw hs h h'

/-- C137. About a named (or default) tenant, a request granted after the removal was refused before exactly if the target
tenant had permissions for the requested scope, none of them for the request, and has none now. -/
theorem C137_exact (hn : named w r ≠ []) (h : w.authorize e fuel site r = .ok (b, w'))
    (h' : V2.authorize { w with dag := d } e fuel' site' r = .ok (true, v')) : b = false ↔
    r.scope ≠ [] ∧ ∃ c t ns, Target w r c ∧ w.tobjs[c]? = some t ∧ Place t r ns ∧ (∃ y, ScopedPerm w now r c ns y) ∧
      (∀ y, ScopedPerm w now r c ns y → ¬ Permits y r) ∧ ∀ y, ¬ ScopedPerm { w with dag := d } now r c ns y :=
  (less_removePermission hd now).exact inv (inv_dag inv (Dag.dinv_removePermission inv.dag hd)) st st tw hn h h'

/-- C137. Without named tenant these are still necessary. -/
theorem C137_only (h : w.authorize e fuel site r = .ok (false, w'))
    (h' : V2.authorize { w with dag := d } e fuel' site' r = .ok (true, v')) :
    r.scope ≠ [] ∧ ∃ c t ns, Target w r c ∧ w.tobjs[c]? = some t ∧ Place t r ns ∧ (∃ y, ScopedPerm w now r c ns y) ∧
      (∀ y, ScopedPerm w now r c ns y → ¬ Permits y r) ∧ ∀ y, ¬ ScopedPerm { w with dag := d } now r c ns y :=
  (less_removePermission hd now).only inv (inv_dag inv (Dag.dinv_removePermission inv.dag hd)) st st tw h h'

/-- C137. `Can` never gains: whatever the role cache holds, no role is held that was not. -/
theorem C137_can {roles : List Str} (h : w.can e fuel site r roles = .ok (b, w'))
    (h' : V2.can { w with dag := d } e fuel' site' r roles = .ok (true, v')) : b = true :=
  (less_removePermission hd now).can inv (inv_dag inv (Dag.dinv_removePermission inv.dag hd)) st st tw h h'

end

/-- C137. Taking "read x" from role "r" refuses the request without scope. -/
example : ∃ w, V2Op.run {} exExpiring = .ok w ∧
    (w.authorize exEnv 9 [] exReq).map (·.1) = .ok true ∧
    ((w.dag.removePermission 0 [⟨str "x", str "read", []⟩]).bind fun d =>
      (V2.authorize { w with dag := d } exEnv 9 [] exReq).map (·.1)) = .ok false ∧
    ((w.dag.removePermission 0 [⟨str "z", str "read", []⟩]).bind fun d =>
      (V2.authorize { w with dag := d } exEnv 9 [] exReq).map (·.1)) = .ok true ∧
    ((w.dag.removePermission 0 [⟨str "x", str "read", []⟩]).bind fun d =>
      (V2.can { w with dag := d } exEnv 9 [] exReq [str "r"]).map (·.1)) = .ok true :=
  Out.chk_ok (by decide +kernel)

/-! ## C138: giving permissions and child roles -/

/-- C138 as intended: giving a role more permissions, or a child role, takes no access away. -/
def C138_full : Prop := ∀ (l : Bool) ops w d e fuel site r b w' v', V2Op.run { logger := l } ops = .ok w →
  ((∃ a ps, w.dag.addPermission a ps = .ok d) ∨ ∃ n p cs m, w.dag.addChildRole n p cs = .ok (m, d)) →
  w.authorize e fuel site r = .ok (true, w') → V2.authorize { w with dag := d } e fuel site r = .ok (b, v') → b = true

/-- `p` has role "r" everywhere in "t", and role "z" without permissions for scope "s". -/
def exEmpty : List V2Op := exRoles ++ exTenant ++ exUser ++ [.newRole (str "z"), .addRoles [2],
  .newPrincipalRole { principal := str "p", tenant := str "t", role := str "z", scope := str "s" }, .addPrincipalRole [1]]

/-- C138. `p` may read "x" in scope "s" until the role for that scope gets a first permission, for something else, or a
child role that has one. -/
theorem C138_counterexample : ∃ w, V2Op.run {} exEmpty = .ok w ∧
    (w.authorize exEnv 9 [] { exReq with scope := str "s" }).map (·.1) = .ok true ∧
    ((w.dag.addPermission 2 [⟨str "y", str "read", []⟩]).bind fun d =>
      (V2.authorize { w with dag := d } exEnv 9 [] { exReq with scope := str "s" }).map (·.1)) = .ok false ∧
    ((w.dag.addChildRole 9 (str "z") [str "q"]).bind fun d =>
      (V2.authorize { w with dag := d.2 } exEnv 9 [] { exReq with scope := str "s" }).map (·.1)) = .ok false :=
  Out.chk_ok (by decide +kernel)

/-- C138. So the intended property fails, for permissions and for child roles. -/
theorem C138_full_false : ¬ C138_full := by
  intro h
  obtain ⟨w, h1, h2, h3, _⟩ := C138_counterexample
  obtain ⟨⟨b1, w1⟩, g1, g2⟩ := Out.map_eq_ok.1 h2
  obtain ⟨d, g3, g4⟩ := Out.bind_eq_ok.1 h3
  obtain ⟨⟨b2, w2⟩, g5, g6⟩ := Out.map_eq_ok.1 g4
  simp only at g2 g6; subst g2; subst g6
  exact Bool.false_ne_true (h false _ w d exEnv 9 [] _ false w1 w2 h1 (.inl ⟨_, _, g3⟩) g1 g5)

theorem less_give (inv : Inv w) {d : Dag}
    (hd : (∃ a ps, w.dag.addPermission a ps = .ok d) ∨ ∃ n p cs m, w.dag.addChildRole n p cs = .ok (m, d)) :
    Inv { w with dag := d } ∧ ∀ now, Less w now { w with dag := d } now := by
  rcases hd with ⟨a, ps, h⟩ | ⟨n, p, cs, m, h⟩
  · exact ⟨inv_dag inv (Dag.dinv_addPermission inv.dag h), less_addPermission h⟩
  · exact ⟨inv_dag inv (Dag.dinv_addChildRole inv.dag h), less_addChildRole inv h⟩

theorem noTwins_dag {d : Dag} {p : Str} {c : Nat} (h : NoTwins w p c) : NoTwins { w with dag := d } p c :=
  noTwins_shrink (w := { w with dag := d }) (v := w) rfl (fun _ h => h) h

section
variable (inv : Inv w) {d : Dag}
  (hd : (∃ a ps, w.dag.addPermission a ps = .ok d) ∨ ∃ n p cs m, w.dag.addChildRole n p cs = .ok (m, d)) {now : Int}
  (st : Steady w e now) {r : Req2} (tw : ∀ c, Target w r c → NoTwins w r.principal c)
  {fuel' : Nat} {site' : List Val} {v' : V2} {b : Bool}
include inv hd st tw

/-- C138. For requests without scope, giving a role more takes no access away.  Missing: the other requests, see the
counterexample. -/
theorem C138_partial (hs : r.scope = []) (h : w.authorize e fuel site r = .ok (true, w'))
    (h' : V2.authorize { w with dag := d } e fuel' site' r = .ok (b, v')) : b = true :=
  ((less_give inv hd).2 now).scopeless (less_give inv hd).1 inv st st (fun c hc => noTwins_dag (tw c hc)) hs h' h

/-- C138. About a named (or default) tenant, a granted request is refused after the change exactly if the target tenant
had no permission for the requested scope, has some now, and none of them is for the request. -/
theorem C138_exact (hn : named w r ≠ []) (h : w.authorize e fuel site r = .ok (true, w'))
    (h' : V2.authorize { w with dag := d } e fuel' site' r = .ok (b, v')) : b = false ↔
    r.scope ≠ [] ∧ ∃ c t ns, Target w r c ∧ w.tobjs[c]? = some t ∧ Place t r ns ∧
      (∃ y, ScopedPerm { w with dag := d } now r c ns y) ∧
      (∀ y, ScopedPerm { w with dag := d } now r c ns y → ¬ Permits y r) ∧ ∀ y, ¬ ScopedPerm w now r c ns y :=
  ((less_give inv hd).2 now).exact (less_give inv hd).1 inv st st (fun c hc => noTwins_dag (tw c hc)) hn h' h

/-- C138. Without named tenant these are still necessary. -/
theorem C138_only (h : w.authorize e fuel site r = .ok (true, w'))
    (h' : V2.authorize { w with dag := d } e fuel' site' r = .ok (false, v')) :
    r.scope ≠ [] ∧ ∃ c t ns, Target w r c ∧ w.tobjs[c]? = some t ∧ Place t r ns ∧
      (∃ y, ScopedPerm { w with dag := d } now r c ns y) ∧
      (∀ y, ScopedPerm { w with dag := d } now r c ns y → ¬ Permits y r) ∧ ∀ y, ¬ ScopedPerm w now r c ns y :=
  ((less_give inv hd).2 now).only (less_give inv hd).1 inv st st (fun c hc => noTwins_dag (tw c hc)) h' h

/-- C138. `Can` never loses. -/
theorem C138_can {roles : List Str} (h : w.can e fuel site r roles = .ok (true, w'))
    (h' : V2.can { w with dag := d } e fuel' site' r roles = .ok (b, v')) : b = true :=
  ((less_give inv hd).2 now).can (less_give inv hd).1 inv st st (fun c hc => noTwins_dag (tw c hc)) h' h

end

/-- C138. In the state of the counterexample the request without scope stays granted, and a permission or child role for
the request itself keeps the one with scope; `Can` finds "q" once it is a child. -/
example : ∃ w, V2Op.run {} exEmpty = .ok w ∧
    (w.authorize exEnv 9 [] exReq).map (·.1) = .ok true ∧
    ((w.dag.addPermission 2 [⟨str "y", str "read", []⟩]).bind fun d =>
      (V2.authorize { w with dag := d } exEnv 9 [] exReq).map (·.1)) = .ok true ∧
    ((w.dag.addPermission 2 [⟨str "x", str "read", []⟩]).bind fun d =>
      (V2.authorize { w with dag := d } exEnv 9 [] { exReq with scope := str "s" }).map (·.1)) = .ok true ∧
    ((w.dag.addChildRole 9 (str "z") [str "r"]).bind fun d =>
      (V2.authorize { w with dag := d.2 } exEnv 9 [] { exReq with scope := str "s" }).map (·.1)) = .ok true ∧
    (w.can exEnv 9 [] exReq [str "q"]).map (·.1) = .ok false ∧
    ((w.dag.addChildRole 9 (str "z") [str "q"]).bind fun d =>
      (V2.can { w with dag := d.2 } exEnv 9 [] exReq [str "q"]).map (·.1)) = .ok true :=
  Out.chk_ok (by decide +kernel)

end V2
end Verif
