import Verif.Props.V2

/-!
# Package v2: exactly when a new assignment takes access away (C53); the status of a tenant (C52)
-/

namespace Verif
open Spec
namespace V2
variable {w w' : V2} {e : Env} {fuel : Nat} {site : List Val}

/-- C53. A granted request about a named (or default) tenant, and a new assignment that covers no child tenants that
were not covered before: the access is lost exactly if the assignment is for the requested scope and counts there, there
was no permission for that scope before, its role has a permission, and none of them is for the request. -/
theorem C53_exact (inv : Inv w) {i : Nat} {v : V2} (hv : w.addPrincipalRole [i] = .ok v) {u : PR} (hu : w.prs[i]? = some u)
    {now : Int} (st : Steady v e now) {r : Req2} (tw : ∀ c, Target v r c → NoTwins v r.principal c)
    (hn : named w r ≠ []) (hm : u.manage = true → ManagesChildren w u.principal u.tenant)
    {fuel' : Nat} {site' : List Val} {v' : V2} {b : Bool} (h : w.authorize e fuel site r = .ok (true, w'))
    (h' : v.authorize e fuel' site' r = .ok (b, v')) :
    b = false ↔ r.scope ≠ [] ∧ u.scope = r.scope ∧ u.principal = r.principal ∧ Live u now ∧
      (∃ y, RolePerm w.dag u.role y) ∧ (∀ y, RolePerm w.dag u.role y → ¬ Permits y r) ∧
      ∃ c t ns, Target w r c ∧ w.tobjs[c]? = some t ∧ Place t r ns ∧ (u.namespace_ = [] ∨ u.namespace_ = ns) ∧
        Covers w r.principal c u.tenant ∧ ∀ y, ¬ ScopedPerm w now r c ns y := by
  obtain ⟨u0, g1, hd, ht, hts, hdef, hiff⟩ := add_one hv
  rw [hu] at g1; cases g1
  have ha : ∀ x, Assigned w x → Assigned v x := fun x hx => (hiff x).2 (.inl hx)
  have st' : Steady w e now := fun u hu => st u (ha u hu)
  have invv := inv_addPrincipalRole inv hv
  have tw' : ∀ c, Target w r c → NoTwins w r.principal c := fun c hc =>
    noTwins_shrink ht ha (tw c (target_grow ht hts hdef ha hc))
  have hmc : ∀ p t, ManagesChildren v p t → ManagesChildren w p t := by
    rintro p t ⟨x, k1, k2, k3, k4⟩
    rcases (hiff x).1 k1 with k1 | rfl
    · exact ⟨x, k1, k2, k3, k4⟩
    · rw [← k2, ← k3]; exact hm k4
  have hM : ∀ p c c', Managed v p c c' → Managed w p c c' := by
    intro p c c' h
    induction h with
    | self => exact .self
    | child _ g1 g2 g3 ih => exact .child ih (ht ▸ g1) (hmc _ _ g2) g3
  have hC : ∀ {p c t}, Covers v p c t → Covers w p c t := fun ⟨c', t', k1, k2, k3⟩ => ⟨c', t', hM _ _ _ k1, ht ▸ k2, k3⟩
  have hsc : ∀ {c ns y}, ScopedPerm v now r c ns y → ScopedPerm w now r c ns y ∨
      (u.scope = r.scope ∧ u.principal = r.principal ∧ Live u now ∧ RolePerm w.dag u.role y ∧
        (u.namespace_ = [] ∨ u.namespace_ = ns) ∧ Covers w r.principal c u.tenant) := by
    rintro c ns y ⟨t', u', g1, g2, g3, g4⟩
    rcases (hiff u').1 g2.1 with g5 | rfl
    · exact .inl ⟨t', u', hC g1, ⟨g5, g2.2⟩, g3, hd ▸ g4⟩
    · obtain ⟨_, k1, k2, k3, k4⟩ := g2
      exact .inr ⟨g3, k1, k3, hd ▸ g4, k4, k2 ▸ hC g1⟩
  have hcs : ∀ {c ns y}, u.scope = r.scope → u.principal = r.principal → Live u now → RolePerm w.dag u.role y →
      (u.namespace_ = [] ∨ u.namespace_ = ns) → Covers w r.principal c u.tenant → ScopedPerm v now r c ns y :=
    fun k1 k2 k3 k4 k5 k6 => ⟨u.tenant, u, covers_grow ht ha k6, ⟨(hiff u).2 (.inr rfl), k2, rfl, k3, k5⟩, k1, hd.symm ▸ k4⟩
  have hb : b = false ↔ ¬ Grants2 v now r := by
    rw [← authorize_exact invv st tw h']
    cases b <;> simp
  rw [hb]
  constructor
  · intro hng
    obtain ⟨c, t, ns, x, h1, h2, h3, h4, h5⟩ := (authorize_exact inv st' tw' h).1 rfl
    have h1' := target_grow ht hts hdef ha h1
    have h2' : v.tobjs[c]? = some t := ht.symm ▸ h2
    rcases h4 with h4 | ⟨h4, h6⟩
    · exact absurd ⟨c, t, ns, x, h1', h2', h3, .inl (scoped_grow hd ht ha h4), h5⟩ hng
    · by_cases hex : ∃ y, ScopedPerm v now r c ns y
      · obtain ⟨y, hy⟩ := hex
        rcases hsc hy with hy | ⟨k1, k2, k3, k4, k5, k6⟩
        · exact absurd hy (h4 y)
        · refine ⟨fun hs => ?_, k1, k2, k3, ⟨y, k4⟩, fun z hz hp => ?_, c, t, ns, h1, h2, h3, k5, k6, h4⟩
          · obtain ⟨t', u', g1, g2, g3, g4⟩ := h6
            exact h4 x ⟨t', u', g1, g2, g3.trans hs.symm, g4⟩
          · exact hng ⟨c, t, ns, z, h1', h2', h3, .inl (hcs k1 k2 k3 hz k5 k6), hp⟩
      · exact absurd ⟨c, t, ns, x, h1', h2', h3, .inr ⟨fun y hy => hex ⟨y, hy⟩, unscoped_grow hd ht ha h6⟩, h5⟩ hng
  · rintro ⟨_, k1, k2, k3, ⟨y, k4⟩, k5, c, t, ns, h1, h2, h3, k6, k7, k8⟩ ⟨c', t', ns', x, g1, g2, g3, g4, g5⟩
    have hc : c' = c := by
      have hnv : named v r = named w r := by unfold named; rw [hdef]
      rcases h1 with ⟨_, h1⟩ | ⟨h1, _⟩
      · rcases g1 with ⟨_, g1⟩ | ⟨g1, _⟩
        · rw [hnv, hts] at g1
          have e1 := (GoMap.mem_iff_get inv.tenantsWF).1 g1
          have e2 := (GoMap.mem_iff_get inv.tenantsWF).1 h1
          rw [e2] at e1; cases e1; rfl
        · exact absurd (hnv.symm.trans g1) hn
      · exact absurd h1 hn
    subst hc
    rw [ht, h2] at g2; cases g2
    cases place_unique (inv.nsWF t (List.mem_of_getElem? h2)) h3 g3
    rcases g4 with g4 | ⟨g4, _⟩
    · rcases hsc g4 with g4 | ⟨_, _, _, k9, _⟩
      · exact k8 x g4
      · exact k5 x k9 g5
    · exact g4 y (hcs k1 k2 k3 k4 k6 k7)

/-- C53. What happens with the assignment of the counterexample: each condition is met and the access is lost;
for a scope that already has a permission, or with a role that has none, it is kept. -/
example : ∃ w, V2Op.run {} (exRoles ++ exTenant ++ exUser ++ [.newRole (str "z"), .addRoles [2],
      .newPrincipalRole { principal := str "p", tenant := str "t", role := str "q", scope := str "s" },
      .newPrincipalRole { principal := str "p", tenant := str "t", role := str "z", scope := str "s" },
      .newPrincipalRole { principal := str "p", tenant := str "t", role := str "r", scope := str "s" }]) = .ok w ∧
    (w.authorize exEnv 9 [] { exReq with scope := str "s" }).map (·.1) = .ok true ∧
    ((w.addPrincipalRole [1]).bind fun v => (v.authorize exEnv 9 [] { exReq with scope := str "s" }).map (·.1)) = .ok false ∧
    ((w.addPrincipalRole [2]).bind fun v => (v.authorize exEnv 9 [] { exReq with scope := str "s" }).map (·.1)) = .ok true ∧
    ((w.addPrincipalRole [3, 1]).bind fun v => (v.authorize exEnv 9 [] { exReq with scope := str "s" }).map (·.1)) = .ok true :=
  Out.chk_ok (by decide +kernel)

/-! ## C52 -/

section status
variable {v : V2} (hts : v.tenants = w.tenants) (hdef : v.defTenant = w.defTenant) (hd : v.dag = w.dag)
  (ha : ∀ x, Assigned v x ↔ Assigned w x)
  (hobj : ∀ c : Nat, (v.tobjs[c]?).map (fun t : T2 => (t.id, t.namespaces, t.defNs, t.children)) =
    (w.tobjs[c]?).map (fun t : T2 => (t.id, t.namespaces, t.defNs, t.children)))
include hobj

theorem obj_same {c : Nat} {t : T2} (h : v.tobjs[c]? = some t) : ∃ t', w.tobjs[c]? = some t' ∧ t'.id = t.id ∧
    t'.namespaces = t.namespaces ∧ t'.defNs = t.defNs ∧ t'.children = t.children := by
  have := hobj c
  rw [h] at this
  cases h' : w.tobjs[c]? with
  | none => rw [h'] at this; cases this
  | some t' =>
    rw [h'] at this
    simp only [Option.map_some, Option.some.injEq, Prod.mk.injEq] at this
    exact ⟨t', rfl, this.1.symm, this.2.1.symm, this.2.2.1.symm, this.2.2.2.symm⟩

include ha in
theorem managed_same {p : Str} {c c' : Nat} (h : Managed v p c c') : Managed w p c c' := by
  induction h with
  | self => exact .self
  | child _ g1 g2 g3 ih =>
    obtain ⟨u, k1, k2⟩ := g2
    obtain ⟨t', m1, m2, _, _, m3⟩ := obj_same hobj g1
    exact .child ih m1 ⟨u, (ha u).1 k1, m2 ▸ k2⟩ (m3 ▸ g3)

include ha in
theorem covers_same {p : Str} {c : Nat} {t : Str} (h : Covers v p c t) : Covers w p c t := by
  obtain ⟨c', t', h1, h2, h3⟩ := h
  obtain ⟨t2, m1, m2, _⟩ := obj_same hobj h2
  exact ⟨c', t2, managed_same ha hobj h1, m1, m2.trans h3⟩

include ha hd in
theorem scoped_same {now : Int} {r : Req2} {c : Nat} {ns x : Str} (h : ScopedPerm v now r c ns x) : ScopedPerm w now r c ns x := by
  obtain ⟨t, u, h1, h2, h3, h4⟩ := h
  exact ⟨t, u, covers_same ha hobj h1, ⟨(ha u).1 h2.1, h2.2⟩, h3, hd ▸ h4⟩

include ha hd in
theorem unscoped_same {now : Int} {r : Req2} {c : Nat} {ns x : Str} (h : UnscopedPerm v now r c ns x) : UnscopedPerm w now r c ns x := by
  obtain ⟨t, u, h1, h2, h3, h4⟩ := h
  exact ⟨t, u, covers_same ha hobj h1, ⟨(ha u).1 h2.1, h2.2⟩, h3, hd ▸ h4⟩

include ha hd hts hdef in
theorem grants_same {now : Int} {r : Req2} (hn : named w r ≠ [])
    (back : ∀ {c ns y}, ScopedPerm w now r c ns y → ScopedPerm v now r c ns y) (h : Grants2 v now r) : Grants2 w now r := by
  have hnv : named v r = named w r := by unfold named; rw [hdef]
  obtain ⟨c, t, ns, x, h1, h2, h3, h4, h5⟩ := h
  obtain ⟨t', m1, m2, m3, m4, m5⟩ := obj_same hobj h2
  refine ⟨c, t', ns, x, ?_, m1, ?_, ?_, h5⟩
  · rcases h1 with ⟨_, h1⟩ | ⟨h1, _⟩
    · exact .inl ⟨hn, by rw [← hts, ← hnv]; exact h1⟩
    · exact absurd (hnv.symm.trans h1) hn
  · unfold Place InNs at *
    rw [m3, m4]; exact h3
  · rcases h4 with h4 | ⟨h4, h6⟩
    · exact .inl (scoped_same hd ha hobj h4)
    · exact .inr ⟨fun y hy => h4 y (back hy), unscoped_same hd ha hobj h6⟩

end status

/-- C52. For requests that name a tenant, or fall back to the default tenant, the status of tenants has no influence at all:
after any change of a status both calls give the same answer. -/
theorem C52_ignored (inv : Inv w) {c : Nat} {s : Int} {v : V2} (hv : w.setStatus c s = .ok v) {now : Int} (st : Steady w e now)
    {r : Req2} (tw : ∀ c, Target w r c → NoTwins w r.principal c) (hn : named w r ≠ []) {fuel' : Nat} {site' : List Val}
    {e' : Env} (st' : Steady v e' now) {v' : V2} {b b' : Bool} (h : w.authorize e fuel site r = .ok (b, w'))
    (h' : v.authorize e' fuel' site' r = .ok (b', v')) : b' = b := by
  have invv := inv_setStatus inv hv
  obtain ⟨t, ht, hv⟩ := withT_eq_ok.1 hv
  cases hv
  have hobj : ∀ k : Nat, ((w.setT c { t with status := s }).tobjs[k]?).map (fun t : T2 => (t.id, t.namespaces, t.defNs, t.children)) =
      (w.tobjs[k]?).map (fun t : T2 => (t.id, t.namespaces, t.defNs, t.children)) := by
    intro k
    show ((w.tobjs.set c { t with status := s })[k]?).map _ = _
    by_cases hk : c = k
    · subst hk
      rw [ht, List.getElem?_set_self (List.getElem?_eq_some_iff.1 ht).1]; rfl
    · rw [List.getElem?_set_ne hk]
  have ha : ∀ x, Assigned (w.setT c { t with status := s }) x ↔ Assigned w x := fun _ => Iff.rfl
  have tw' : ∀ k, Target (w.setT c { t with status := s }) r k → NoTwins (w.setT c { t with status := s }) r.principal k := by
    intro k hk c1 c2 t1 t2 h1 h2 h3 h4 h5
    obtain ⟨t1', m1, m2, _⟩ := obj_same hobj h3
    obtain ⟨t2', n1, n2, _⟩ := obj_same hobj h4
    refine tw k ?_ c1 c2 t1' t2' (managed_same ha hobj h1) (managed_same ha hobj h2) m1 n1 (m2.trans (h5.trans n2.symm))
    rcases hk with hk | ⟨hk, _⟩
    · exact .inl hk
    · exact absurd hk hn
  have iff : Grants2 (w.setT c { t with status := s }) now r ↔ Grants2 w now r :=
    ⟨grants_same (w := w) (v := w.setT c { t with status := s }) rfl rfl rfl ha hobj hn
        (scoped_same (v := w) (w := w.setT c { t with status := s }) rfl (fun x => (ha x).symm) fun k => (hobj k).symm),
      grants_same (v := w) (w := w.setT c { t with status := s }) rfl rfl rfl (fun x => (ha x).symm) (fun k => (hobj k).symm) hn
        (scoped_same (w := w) (v := w.setT c { t with status := s }) rfl ha hobj)⟩
  have e1 := authorize_exact inv st tw h
  have e2 := authorize_exact invv st' tw' h'
  rw [iff, ← e1] at e2
  cases b <;> cases b' <;> simp_all

/-- C52. Granted with the tenant active, inactive and active again. -/
example : ∃ w, V2Op.run {} (exRoles ++ exTenant ++ exUser) = .ok w ∧ (w.authorize exEnv 9 [] exReq).map (·.1) = .ok true ∧
    ((w.setStatus 0 1).bind fun v => (v.authorize exEnv 9 [] exReq).map (·.1)) = .ok true ∧
    (((w.setStatus 0 1).bind fun v => v.setStatus 0 0).bind fun v => (v.authorize exEnv 9 [] exReq).map (·.1)) = .ok true :=
  Out.chk_ok (by decide +kernel)

end V2
end Verif
