import Verif.Props.V2Regrant
import Verif.Props.V2Setup

/-!
# Adding namespaces, scopes and tenants (v2)
-/

namespace Verif
namespace Spec

/-- The call adds a namespace, not as the default one, or scopes, or registers a tenant. -/
inductive SetsUp : V2Op → Prop
  | namespace_ {c : Nat} {n : Str} : SetsUp (.addNamespace c n false)
  | scopes {c : Nat} {n : Str} {scs : List Str} : SetsUp (.addScopes c n scs)
  | tenant {c : Nat} : SetsUp (.addTenant c)

/-- The call does not add a second namespace to a tenant without default namespace, unless the request names its namespace, and does not
register a tenant in place of another one with the same id. -/
def Spares (w : V2) (r : Req2) : V2Op → Prop
  | .addNamespace c n _ => r.namespace_ ≠ [] ∨ ∀ t, w.tobjs[c]? = some t → t.defNs ≠ [] ∨ (∃ scs, (n, scs) ∈ t.namespaces) ∨ t.namespaces.length ≠ 1
  | .addTenant c => ∀ t (c' : Nat), w.tobjs[c]? = some t → (t.id, c') ∈ w.tenants → c' = c
  | _ => True

end Spec

open Spec V2

namespace Wider2

/-- Namespace and scope of a request are still there if no namespace and no scope is lost and an only namespace stays the only one. -/
theorem place {t t' : T2} (wf : GoMap.WF t.namespaces) (wf' : GoMap.WF t'.namespaces) (hd : t'.defNs = t.defNs)
    (hs : ∀ k s, t.namespaces.get k = some s → ∃ s', t'.namespaces.get k = some s' ∧ ∀ x ∈ s, x ∈ s') {r : Req2}
    (h1 : r.namespace_ = [] → t.defNs = [] → ∀ k s, t.namespaces = [(k, s)] → ∃ s', t'.namespaces = [(k, s')]) {ns : Str}
    (h : Place t r ns) : Place t' r ns := by
  obtain ⟨h2, scs, h3, h4⟩ := h
  obtain ⟨s', h5, h6⟩ := hs _ _ ((GoMap.mem_iff_get wf).1 h3)
  refine ⟨?_, s', (GoMap.mem_iff_get wf').2 h5, h4.imp_right (h6 _)⟩
  rcases h2 with h2 | ⟨h2, h7, h8⟩ | ⟨h2, h7, s, h8⟩
  · exact .inl h2
  · exact .inr (.inl ⟨h2, by rwa [hd], by rwa [hd]⟩)
  · exact .inr (.inr ⟨h2, by rwa [hd], h1 h2 h7 _ _ h8⟩)

/-- What a call that sets up more leaves as it was. -/
structure Wider (w v : V2) (r : Req2) : Prop where
  prs : v.prs = w.prs
  users : v.userRoles = w.userRoles
  dag : v.dag = w.dag
  default : v.defTenant = w.defTenant
  tenants : ∀ k c, (k, c) ∈ w.tenants → (k, c) ∈ v.tenants
  objs : ∀ (c : Nat) t, w.tobjs[c]? = some t → ∃ t', v.tobjs[c]? = some t' ∧ t'.id = t.id ∧ t'.status = t.status ∧ t'.children = t.children ∧
    ∀ ns, Place t r ns → Place t' r ns
  back : ∀ (c : Nat) t', v.tobjs[c]? = some t' → ∃ t, w.tobjs[c]? = some t ∧ t'.id = t.id ∧ t'.children = t.children

namespace Wider
variable {w v : V2} {r : Req2} (W : Wider w v r)
include W

theorem asg (u : PR) : Assigned v u ↔ Assigned w u := by unfold Assigned; rw [W.prs, W.users]

theorem manages (p t : Str) : ManagesChildren v p t ↔ ManagesChildren w p t :=
  exists_congr fun u => and_congr (W.asg u) .rfl

theorem managed {p : Str} {c c' : Nat} : Managed v p c c' ↔ Managed w p c c' := by
  constructor
  · intro h
    induction h with
    | self => exact .self
    | child _ h2 h3 h4 ih =>
      obtain ⟨t, g1, g2, g3⟩ := W.back _ _ h2
      exact .child ih g1 (g2 ▸ (W.manages ..).1 h3) (g3 ▸ h4)
  · intro h
    induction h with
    | self => exact .self
    | child _ h2 h3 h4 ih =>
      obtain ⟨t, g1, g2, _, g3, _⟩ := W.objs _ _ h2
      exact .child ih g1 (g2 ▸ (W.manages ..).2 h3) (g3 ▸ h4)

theorem covers {p : Str} {c : Nat} {t : Str} : Covers v p c t ↔ Covers w p c t := by
  constructor
  · rintro ⟨c', t', h1, h2, h3⟩
    obtain ⟨t0, g1, g2, _⟩ := W.back _ _ h2
    exact ⟨c', t0, W.managed.1 h1, g1, g2 ▸ h3⟩
  · rintro ⟨c', t', h1, h2, h3⟩
    obtain ⟨t0, g1, g2, _⟩ := W.objs _ _ h2
    exact ⟨c', t0, W.managed.2 h1, g1, g2.trans h3⟩

theorem noTwins {p : Str} {c : Nat} (h : NoTwins v p c) : NoTwins w p c := by
  intro c1 c2 t1 t2 h1 h2 h3 h4 h5
  obtain ⟨t1', g1, g2, _⟩ := W.objs _ _ h3
  obtain ⟨t2', g3, g4, _⟩ := W.objs _ _ h4
  exact h c1 c2 t1' t2' (W.managed.2 h1) (W.managed.2 h2) g1 g3 (by rw [g2, g4, h5])

theorem target {c : Nat} (h : Target w r c) : Target v r c := by
  have hn : named v r = named w r := by unfold named; rw [W.default]
  rcases h with ⟨h1, h2⟩ | ⟨h1, u, t, h2, h3, h4, h5, h6, h7⟩
  · exact .inl ⟨hn ▸ h1, hn ▸ W.tenants _ _ h2⟩
  · obtain ⟨t', g1, _, g2, _⟩ := W.objs _ _ h6
    exact .inr ⟨hn.trans h1, u, t', (W.asg u).2 h2, h3, h4, W.tenants _ _ h5, g1, g2.trans h7⟩

theorem counts {p ns t : Str} {now : Int} {u : PR} : Counts v p ns t now u ↔ Counts w p ns t now u := and_congr (W.asg u) .rfl

theorem scopedP {now : Int} {c : Nat} {ns x : Str} : ScopedPerm v now r c ns x ↔ ScopedPerm w now r c ns x := by
  unfold ScopedPerm
  rw [W.dag]
  exact exists_congr fun t => exists_congr fun u => and_congr W.covers (and_congr W.counts .rfl)

theorem unscopedP {now : Int} {c : Nat} {ns x : Str} : UnscopedPerm v now r c ns x ↔ UnscopedPerm w now r c ns x := by
  unfold UnscopedPerm
  rw [W.dag]
  exact exists_congr fun t => exists_congr fun u => and_congr W.covers (and_congr W.counts .rfl)

theorem grants {now : Int} (h : Grants2 w now r) : Grants2 v now r := by
  obtain ⟨c, t, ns, x, h1, h2, h3, h4, h5⟩ := h
  obtain ⟨t', g1, _, _, _, g2⟩ := W.objs _ _ h2
  exact ⟨c, t', ns, x, W.target h1, g1, g2 _ h3,
    h4.imp W.scopedP.2 fun ⟨k1, k2⟩ => ⟨fun y hy => k1 y (W.scopedP.1 hy), W.unscopedP.2 k2⟩, h5⟩

theorem can {now : Int} {roles : List Str} (h : Can2 w now r roles) : Can2 v now r roles := by
  obtain ⟨c, t, ns, x, h1, h2, h3, h4, t1, u, h5, h6, h7, h8⟩ := h
  obtain ⟨t', g1, _, _, _, g2⟩ := W.objs _ _ h2
  exact ⟨c, t', ns, x, W.target h1, g1, g2 _ h3, h4, t1, u, W.covers.2 h5, W.counts.2 h6, h7, by rw [W.dag]; exact h8⟩

end Wider

/-- Changing the namespaces of one tenant object. -/
theorem replaced {w v : V2} {c : Nat} {t t' : T2} {r : Req2} (hc : w.tobjs[c]? = some t) (h : V2.Replaced w v c t')
    (ht : t' = { t with namespaces := t'.namespaces }) (hp : ∀ ns, Place t r ns → Place t' r ns) : Wider w v r := by
  obtain ⟨_, h2, h3⟩ := h
  have hi : t'.id = t.id ∧ t'.status = t.status ∧ t'.children = t.children := by rw [ht]; exact ⟨rfl, rfl, rfl⟩
  have e : v = { w with tobjs := v.tobjs } := by rw [← h3]
  refine ⟨by rw [e], by rw [e], by rw [e], by rw [e], fun k c h => by rw [e]; exact h, fun i x hx => ?_, fun i x hx => ?_⟩
  · rw [h2]
    split
    · rename_i e; subst e
      rw [hc] at hx; cases hx
      exact ⟨t', rfl, hi.1, hi.2.1, hi.2.2, hp⟩
    · exact ⟨x, hx, rfl, rfl, rfl, fun _ h => h⟩
  · rw [h2] at hx
    split at hx
    · rename_i e; subst e
      cases hx
      exact ⟨t, hc, hi.1, hi.2.2⟩
    · exact ⟨x, hx, rfl, rfl⟩

theorem wider {w v : V2} (inv : Inv w) {op : V2Op} (so : SetsUp op) (h : op.apply w = .ok v) {r : Req2} (sp : Spares w r op) : Wider w v r := by
  have invv := inv_apply inv h
  cases so with
  | @namespace_ c n =>
    obtain ⟨t, hc, _⟩ := withT_eq_ok.1 h
    obtain ⟨v1, t', g1, g2, g3, g4, _, g5⟩ := C73_addNamespace hc n false
    cases g1.symm.trans h
    have hd := g5 rfl
    have hv : v.tobjs[c]? = some t' := by rw [g2.2.1]; simp
    have wf := inv.nsWF t (List.mem_of_getElem? hc)
    refine replaced hc g2 (by rw [g3]; simp [hd]) fun ns => place wf (invv.nsWF t' (List.mem_of_getElem? hv)) hd
      (fun k s hk => ⟨s, by rw [g4, hk]; rfl, fun _ h => h⟩) fun hr hn k s hk => ?_
    rcases sp with sp | sp
    · exact absurd hr sp
    · rcases sp t hc with sp | ⟨scs, sp⟩ | sp
      · exact absurd hn sp
      · obtain ⟨x, hx, h2⟩ := withT_eq_ok.1 h
        rw [hc] at hx; cases hx
        have e := (GoMap.mem_iff_get wf).1 sp
        rw [e] at h2
        cases h2
        rw [setT] at hv
        simp [(List.getElem?_eq_some_iff.1 hc).1] at hv
        rw [← hv]; exact ⟨s, hk⟩
      · rw [hk] at sp; exact absurd rfl sp
  | @scopes c n scs =>
    obtain ⟨⟨b, x⟩, h1, rfl⟩ := Out.map_eq_ok.1 h
    obtain ⟨t, hc, h2⟩ := withT_eq_ok.1 h1
    cases hn : t.namespaces.get n with
    | none =>
      rw [hn] at h2; cases h2
      exact ⟨rfl, rfl, rfl, rfl, fun _ _ h => h, fun c t h => ⟨t, h, rfl, rfl, rfl, fun _ h => h⟩, fun c t h => ⟨t, h, rfl, rfl⟩⟩
    | some s =>
      rw [hn] at h2; cases h2
      have wf := inv.nsWF t (List.mem_of_getElem? hc)
      have hv : (w.setT c { t with namespaces := t.namespaces.set n (scs.foldl addStr s) }).tobjs[c]? =
          some { t with namespaces := t.namespaces.set n (scs.foldl addStr s) } := by
        rw [setT]; simp [(List.getElem?_eq_some_iff.1 hc).1]
      refine replaced hc (replaced_setT hc _) rfl fun ns => place wf (invv.nsWF _ (List.mem_of_getElem? hv)) rfl (fun k s' hk => ?_)
        fun _ _ k s' hk => ?_
      · dsimp only
        rw [GoMap.get_set]
        split
        · rename_i e; subst e
          rw [hn] at hk; cases hk
          exact ⟨_, rfl, fun x hx => mem_addStrs.2 (.inl hx)⟩
        · exact ⟨s', hk, fun _ h => h⟩
      · dsimp only
        rw [hk] at hn ⊢
        by_cases e : k = n
        · subst e; exact ⟨scs.foldl addStr s, by simp [GoMap.set]⟩
        · simp [GoMap.get, e] at hn
  | @tenant c =>
    obtain ⟨t, ps, hc, rfl⟩ := addTenant_eq h
    refine ⟨rfl, rfl, rfl, rfl, fun k c' hk => ?_, fun c t h => ⟨t, h, rfl, rfl, rfl, fun _ h => h⟩, fun c t h => ⟨t, h, rfl, rfl⟩⟩
    refine (GoMap.mem_iff_get invv.tenantsWF).2 ?_
    rw [GoMap.get_set]
    split
    · rename_i e; subst e
      rw [sp t c' hc hk]
    · exact (GoMap.mem_iff_get inv.tenantsWF).1 hk

end Wider2

namespace V2
open Wider2

/-- C154 as intended: adding a namespace, scopes or a tenant takes no access away. -/
def C154_full : Prop := ∀ (ops : List V2Op) (w v : V2) (op : V2Op) (e : Env) (now : Int) (r : Req2) (fuel : Nat) (site : List Val) (b : Bool)
    (x y : V2), V2Op.run {} ops = .ok w → SetsUp op → op.apply w = .ok v → Steady w e now →
  (∀ c, Target v r c → NoTwins v r.principal c) →
  w.authorize e fuel site r = .ok (true, x) → v.authorize e fuel site r = .ok (b, y) → b = true

/-- C154, partial: nothing is taken away, unless a tenant that has one namespace and no default gets a second one and the request names
none, or the tenant takes the place of another one with the same id. -/
theorem C154_partial {w v : V2} (inv : Inv w) {op : V2Op} (so : SetsUp op) {r : Req2} (sp : Spares w r op) (h : op.apply w = .ok v)
    {e : Env} {now : Int} (st : Steady w e now) (tw : ∀ c, Target v r c → NoTwins v r.principal c) {fuel fuel' : Nat}
    {site site' : List Val} {b : Bool} {x y : V2} :
    (w.authorize e fuel site r = .ok (true, x) → v.authorize e fuel' site' r = .ok (b, y) → b = true) ∧
    ∀ roles, w.can e fuel site r roles = .ok (true, x) → v.can e fuel' site' r roles = .ok (b, y) → b = true := by
  have W := wider inv so h sp
  have invv := inv_apply inv h
  have st' : Steady v e now := fun u hu => st u ((W.asg u).1 hu)
  have tw' : ∀ c, Target w r c → NoTwins w r.principal c := fun c hc => W.noTwins (tw c (W.target hc))
  exact ⟨fun h1 h2 => (V2.authorize_exact invv st' tw h2).2 (W.grants ((V2.authorize_exact inv st tw' h1).1 rfl)),
    fun roles h1 h2 => (V2.can_exact invv st' tw h2).2 (W.can ((V2.can_exact inv st tw' h1).1 rfl))⟩

/-- C154, partial: the calls return afterwards, given enough stack, if no nil entry is in the list of assignments, unless the matcher hangs
on a permission of the principal. -/
theorem C154_returns_partial {w v : V2} (inv : Inv w) (hnil : none ∉ w.userRoles) {op : V2Op} (so : SetsUp op) {r : Req2} (sp : Spares w r op)
    (h : op.apply w = .ok v) {e : Env} {fuel : Nat} (hf : v.needs ≤ fuel) {site : List Val} :
    ((∀ u x, Assigned w u → u.principal = r.principal → RolePerm w.dag u.role x → ¬ Hangs x (r.resource ++ [32] ++ r.action)) →
      ∃ b y, v.authorize e fuel site r = .ok (b, y)) ∧ ∀ roles, ∃ b y, v.can e fuel site r roles = .ok (b, y) := by
  have W := wider inv so h sp
  have invv : Inv v := inv_apply inv h
  have hn' : none ∉ v.userRoles := by rw [W.users]; exact hnil
  exact ⟨fun hx => authorize_total invv hn' hf fun c tid u x _ _ h3 h4 _ h6 => hx u x ((W.asg u).1 h3) h4 (W.dag ▸ h6),
    fun roles => can_total invv hn' hf⟩

/-- C154. A request about a tenant that has one namespace and no default, which names no namespace, is refused as soon as the tenant gets a
second namespace, whatever was granted. -/
theorem C154_second {w v : V2} (inv : Inv w) {c : Nat} {n : Str} {t : T2} (hc : w.tobjs[c]? = some t) (h1 : t.defNs = [])
    (h2 : t.namespaces.length = 1) (hn : ∀ scs, (n, scs) ∉ t.namespaces) (h : w.tAddNamespace c n false = .ok v) {r : Req2}
    (hr : r.namespace_ = []) (hm : named w r ≠ []) (ht : (named w r, c) ∈ w.tenants) {e : Env} {now : Int} (st : Steady v e now)
    (tw : ∀ c, Target v r c → NoTwins v r.principal c) {fuel : Nat} {site : List Val} {b : Bool} {y : V2} :
    (v.authorize e fuel site r = .ok (b, y) → b = false) ∧ ∀ roles, v.can e fuel site r roles = .ok (b, y) → b = false := by
  have invv : Inv v := inv_apply inv (op := .addNamespace c n false) h
  obtain ⟨v1, t', g1, g2, g3, g4, _, g5⟩ := C73_addNamespace hc n false
  cases g1.symm.trans h
  have hd := g5 rfl
  have e1 : v = { w with tobjs := v.tobjs } := by rw [← g2.2.2]
  have hv : v.tobjs[c]? = some t' := by rw [g2.2.1]; simp
  have hP : ∀ c1 t1 ns, Target v r c1 → v.tobjs[c1]? = some t1 → Place t1 r ns → False := by
    intro c1 t1 ns k1 k2 k3
    have en : named v r = named w r := by rw [e1]; rfl
    have et : v.tenants = w.tenants := by rw [e1]
    have ec : c1 = c := by
      rcases k1 with ⟨_, k1⟩ | ⟨k1, _⟩
      · rw [en, et] at k1
        have a1 := (GoMap.mem_iff_get inv.tenantsWF).1 k1
        rw [(GoMap.mem_iff_get inv.tenantsWF).1 ht] at a1
        cases a1; rfl
      · exact absurd (en ▸ k1) hm
    subst ec
    rw [hv] at k2; cases k2
    obtain ⟨k, s, hk⟩ : ∃ k s, t.namespaces = [(k, s)] := by
      match h' : t.namespaces, h2 with
      | [(k, s)], _ => exact ⟨k, s, rfl⟩
    have hkn : k ≠ n := fun e => hn s (by rw [hk, e]; simp)
    have a1 : t'.namespaces.get k = some s := by rw [g4, hk]; simp [GoMap.get]
    have a2 : t'.namespaces.get n = some [] := by rw [g4, hk]; simp [GoMap.get, hkn]
    rcases k3.1 with ⟨k3, _⟩ | ⟨_, k3, _⟩ | ⟨_, _, s', k3⟩
    · exact k3 hr
    · exact k3 (hd.trans h1)
    · rw [k3] at a1 a2
      have b1 := GoMap.get_some_mem a1
      have b2 := GoMap.get_some_mem a2
      simp only [List.mem_singleton, Prod.mk.injEq] at b1 b2
      exact hkn (b1.1.trans b2.1.symm)
  refine ⟨fun h => Bool.eq_false_iff.2 fun hb => ?_, fun roles h => Bool.eq_false_iff.2 fun hb => ?_⟩
  · obtain ⟨c1, t1, ns, x, k1, k2, k3, _⟩ := (V2.authorize_exact invv st tw h).1 hb
    exact hP _ _ _ k1 k2 k3
  · obtain ⟨c1, t1, ns, x, k1, k2, k3, _⟩ := (V2.can_exact invv st tw h).1 hb
    exact hP _ _ _ k1 k2 k3

/-- Tenant "t" has the namespace "n", which is not its default; `p` has role "r" in it. -/
def exOnly : List V2Op := exRoles ++ [.newTenant (str "t") none, .addNamespace 0 (str "n") false, .addTenant 0] ++ exUser

/-- C154. `p` may read "x" in tenant "t" until the tenant gets a second namespace. -/
theorem C154_counterexample : ∃ w v, V2Op.run {} exOnly = .ok w ∧ w.tAddNamespace 0 (str "m") false = .ok v ∧ v.tobjs.length = 1 ∧
    (w.authorize exEnv 9 [] exReq).map (·.1) = .ok true ∧ (v.authorize exEnv 9 [] exReq).map (·.1) = .ok false := by
  obtain ⟨w, h, h1, h2⟩ := Out.chk_ok (x := V2Op.run {} exOnly) (P := fun w =>
    (w.authorize exEnv 9 [] exReq).map (·.1) = .ok true ∧ (w.tAddNamespace 0 (str "m") false).map (fun v =>
      decide (v.tobjs.length = 1 ∧ (v.authorize exEnv 9 [] exReq).map (·.1) = .ok false)) = .ok true) (by decide +kernel)
  obtain ⟨v, g1, g2⟩ := Out.map_eq_ok.1 h2
  exact ⟨w, v, h, g1, (of_decide_eq_true g2).1, h1, (of_decide_eq_true g2).2⟩

/-- C154. So the intended property fails. -/
theorem C154_full_false : ¬ C154_full := by
  intro hf
  obtain ⟨w, v, h1, h2, h3, h4, h5⟩ := C154_counterexample
  obtain ⟨⟨b, x⟩, g1, g2⟩ := Out.map_eq_ok.1 h4
  obtain ⟨⟨b', y⟩, g3, g4⟩ := Out.map_eq_ok.1 h5
  simp only at g2 g4; subst g2; subst g4
  exact Bool.false_ne_true (hf _ w v _ exEnv 100 exReq 9 [] _ x y h1 .namespace_ h2 (steady_const fun _ => rfl)
    (fun c _ => noTwins_single h3 _ c) g1 g3)

/-- C154. Registering another tenant with the id "t" takes the access of `p` away too. -/
theorem C154_twin : ∃ w v, V2Op.run {} (exOnly ++ [.newTenant (str "t") none]) = .ok w ∧ w.addTenant 1 = .ok v ∧
    (w.authorize exEnv 9 [] exReq).map (·.1) = .ok true ∧ (v.authorize exEnv 9 [] exReq).map (·.1) = .ok false := by
  obtain ⟨w, h, h1, h2⟩ := Out.chk_ok (x := V2Op.run {} (exOnly ++ [.newTenant (str "t") none])) (P := fun w =>
    (w.authorize exEnv 9 [] exReq).map (·.1) = .ok true ∧ (w.addTenant 1).map (fun v =>
      decide ((v.authorize exEnv 9 [] exReq).map (·.1) = .ok false)) = .ok true) (by decide +kernel)
  obtain ⟨v, g1, g2⟩ := Out.map_eq_ok.1 h2
  exact ⟨w, v, h, g1, h1, of_decide_eq_true g2⟩

/-- C154_partial is not about nothing: with the default namespace "n" tenant "t" gets the namespace "m" and then the scope "s" in it, for
which a request of `p` is refused before and granted afterwards. -/
theorem C154_example : ∃ w v v', V2Op.run {} (exRoles ++ exTenant ++ exUser) = .ok w ∧
    Spares w exReq (.addNamespace 0 (str "m") false) ∧ V2Op.apply w (.addNamespace 0 (str "m") false) = .ok v ∧
    Spares v exReq (.addScopes 0 (str "m") [str "s"]) ∧ V2Op.apply v (.addScopes 0 (str "m") [str "s"]) = .ok v' ∧
    (w.authorize exEnv 9 [] exReq).map (·.1) = .ok true ∧ (v'.authorize exEnv 9 [] exReq).map (·.1) = .ok true ∧
    (v.authorize exEnv 9 [] { exReq with namespace_ := str "m", scope := str "s" }).map (·.1) = .ok false ∧
    (v'.authorize exEnv 9 [] { exReq with namespace_ := str "m", scope := str "s" }).map (·.1) = .ok true := by
  obtain ⟨w, h, h1, h2, h3⟩ := Out.chk_ok (x := V2Op.run {} (exRoles ++ exTenant ++ exUser)) (P := fun w =>
    (w.authorize exEnv 9 [] exReq).map (·.1) = .ok true ∧ (∀ t ∈ w.tobjs, t.defNs ≠ []) ∧
    (V2Op.apply w (.addNamespace 0 (str "m") false)).bind (fun v => (V2Op.apply v (.addScopes 0 (str "m") [str "s"])).map fun v' =>
      decide ((v'.authorize exEnv 9 [] exReq).map (·.1) = .ok true ∧
        (v.authorize exEnv 9 [] { exReq with namespace_ := str "m", scope := str "s" }).map (·.1) = .ok false ∧
        (v'.authorize exEnv 9 [] { exReq with namespace_ := str "m", scope := str "s" }).map (·.1) = .ok true)) = .ok true) (by decide +kernel)
  obtain ⟨v, g1, g2⟩ := Out.bind_eq_ok.1 h3
  obtain ⟨v', g3, g4⟩ := Out.map_eq_ok.1 g2
  obtain ⟨g5, g6, g7⟩ := of_decide_eq_true g4
  exact ⟨w, v, v', h, .inr fun t ht => .inl (h2 t (List.mem_of_getElem? ht)), g1, trivial, g3, h1, g5, g6, g7⟩

/-- C154. In this case no nil entry is in the list, and a small stack is enough for `C154_returns_partial`. -/
theorem C154_returns_example : ∃ w, V2Op.run {} (exRoles ++ exTenant ++ exUser) = .ok w ∧ none ∉ w.userRoles ∧
    (V2Op.apply w (.addNamespace 0 (str "m") false)).map (fun v => decide (v.needs ≤ 30)) = .ok true := Out.chk_ok (by decide +kernel)

end V2
end Verif
