import Verif.Lemmas.ManagerOps

/-! # The role graph only grows -/

namespace Verif
open Spec

/-- Roles keep their descendants and groups, groups keep their attribute texts. -/
structure HGrow (h h' : RHeap) : Prop where
  roles : ∀ (a : Nat) (ro : RoleObj), h.roles[a]? = some ro → ∃ ro' : RoleObj, h'.roles[a]? = some ro' ∧ ro'.id = ro.id ∧
    (∀ k d, ro.desc.get k = some d → ro'.desc.get k = some d) ∧ (∀ k g, ro.perms.get k = some g → ro'.perms.get k = some g)
  groups : ∀ (a : Nat) (g : GroupObj), h.groups[a]? = some g → ∃ g' : GroupObj, h'.groups[a]? = some g' ∧ g'.id = g.id ∧
    ∀ k, (g.perms.get k).isSome → (g'.perms.get k).isSome

namespace HGrow
variable {h h' : RHeap}

theorem ext (g : HGrow h h') : HExt h h' :=
  ⟨fun a ro hr => let ⟨ro', e1, e2, _⟩ := g.roles a ro hr; ⟨ro', e1, e2⟩, fun a x hx => let ⟨x', e1, e2, _⟩ := g.groups a x hx; ⟨x', e1, e2⟩⟩

theorem refl (h : RHeap) : HGrow h h :=
  ⟨fun _ ro hr => ⟨ro, hr, rfl, fun _ _ x => x, fun _ _ x => x⟩, fun _ g hg => ⟨g, hg, rfl, fun _ x => x⟩⟩

theorem trans {a b c : RHeap} (h1 : HGrow a b) (h2 : HGrow b c) : HGrow a c := by
  refine ⟨fun i ro hr => ?_, fun i g hg => ?_⟩
  · obtain ⟨r1, e1, e2, e3, e4⟩ := h1.roles i ro hr
    obtain ⟨r2, f1, f2, f3, f4⟩ := h2.roles i r1 e1
    exact ⟨r2, f1, f2.trans e2, fun k d x => f3 k d (e3 k d x), fun k d x => f4 k d (e4 k d x)⟩
  · obtain ⟨r1, e1, e0, e2⟩ := h1.groups i g hg
    obtain ⟨r2, f1, f0, f2⟩ := h2.groups i r1 e1
    exact ⟨r2, f1, f0.trans e0, fun k x => f2 k (e2 k x)⟩

theorem setRole {r : Nat} {ro ro' : RoleObj} (hr : h.roles[r]? = some ro) (hid : ro'.id = ro.id)
    (hd : ∀ k d, ro.desc.get k = some d → ro'.desc.get k = some d) (hp : ∀ k g, ro.perms.get k = some g → ro'.perms.get k = some g) :
    HGrow h { h with roles := h.roles.set r ro' } := by
  refine ⟨fun a x hx => ?_, fun _ g hg => ⟨g, hg, rfl, fun _ x => x⟩⟩
  by_cases e : r = a
  · subst e
    rw [hr] at hx; cases hx
    exact ⟨ro', by rw [List.getElem?_set_self (RHeap.lt_of_get hr)], hid, hd, hp⟩
  · exact ⟨x, by rw [List.getElem?_set_ne e]; exact hx, rfl, fun _ _ x => x, fun _ _ x => x⟩

theorem setGroup {r : Nat} {g g' : GroupObj} (hr : h.groups[r]? = some g) (hid : g'.id = g.id)
    (hk : ∀ k, (g.perms.get k).isSome → (g'.perms.get k).isSome) : HGrow h { h with groups := h.groups.set r g' } := by
  refine ⟨fun _ x hx => ⟨x, hx, rfl, fun _ _ x => x, fun _ _ x => x⟩, fun a x hx => ?_⟩
  by_cases e : r = a
  · subst e
    rw [hr] at hx; cases hx
    exact ⟨g', by rw [List.getElem?_set_self (RHeap.lt_of_get hr)], hid, hk⟩
  · exact ⟨x, by rw [List.getElem?_set_ne e]; exact hx, rfl, fun _ x => x⟩

theorem addRole (h : RHeap) (ro : RoleObj) : HGrow h { h with roles := h.roles ++ [ro] } := by
  refine ⟨fun a x hx => ⟨x, ?_, rfl, fun _ _ x => x, fun _ _ x => x⟩, fun _ g hg => ⟨g, hg, rfl, fun _ x => x⟩⟩
  rw [get_append_lt (RHeap.lt_of_get hx)]; exact hx

theorem addGroup (h : RHeap) (g : GroupObj) : HGrow h { h with groups := h.groups ++ [g] } := by
  refine ⟨fun _ x hx => ⟨x, hx, rfl, fun _ _ x => x, fun _ _ x => x⟩, fun a x hx => ⟨x, ?_, rfl, fun _ x => x⟩⟩
  rw [get_append_lt (RHeap.lt_of_get hx)]; exact hx

theorem get_set_new {m : GoMap Str Nat} {k : Str} {x : Nat} (hk : m.get k = none ∨ m.get k = some x) (j : Str) (y : Nat)
    (hy : m.get j = some y) : (m.set k x).get j = some y := by
  rw [GoMap.get_set]
  split
  · rename_i e
    subst e
    rcases hk with hk | hk <;> rw [hk] at hy
    · cases hy
    · exact hy
  · exact hy

theorem keep_set (as : List Attr) (m : GoMap Str Attr) (k : Str) (hk : (m.get k).isSome) :
    ((RHeap.addAttrsKeep m as).get k).isSome := by
  induction as generalizing m with
  | nil => exact hk
  | cons a as ih =>
    rw [RHeap.addAttrsKeep]
    split
    · exact ih _ hk
    · refine ih _ ?_
      rw [GoMap.get_set]
      split
      · rfl
      · exact hk

theorem addPermission {r : Nat} {g : Str} {as : List Attr} {e : Option Err}
    (ha : h.addPermission r g as = .ok (e, h')) : HGrow h h' := by
  unfold RHeap.addPermission at ha
  split at ha
  · cases ha
  · rename_i ro hr
    split at ha
    · cases ha; exact refl _
    · split at ha
      · rename_i ga hga
        split at ha
        · cases ha
        · rename_i go hg
          cases ha
          refine (setRole (ro' := { ro with perms := ro.perms.set g ga }) hr rfl (fun _ _ x => x) (get_set_new (.inr hga))).trans
            (setGroup (h := { h with roles := _ }) (g' := { go with perms := RHeap.addAttrsKeep go.perms as }) hg rfl ?_)
          exact fun k hk => keep_set as go.perms k hk
      · rename_i hga
        cases ha
        exact (setRole (ro' := { ro with perms := ro.perms.set g h.groups.length }) hr rfl (fun _ _ x => x) (get_set_new (.inl hga))).trans
          (addGroup { h with roles := _ } _)

theorem addDescLoop {r : Nat} {ds : List Nat} {h h' : RHeap} (hl : RHeap.addDescendant.loop r h ds = .ok h') : HGrow h h' := by
  induction ds generalizing h with
  | nil => cases hl; exact .refl _
  | cons d ds ih =>
    rw [RHeap.addDescendant.loop] at hl
    split at hl
    · rename_i dro ro hd hr
      split at hl
      · exact ih hl
      · rename_i hn
        refine (setRole (ro' := { ro with desc := ro.desc.set dro.id d }) hr rfl (get_set_new (.inl ?_)) (fun _ _ x => x)).trans (ih hl)
        simpa using hn
    · cases hl

theorem foldl_set (as : List Attr) (m : GoMap Str Attr) (k : Str) (hk : (m.get k).isSome) :
    ((as.foldl (fun m a => m.set a.toStr a) m).get k).isSome := by
  induction as generalizing m with
  | nil => exact hk
  | cons a as ih =>
    refine ih _ ?_
    rw [GoMap.get_set]
    split
    · rfl
    · exact hk

theorem apply {op : RoleOp} (ha : op.apply h = .ok h') : HGrow h h' := by
  cases op with
  | newRole id => cases ha; exact addRole _ _
  | newGroup id => cases ha; exact addGroup _ _
  | addDesc r ds =>
    obtain ⟨⟨e, h2⟩, h3, rfl⟩ := Out.map_eq_ok.1 ha
    unfold RHeap.addDescendant at h3
    split at h3
    · cases h3
    · split at h3
      · cases h3; exact .refl _
      · obtain ⟨h4, h5, h6⟩ := Out.map_eq_ok.1 h3
        cases h6; exact .addDescLoop h5
  | addPerm r g as =>
    obtain ⟨⟨e, h2⟩, h3, rfl⟩ := Out.map_eq_ok.1 ha; exact .addPermission h3
  | addGroup r ga =>
    obtain ⟨⟨e, h2⟩, h3, rfl⟩ := Out.map_eq_ok.1 ha
    unfold RHeap.addPermissionResourceGroup at h3
    split at h3
    · rename_i ro g hr hg
      split at h3
      · cases h3; exact .refl _
      · split at h3
        · cases h3; exact .refl _
        · rename_i hn
          cases h3; exact .setRole hr rfl (fun _ _ x => x) (get_set_new (.inl (by simpa using hn)))
    · cases h3
  | addAttrs ga as =>
    simp only [RoleOp.apply, RHeap.groupAddAttributes] at ha
    split at ha
    · cases ha
    · rename_i g hg
      cases ha; exact .setGroup hg rfl fun k hk => foldl_set as g.perms k hk
  | lock r b =>
    simp only [RoleOp.apply, RHeap.setLock] at ha
    split at ha
    · cases ha
    · rename_i g hg
      cases ha; exact .setRole hg rfl (fun _ _ x => x) (fun _ _ x => x)

theorem addPermissionsToRole {roles groups : GoMap Str Nat} {r g : Str} {as : List Attr}
    {e : Option Err} (ha : h.addPermissionsToRole roles groups r g as = .ok (e, h')) : HGrow h h' := by
  unfold RHeap.addPermissionsToRole at ha
  split at ha
  · cases ha; exact .refl _
  · split at ha
    · cases ha; exact .refl _
    · split at ha
      · cases ha
      · split at ha
        · exact .addPermission ha
        · cases ha; exact .refl _

/-! ### What a role grants -/

theorem child (g : HGrow h h') (ok : RHeap.OK h) {r d : Nat} (hc : Child h r d) : Child h' r d := by
  obtain ⟨ro, k, h1, h2⟩ := hc
  obtain ⟨ro', e1, _, e3, _⟩ := g.roles r ro h1
  exact ⟨ro', k, e1, GoMap.get_some_mem (e3 k d ((GoMap.mem_iff_get (ok.descWF ro (List.mem_of_getElem? h1))).1 h2))⟩

theorem desc (g : HGrow h h') (ok : RHeap.OK h) {r d : Nat} (hc : Desc h r d) : Desc h' r d := by
  induction hc with
  | child hc => exact .child (g.child ok hc)
  | step hc _ ih => exact .step (g.child ok hc) ih

theorem groupOf (g : HGrow h h') (ok : RHeap.OK h) {r : Nat} {grp : Str} {go : GroupObj} (hg : GroupOf h r grp go) :
    ∃ go', GroupOf h' r grp go' ∧ ∀ k, (go.perms.get k).isSome → (go'.perms.get k).isSome := by
  obtain ⟨ro, ga, h1, h2, h3⟩ := hg
  obtain ⟨ro', e1, _, _, e4⟩ := g.roles r ro h1
  obtain ⟨go', f1, _, f2⟩ := g.groups ga go h3
  exact ⟨go', ⟨ro', ga, e1, GoMap.get_some_mem (e4 grp ga ((GoMap.mem_iff_get (ok.permsWF ro (List.mem_of_getElem? h1))).1 h2)), f1⟩, f2⟩

theorem ownGrant (g : HGrow h h') (ok : RHeap.OK h) {r : Nat} {grp name : Str} (hg : OwnGrant h r grp name) : OwnGrant h' r grp name := by
  obtain ⟨go, h1, k, a, h2, h3⟩ := hg
  obtain ⟨go', e1, e2⟩ := g.groupOf ok h1
  have : (go'.perms.get k).isSome := e2 k (GoMap.get_isSome_iff.2 (List.mem_map_of_mem (f := (·.1)) h2))
  obtain ⟨a', ha'⟩ := Option.isSome_iff_exists.1 this
  exact ⟨go', e1, k, a', GoMap.get_some_mem ha', h3⟩

/-- A role that grew grants what it granted. -/
theorem granted (g : HGrow h h') (ok : RHeap.OK h) {allowed : List Str} {r : Nat} {grp name : Str}
    (hg : Granted h allowed grp name r) : Granted h' allowed grp name r := by
  obtain ⟨⟨go, h1⟩, h2⟩ := hg
  obtain ⟨go', e1, _⟩ := g.groupOf ok h1
  refine ⟨⟨go', e1⟩, h2.imp (g.ownGrant ok) ?_⟩
  rintro ⟨d, dr, k1, k2, k3, k4⟩
  obtain ⟨dr', f1, f2, _⟩ := g.roles d dr k2
  exact ⟨d, dr', g.desc ok k1, f1, f2 ▸ k3, g.ownGrant ok k4⟩

end HGrow

end Verif
