import Verif.Lemmas.Grow

/-! # Which calls put attributes into the role graph -/

namespace Verif
open Spec

/-- The call puts the attribute into groups with this id: it is a call on a group with that id, or on a role that is not
locked, and lists the attribute. -/
def RoleOp.Lists (h : RHeap) (g : Str) (a : Attr) : RoleOp → Prop
  | .addPerm r grp as => grp = g ∧ a ∈ as ∧ ∃ ro, h.roles[r]? = some ro ∧ ro.lock = false
  | .addAttrs ga as => a ∈ as ∧ ∃ G, h.groups[ga]? = some G ∧ G.id = g
  | _ => False

/-- A group with this id holds the entry. -/
def InGroup (h : RHeap) (g : Str) (e : Str × Attr) : Prop := ∃ (i : Nat) (G : GroupObj), h.groups[i]? = some G ∧ G.id = g ∧ e ∈ G.perms

/-- A role keeps a group under its id. -/
def ById (h : RHeap) : Prop := ∀ (a : Nat) ro, h.roles[a]? = some ro → ∀ k ga, (k, ga) ∈ ro.perms →
  ∃ G, h.groups[ga]? = some G ∧ G.id = k

/-- Everything new in the groups is listed. -/
structure HOrigin (L : Str → Attr → Prop) (h h' : RHeap) : Prop where
  byId : ById h → ById h'
  new : ById h → ∀ g e, InGroup h' g e → InGroup h g e ∨ L g e.2

namespace HOrigin
variable {h h' : RHeap} {L : Str → Attr → Prop}

theorem refl (h : RHeap) : HOrigin L h h := ⟨id, fun _ _ _ h => .inl h⟩

theorem mem_set {V : Type} {m : GoMap Str V} {k k' : Str} {x x' : V} (h : (k', x') ∈ m.set k x) :
    (k' = k ∧ x' = x) ∨ (k', x') ∈ m := by
  induction m with
  | nil => cases List.mem_singleton.1 h; exact .inl ⟨rfl, rfl⟩
  | cons e t ih =>
    obtain ⟨a, v⟩ := e
    rw [GoMap.set] at h
    split at h
    · rcases List.mem_cons.1 h with h | h
      · cases h; exact .inl ⟨rfl, rfl⟩
      · exact .inr (List.mem_cons_of_mem _ h)
    · rcases List.mem_cons.1 h with h | h
      · exact .inr (h ▸ List.mem_cons_self)
      · exact (ih h).imp_right (List.mem_cons_of_mem _)

theorem keep_mem {as : List Attr} {m : GoMap Str Attr} {e : Str × Attr} (h : e ∈ RHeap.addAttrsKeep m as) : e ∈ m ∨ e.2 ∈ as := by
  induction as generalizing m with
  | nil => exact .inl h
  | cons a as ih =>
    rw [RHeap.addAttrsKeep] at h
    split at h
    · exact (ih h).imp_right (List.mem_cons_of_mem _)
    · rcases ih h with h | h
      · rcases mem_set h with ⟨_, h⟩ | h
        · exact .inr (h ▸ List.mem_cons_self)
        · exact .inl h
      · exact .inr (List.mem_cons_of_mem _ h)

theorem fold_mem {as : List Attr} {m : GoMap Str Attr} {e : Str × Attr}
    (h : e ∈ as.foldl (fun m a => m.set a.toStr a) m) : e ∈ m ∨ e.2 ∈ as := by
  induction as generalizing m with
  | nil => exact .inl h
  | cons a as ih =>
    rcases ih h with h | h
    · rcases mem_set h with ⟨_, h⟩ | h
      · exact .inr (h ▸ List.mem_cons_self)
      · exact .inl h
    · exact .inr (List.mem_cons_of_mem _ h)

/-- Only a role changed, and its new groups are kept under their ids. -/
theorem setRole {r : Nat} {ro ro' : RoleObj} (hr : h.roles[r]? = some ro)
    (hp : ∀ k ga, (k, ga) ∈ ro'.perms → (k, ga) ∈ ro.perms ∨ ∃ G, h.groups[ga]? = some G ∧ G.id = k) :
    HOrigin L h { h with roles := h.roles.set r ro' } := by
  refine ⟨fun b a x hx k ga hk => ?_, fun _ _ _ h => .inl h⟩
  by_cases e : r = a
  · subst e
    rw [List.getElem?_set_self (RHeap.lt_of_get hr)] at hx; cases hx
    rcases hp k ga hk with h1 | h1
    · exact b r ro hr k ga h1
    · exact h1
  · rw [List.getElem?_set_ne e] at hx
    exact b a x hx k ga hk

theorem setGroup {r : Nat} {g g' : GroupObj} (hr : h.groups[r]? = some g) (hid : g'.id = g.id)
    (hk : ∀ e ∈ g'.perms, e ∈ g.perms ∨ L g.id e.2) : HOrigin L h { h with groups := h.groups.set r g' } := by
  refine ⟨fun b a x hx k ga hg => ?_, fun _ gr e he => ?_⟩
  · obtain ⟨G, hG, hi⟩ := b a x hx k ga hg
    by_cases e : r = ga
    · subst e
      rw [hr] at hG; cases hG
      exact ⟨g', by rw [List.getElem?_set_self (RHeap.lt_of_get hr)], hid.trans hi⟩
    · exact ⟨G, by rw [List.getElem?_set_ne e]; exact hG, hi⟩
  · obtain ⟨i, G, hG, hi, hm⟩ := he
    by_cases e : r = i
    · subst e
      rw [List.getElem?_set_self (RHeap.lt_of_get hr)] at hG; cases hG
      rcases hk _ hm with h1 | h1
      · exact .inl ⟨r, g, hr, hid ▸ hi, h1⟩
      · exact .inr (hi ▸ hid.symm ▸ h1)
    · rw [List.getElem?_set_ne e] at hG
      exact .inl ⟨i, G, hG, hi, hm⟩

theorem addRole (h : RHeap) (id : Str) : HOrigin L h { h with roles := h.roles ++ [{ id := id }] } := by
  refine ⟨fun b a x hx k ga hk => ?_, fun _ _ _ h => .inl h⟩
  by_cases e : a < h.roles.length
  · rw [get_append_lt e] at hx; exact b a x hx k ga hk
  · rw [List.getElem?_append_right (Nat.le_of_not_lt e)] at hx
    cases List.mem_singleton.1 (List.mem_of_getElem? hx)
    cases hk

theorem addGroup (h : RHeap) (g : GroupObj) (hk : ∀ e ∈ g.perms, L g.id e.2) : HOrigin L h { h with groups := h.groups ++ [g] } := by
  refine ⟨fun b a x hx k ga hk => ?_, fun _ gr e he => ?_⟩
  · obtain ⟨G, hG, hi⟩ := b a x hx k ga hk
    exact ⟨G, by rw [get_append_lt (RHeap.lt_of_get hG)]; exact hG, hi⟩
  · obtain ⟨i, G, hG, hi, hm⟩ := he
    by_cases e : i < h.groups.length
    · rw [get_append_lt e] at hG; exact .inl ⟨i, G, hG, hi, hm⟩
    · rw [List.getElem?_append_right (Nat.le_of_not_lt e)] at hG
      cases List.mem_singleton.1 (List.mem_of_getElem? hG)
      exact .inr (hi ▸ hk _ hm)

theorem trans {a b c : RHeap} (h1 : HOrigin L a b) (h2 : HOrigin L b c) : HOrigin L a c :=
  ⟨fun h => h2.byId (h1.byId h), fun h g e he => (h2.new (h1.byId h) g e he).elim (h1.new h g e) .inr⟩

theorem mono {L' : Str → Attr → Prop} (h1 : HOrigin L h h') (hl : ∀ g a, L g a → L' g a) : HOrigin L' h h' :=
  ⟨h1.byId, fun b g e he => (h1.new b g e he).imp_right (hl _ _)⟩

theorem addDescLoop {r : Nat} {ds : List Nat} (hs : RHeap.addDescendant.loop r h ds = .ok h') : HOrigin L h h' := by
  induction ds generalizing h with
  | nil => cases hs; exact refl _
  | cons d ds ih =>
    rw [RHeap.addDescendant.loop] at hs
    split at hs
    · rename_i dro ro hd hr
      split at hs
      · exact ih hs
      · exact (setRole (ro' := { ro with desc := ro.desc.set dro.id d }) hr fun _ _ h => .inl h).trans (ih hs)
    · cases hs

theorem addPermission {r : Nat} {g : Str} {as : List Attr} {e : Option Err} (hs : h.addPermission r g as = .ok (e, h')) :
    HOrigin (fun g' a => g = g' ∧ a ∈ as ∧ ∃ ro, h.roles[r]? = some ro ∧ ro.lock = false) h h' := by
  unfold RHeap.addPermission at hs
  split at hs
  · cases hs
  · rename_i ro hr
    split at hs
    · cases hs; exact refl _
    · rename_i hl
      have hl : ∃ ro, h.roles[r]? = some ro ∧ ro.lock = false := ⟨ro, hr, by simpa using hl⟩
      split at hs
      · rename_i ga hga
        split at hs
        · cases hs
        · rename_i G hG
          cases hs
          refine ⟨fun b => ?_, fun b => ?_⟩
          all_goals
            obtain ⟨G', hG', hi⟩ := b r ro hr g ga (GoMap.get_some_mem hga)
            rw [hG] at hG'; cases hG'
            have s1 : HOrigin (fun g' a => g = g' ∧ a ∈ as ∧ ∃ ro, h.roles[r]? = some ro ∧ ro.lock = false) h
                { h with groups := h.groups.set ga { G with perms := RHeap.addAttrsKeep G.perms as } } :=
              setGroup hG rfl fun e he => (keep_mem he).imp_right fun h => ⟨hi.symm, h, hl⟩
            have s2 := s1.trans (setRole (h := { h with groups := h.groups.set ga { G with perms := RHeap.addAttrsKeep G.perms as } })
              (ro' := { ro with perms := ro.perms.set g ga }) hr fun k x hk => by
                rcases mem_set hk with ⟨rfl, rfl⟩ | h1
                · exact .inl (GoMap.get_some_mem hga)
                · exact .inl h1)
          · exact s2.byId b
          · exact s2.new b
      · cases hs
        have s1 : HOrigin (fun g' a => g = g' ∧ a ∈ as ∧ ∃ ro, h.roles[r]? = some ro ∧ ro.lock = false) h
            { h with groups := h.groups ++ [{ id := g, perms := RHeap.addAttrsKeep [] as }] } :=
          addGroup _ _ fun e he => (keep_mem he).elim (by simp) fun h => ⟨rfl, h, hl⟩
        exact s1.trans (setRole (h := { h with groups := h.groups ++ [{ id := g, perms := RHeap.addAttrsKeep [] as }] })
          (ro' := { ro with perms := ro.perms.set g h.groups.length }) hr fun k x hk => by
            rcases mem_set hk with ⟨rfl, rfl⟩ | h1
            · exact .inr ⟨_, by simp; rfl, rfl⟩
            · exact .inl h1)

theorem apply {op : RoleOp} (ha : op.apply h = .ok h') : HOrigin (fun g a => op.Lists h g a) h h' := by
  cases op with
  | newRole id => cases ha; exact addRole _ _
  | newGroup id => cases ha; exact addGroup _ _ (by simp)
  | addDesc r ds =>
    obtain ⟨⟨e, h2⟩, h3, rfl⟩ := Out.map_eq_ok.1 ha
    unfold RHeap.addDescendant at h3
    split at h3
    · cases h3
    · split at h3
      · cases h3; exact .refl _
      · obtain ⟨h4, h5, h6⟩ := Out.map_eq_ok.1 h3
        cases h6; exact .addDescLoop h5
  | addPerm r g as =>
    obtain ⟨⟨e, h2⟩, h3, rfl⟩ := Out.map_eq_ok.1 ha; exact .addPermission h3
  | addGroup r ga =>
    obtain ⟨⟨e, h2⟩, h3, rfl⟩ := Out.map_eq_ok.1 ha
    unfold RHeap.addPermissionResourceGroup at h3
    split at h3
    · rename_i ro g hr hg
      split at h3
      · cases h3; exact .refl _
      · split at h3
        · cases h3; exact .refl _
        · cases h3
          refine .setRole hr fun k x hk => ?_
          rcases mem_set hk with ⟨rfl, rfl⟩ | h1
          · exact .inr ⟨g, hg, rfl⟩
          · exact .inl h1
    · cases h3
  | addAttrs ga as =>
    simp only [RoleOp.apply, RHeap.groupAddAttributes] at ha
    split at ha
    · cases ha
    · rename_i g hg
      cases ha; exact .setGroup hg rfl fun e he => (fold_mem he).imp_right fun h => ⟨h, g, hg, rfl⟩
  | lock r b =>
    simp only [RoleOp.apply, RHeap.setLock] at ha
    split at ha
    · cases ha
    · rename_i g hg
      cases ha; exact .setRole hg fun _ _ h => .inl h

/-- `AddPermissionsToRole` of the managers. -/
theorem addPermissionsToRole {roles groups : GoMap Str Nat} {r g : Str} {as : List Attr}
    {e : Option Err} (ha : h.addPermissionsToRole roles groups r g as = .ok (e, h')) :
    HOrigin (fun g' a => g = g' ∧ a ∈ as ∧ (∃ ga, groups.get g = some ga) ∧
      ∃ x ro, roles.get r = some x ∧ h.roles[x]? = some ro ∧ ro.lock = false) h h' := by
  unfold RHeap.addPermissionsToRole at ha
  split at ha
  · cases ha; exact .refl _
  · rename_i x hx
    split at ha
    · cases ha; exact .refl _
    · rename_i ga hga
      split at ha
      · cases ha
      · split at ha
        · exact (HOrigin.addPermission ha).mono fun g' a ⟨h1, h2, ro, h3, h4⟩ => ⟨h1, h2, ⟨ga, hga⟩, x, ro, hx, h3, h4⟩
        · cases ha; exact .refl _

/-- What a role grants is held by a group with the requested id, under a text that equals or matches the activity. -/
theorem of_granted {allowed : List Str} {g act : Str} {r : Nat} (b : ById h) (ok : RHeap.OK h) (hg : Granted h allowed g act r) :
    ∃ e, InGroup h g e ∧ (e.2.resource ++ 32 :: e.2.action = act ∨ Matches (e.2.resource ++ 32 :: e.2.action) act) := by
  have own : ∀ r, OwnGrant h r g act →
      ∃ e, InGroup h g e ∧ (e.2.resource ++ 32 :: e.2.action = act ∨ Matches (e.2.resource ++ 32 :: e.2.action) act) := by
    rintro r ⟨G, ⟨ro, ga, h1, h2, h3⟩, k, a, h4, h5⟩
    obtain ⟨G', hG, hi⟩ := b r ro h1 g ga h2
    rw [h3] at hG; cases hG
    have := ok.keyed G (List.mem_of_getElem? h3) _ h4
    exact ⟨(k, a), ⟨ga, G, h3, hi, h4⟩, by simp only at this ⊢; rw [← this]; exact h5⟩
  rcases hg.2 with h1 | ⟨d, _, _, _, _, h1⟩
  · exact own _ h1
  · exact own _ h1

end HOrigin
end Verif
