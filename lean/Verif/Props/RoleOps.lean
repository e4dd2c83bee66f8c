import Verif.Props.Role

/-!
# C65, C66: what the mutators of roles and attribute groups do, and attribute texts
(role.go:18-35, 105-147, permission.go:24-56; v1/role.go)
-/

namespace Verif
open Spec

/-! ## C65 -/

/-- Role `r` of `h` is replaced by `ro'`; nothing else changes. -/
def OnlyRole (h h' : RHeap) (r : Nat) (ro' : RoleObj) : Prop :=
  h'.roles.length = h.roles.length ∧ h'.groups = h.groups ∧ h'.roles[r]? = some ro' ∧
  ∀ q ≠ r, h'.roles[q]? = h.roles[q]?

/-- The role object at an address carries the id. -/
def hasId (h : RHeap) (k : Str) (d : Nat) : Bool :=
  match h.roles[d]? with
  | some dr => dr.id = k
  | none => false

theorem addDescendant_loop_effect {r : Nat} {ds : List Nat} {h h' : RHeap} {ro : RoleObj}
    (hr : h.roles[r]? = some ro) (hs : RHeap.addDescendant.loop r h ds = .ok h') :
    ∃ ro', OnlyRole h h' r ro' ∧ ro'.id = ro.id ∧ ro'.perms = ro.perms ∧ ro'.lock = ro.lock ∧
      ∀ k, ro'.desc.get k = (ro.desc.get k).or (ds.find? (hasId h k)) := by
  induction ds generalizing h ro with
  | nil => cases hs; exact ⟨ro, ⟨rfl, rfl, hr, fun _ _ => rfl⟩, rfl, rfl, rfl, fun k => by simp⟩
  | cons d ds ih =>
    rw [RHeap.addDescendant.loop] at hs
    split at hs
    · rename_i dro ro1 hd hr1
      rw [hr] at hr1; cases hr1
      have hlt := RHeap.lt_of_get hr
      split at hs
      · rename_i hsome
        obtain ⟨ro', h1, h2, h3, h4, h5⟩ := ih hr hs
        refine ⟨ro', h1, h2, h3, h4, fun k => ?_⟩
        rw [h5, List.find?_cons]
        by_cases hk : dro.id = k
        · subst hk
          obtain ⟨x, hx⟩ := Option.isSome_iff_exists.1 hsome
          simp [hx]
        · simp [hasId, hd, hk]
      · rename_i hnone
        have hset : (h.roles.set r { ro with desc := ro.desc.set dro.id d })[r]? =
            some { ro with desc := ro.desc.set dro.id d } := by simp [hlt]
        obtain ⟨ro', ⟨a1, a2, a3, a4⟩, h2, h3, h4, h5⟩ := ih (h := { h with roles := _ }) hset hs
        refine ⟨ro', ⟨by simpa using a1, a2, a3, fun q hq => ?_⟩, h2, h3, h4, fun k => ?_⟩
        · rw [a4 q hq]; simp [Ne.symm hq]
        · have hid : ∀ x, hasId { h with roles := h.roles.set r { ro with desc := ro.desc.set dro.id d } } k x =
              hasId h k x := by
            intro x
            unfold hasId
            by_cases hx : x = r
            · subst hx; rw [hset, hr]
            · simp [Ne.symm hx]
          rw [h5, List.find?_cons, funext hid]
          simp only [GoMap.get_set]
          by_cases hk : dro.id = k
          · subst hk
            have : ro.desc.get dro.id = none := by simpa using hnone
            simp [hasId, hd, this]
          · simp [hasId, hd, hk]
    · cases hs

/-- C65. `AddDescendant` on an unlocked role: every id keeps the descendant it had, otherwise gets the first given
role with that id; nothing else changes. -/
theorem C65_addDescendant {h h' : RHeap} {r : Nat} {ds : List Nat} {ro : RoleObj} (hr : h.roles[r]? = some ro)
    (hs : h.addDescendant r ds = .ok (none, h')) :
    ∃ ro', OnlyRole h h' r ro' ∧ ro'.id = ro.id ∧ ro'.perms = ro.perms ∧ ro'.lock = ro.lock ∧
      ∀ k, ro'.desc.get k = (ro.desc.get k).or (ds.find? (hasId h k)) := by
  rw [RHeap.addDescendant, hr] at hs
  simp only at hs
  split at hs
  · cases hs
  · obtain ⟨h1, h2, h3⟩ := Out.map_eq_ok.1 hs
    cases h3
    exact addDescendant_loop_effect hr h2

/-- C65. `AddPermissionResourceGroup` on an unlocked role: the group is stored under its id unless the role has one
with that id; nothing else changes. -/
theorem C65_addGroup {h h' : RHeap} {r ga : Nat} {ro : RoleObj} {g : GroupObj} (hr : h.roles[r]? = some ro)
    (hg : h.groups[ga]? = some g) (hs : h.addPermissionResourceGroup r ga = .ok (none, h')) :
    ∃ ro', OnlyRole h h' r ro' ∧ ro'.id = ro.id ∧ ro'.desc = ro.desc ∧ ro'.lock = ro.lock ∧
      ∀ k, ro'.perms.get k = (ro.perms.get k).or (if k = g.id then some ga else none) := by
  have hlt := RHeap.lt_of_get hr
  rw [RHeap.addPermissionResourceGroup, hr, hg] at hs
  simp only at hs
  split at hs
  · cases hs
  · split at hs
    · rename_i hsome
      cases hs
      refine ⟨ro, ⟨rfl, rfl, hr, fun _ _ => rfl⟩, rfl, rfl, rfl, fun k => ?_⟩
      split
      · rename_i hk; subst hk
        obtain ⟨x, hx⟩ := Option.isSome_iff_exists.1 hsome
        simp [hx]
      · simp
    · rename_i hnone
      cases hs
      refine ⟨{ ro with perms := ro.perms.set g.id ga }, ⟨by simp, rfl, by simp [hlt],
        fun q hq => by simp [Ne.symm hq]⟩, rfl, rfl, rfl, fun k => ?_⟩
      simp only [GoMap.get_set]
      by_cases hk : g.id = k
      · subst hk
        have : ro.perms.get g.id = none := by simpa using hnone
        simp [this]
      · simp [hk, Ne.symm hk]

theorem addAttrsKeep_find (m : GoMap Str Attr) (as : List Attr) (k : Str) :
    (RHeap.addAttrsKeep m as).get k = (m.get k).or (as.find? (fun a => a.toStr = k)) := by
  induction as generalizing m with
  | nil => simp [RHeap.addAttrsKeep]
  | cons a as ih =>
    rw [RHeap.addAttrsKeep, List.find?_cons]
    split
    · rename_i hsome
      rw [ih]
      by_cases hk : a.toStr = k
      · subst hk
        obtain ⟨x, hx⟩ := Option.isSome_iff_exists.1 hsome
        simp [hx]
      · simp [hk]
    · rename_i hnone
      rw [ih, GoMap.get_set]
      by_cases hk : a.toStr = k
      · subst hk
        have : m.get a.toStr = none := by simpa using hnone
        simp [this]
      · simp [hk]

/-- C65. `AddPermission` on an unlocked role that has the group: in the group object (also for every other role that
shares it) every text keeps its attribute, otherwise gets the first given one; nothing else changes. -/
theorem C65_addPermission_existing {h h' : RHeap} {r ga : Nat} {ro : RoleObj} {g : GroupObj} {grp : Str}
    {as : List Attr} (hr : h.roles[r]? = some ro) (hga : ro.perms.get grp = some ga) (hg : h.groups[ga]? = some g)
    (hs : h.addPermission r grp as = .ok (none, h')) :
    h'.roles.length = h.roles.length ∧ (∀ q ≠ r, h'.roles[q]? = h.roles[q]?) ∧
    (∃ ro', h'.roles[r]? = some ro' ∧ ro'.id = ro.id ∧ ro'.desc = ro.desc ∧ ro'.lock = ro.lock ∧
      ∀ k, ro'.perms.get k = ro.perms.get k) ∧
    h'.groups.length = h.groups.length ∧ (∀ x ≠ ga, h'.groups[x]? = h.groups[x]?) ∧
    ∃ g', h'.groups[ga]? = some g' ∧ g'.id = g.id ∧
      ∀ k, g'.perms.get k = (g.perms.get k).or (as.find? (fun a => a.toStr = k)) := by
  have hlt := RHeap.lt_of_get hr
  have hglt : ga < h.groups.length := (List.getElem?_eq_some_iff.1 hg).1
  rw [RHeap.addPermission, hr] at hs
  simp only [hga, hg] at hs
  split at hs
  · cases hs
  · cases hs
    refine ⟨by simp, fun q hq => by simp [Ne.symm hq], ⟨_, List.getElem?_set_self hlt, rfl, rfl, rfl, fun k => ?_⟩,
      by simp, fun x hx => by simp [Ne.symm hx], _, List.getElem?_set_self hglt, rfl, fun k => addAttrsKeep_find _ _ _⟩
    simp only [GoMap.get_set]
    split
    · rename_i hk; subst hk; exact hga.symm
    · rfl

/-- C65. `AddPermission` on an unlocked role without the group: a new group object, shared with no other role, holds
the first given attribute of every text; nothing else changes. -/
theorem C65_addPermission_new {h h' : RHeap} {r : Nat} {ro : RoleObj} {grp : Str}
    {as : List Attr} (hr : h.roles[r]? = some ro) (hga : ro.perms.get grp = none)
    (hs : h.addPermission r grp as = .ok (none, h')) :
    h'.roles.length = h.roles.length ∧ (∀ q ≠ r, h'.roles[q]? = h.roles[q]?) ∧
    (∃ ro', h'.roles[r]? = some ro' ∧ ro'.id = ro.id ∧ ro'.desc = ro.desc ∧ ro'.lock = ro.lock ∧
      ∀ k, ro'.perms.get k = if k = grp then some h.groups.length else ro.perms.get k) ∧
    ∃ g', h'.groups = h.groups ++ [g'] ∧ g'.id = grp ∧
      ∀ k, g'.perms.get k = as.find? (fun a => a.toStr = k) := by
  have hlt := RHeap.lt_of_get hr
  rw [RHeap.addPermission, hr] at hs
  simp only [hga] at hs
  split at hs
  · cases hs
  · cases hs
    refine ⟨by simp, fun q hq => by simp [Ne.symm hq], ⟨_, List.getElem?_set_self hlt, rfl, rfl, rfl, fun k => ?_⟩,
      _, rfl, rfl, fun k => by simp [addAttrsKeep_find]⟩
    simp only [GoMap.get_set, eq_comm (a := k)]

/-- C65. `AddAttributes`: in the group every given text gets the last given attribute with that text; other texts and
all other objects stay. -/
theorem C65_addAttributes {h h' : RHeap} {ga : Nat} {as : List Attr} {g : GroupObj} (hg : h.groups[ga]? = some g)
    (hs : h.groupAddAttributes ga as = .ok h') :
    h'.roles = h.roles ∧ h'.groups.length = h.groups.length ∧ (∀ x ≠ ga, h'.groups[x]? = h.groups[x]?) ∧
    ∃ g', h'.groups[ga]? = some g' ∧ g'.id = g.id ∧
      ∀ k, g'.perms.get k = (as.reverse.find? (fun a => a.toStr = k)).or (g.perms.get k) := by
  have hglt : ga < h.groups.length := (List.getElem?_eq_some_iff.1 hg).1
  rw [RHeap.groupAddAttributes, hg] at hs
  cases hs
  refine ⟨rfl, by simp, fun x hx => by simp [Ne.symm hx], _, List.getElem?_set_self hglt, rfl, fun k => ?_⟩
  simp only
  have key : ∀ (l : List Attr), (l.reverse.foldl (fun m a => m.set a.toStr a) g.perms).get k =
      (l.find? (fun a => a.toStr = k)).or (g.perms.get k) := by
    intro l
    induction l with
    | nil => simp
    | cons a l ih =>
      rw [List.reverse_cons, List.foldl_append, List.foldl_cons, List.foldl_nil, GoMap.get_set, List.find?_cons]
      by_cases hk : a.toStr = k
      · simp [hk]
      · rw [if_neg hk, ih]; simp [hk]
  simpa using key as.reverse

/-- C65. New roles and groups are empty and unlocked, and the old objects are untouched. -/
theorem C65_new (h : RHeap) (id : Str) :
    (h.newRole id).roles = h.roles ++ [⟨id, [], [], false⟩] ∧ (h.newRole id).groups = h.groups ∧
    (h.newGroup id).groups = h.groups ++ [⟨id, []⟩] ∧ (h.newGroup id).roles = h.roles := ⟨rfl, rfl, rfl, rfl⟩

/-- C65 on a shared group and two roles with one id. -/
example : ∃ h, RoleOp.run {} [.newRole (str "a"), .newRole (str "b"), .newRole (str "b"), .newGroup (str "g"),
      .addGroup 0 0, .addGroup 1 0, .addDesc 0 [2, 1], .addPerm 1 (str "g") [⟨str "x", str "y"⟩]] = .ok h ∧
    (h.roles[0]?.map fun r => r.desc) = some [(str "b", 2)] ∧
    (h.groups[0]?.map fun g => g.perms) = some [(str "x y", ⟨str "x", str "y"⟩)] := ⟨_, rfl, by decide⟩

/-! ## C66 -/

/-- The claim: different attributes have different texts. -/
def C66_full : Prop := ∀ a b : Attr, a.toStr = b.toStr → a = b

/-- C66: two attributes with one text; adding the second one to a role is silently ignored. -/
theorem C66_counterexample :
    Attr.toStr ⟨str "a b", str "c"⟩ = Attr.toStr ⟨str "a", str "b c"⟩ ∧
    ∃ h, RoleOp.run {} [.newRole (str "r"), .addPerm 0 (str "g") [⟨str "a b", str "c"⟩, ⟨str "a", str "b c"⟩]] = .ok h ∧
      (h.groups[0]?.map fun g => g.perms.map (·.2)) = some [⟨str "a b", str "c"⟩] :=
  ⟨by decide, _, rfl, by decide⟩

theorem C66_full_false : ¬ C66_full := fun h => absurd (h _ _ C66_counterexample.1) (by decide)

theorem append_space_inj {a b c d : Str} (ha : (32 : UInt8) ∉ a) (hb : (32 : UInt8) ∉ b)
    (h : a ++ 32 :: c = b ++ 32 :: d) : a = b ∧ c = d := by
  induction a generalizing b with
  | nil =>
    cases b with
    | nil => simpa using h
    | cons y b => simp at h; exact absurd h.1 (by rintro rfl; simp at hb)
  | cons x a ih =>
    cases b with
    | nil => simp at h; exact absurd h.1 (by rintro rfl; simp at ha)
    | cons y b =>
      simp only [List.cons_append, List.cons.injEq] at h
      simp only [List.mem_cons, not_or] at ha hb
      obtain ⟨h1, h2⟩ := ih ha.2 hb.2 h.2
      exact ⟨by rw [h.1, h1], h2⟩

/-- C66 for resources without spaces. Missing: resources with spaces, for which it is false. -/
theorem C66_text_partial {a b : Attr} (ha : (32 : UInt8) ∉ a.resource) (hb : (32 : UInt8) ∉ b.resource)
    (h : a.toStr = b.toStr) : a = b := by
  rw [RHeap.toStr_eq, RHeap.toStr_eq] at h
  obtain ⟨h1, h2⟩ := append_space_inj ha hb h
  cases a; cases b; simp_all

/-- C66: the same for actions without spaces. -/
theorem C66_text_action_partial {a b : Attr} (ha : (32 : UInt8) ∉ a.action) (hb : (32 : UInt8) ∉ b.action)
    (h : a.toStr = b.toStr) : a = b := by
  rw [RHeap.toStr_eq, RHeap.toStr_eq] at h
  have h' := congrArg List.reverse h
  simp only [List.reverse_append, List.reverse_cons, List.append_assoc, List.singleton_append] at h'
  obtain ⟨h1, h2⟩ := append_space_inj (by simpa using ha) (by simpa using hb) h'
  cases a; cases b; simp_all

end Verif
