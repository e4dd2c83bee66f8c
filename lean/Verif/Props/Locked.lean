import Verif.Props.Role

/-!
# Exactly what changes the answers of a locked role (C20)

A locked role and its links stay as they are.  The groups it refers to may be shared: its answers change just by attributes
that calls on such a group, or on another, unlocked role with the group, put into it.
-/

namespace Verif
open Spec

/-- In `h`, the call gives attribute `a` to the group at `ga`: it is called on the group, or on an unlocked role that has
the group. -/
def RoleOp.Gives (h : RHeap) (ga : Nat) (a : Attr) : RoleOp → Prop
  | .addAttrs g as => g = ga ∧ a ∈ as
  | .addPerm r group as => a ∈ as ∧ ∃ ro, h.roles[r]? = some ro ∧ ro.lock = false ∧ (group, ga) ∈ ro.perms
  | _ => False

/-- Some call of a history does. -/
def GivenIn : RHeap → List RoleOp → Nat → Attr → Prop
  | _, [], _, _ => False
  | h, op :: ops, ga, a => op.Gives h ga a ∨ ∃ h1, op.apply h = .ok h1 ∧ GivenIn h1 ops ga a

theorem keys_keep (as : List Attr) (m : GoMap Str Attr) (k : Str) :
    ((RHeap.addAttrsKeep m as).get k).isSome ↔ (m.get k).isSome ∨ ∃ a ∈ as, a.toStr = k := by
  induction as generalizing m with
  | nil => simp [RHeap.addAttrsKeep]
  | cons a as ih =>
    rw [RHeap.addAttrsKeep]
    by_cases hk : a.toStr = k
    · split
      · rename_i hs
        rw [ih]
        exact ⟨fun _ => .inr ⟨a, by simp, hk⟩, fun _ => .inl (hk ▸ hs)⟩
      · rw [ih, GoMap.get_set, if_pos hk]
        exact ⟨fun _ => .inr ⟨a, by simp, hk⟩, fun _ => .inl rfl⟩
    · have : ∀ P : Prop, (P ∨ ∃ x ∈ as, x.toStr = k) ↔ (P ∨ ∃ x ∈ a :: as, x.toStr = k) := by
        intro P
        constructor
        · rintro (h | ⟨x, h1, h2⟩)
          · exact .inl h
          · exact .inr ⟨x, by simp [h1], h2⟩
        · rintro (h | ⟨x, h1, h2⟩)
          · exact .inl h
          · rcases List.mem_cons.1 h1 with rfl | h1
            · exact absurd h2 hk
            · exact .inr ⟨x, h1, h2⟩
      split
      · rw [ih, this]
      · rw [ih, GoMap.get_set, if_neg hk, this]

theorem keys_put (as : List Attr) (m : GoMap Str Attr) (k : Str) :
    ((as.foldl (fun m a => m.set a.toStr a) m).get k).isSome ↔ (m.get k).isSome ∨ ∃ a ∈ as, a.toStr = k := by
  induction as generalizing m with
  | nil => simp
  | cons a as ih =>
    rw [List.foldl_cons, ih, GoMap.get_set]
    constructor
    · rintro (h | ⟨x, h1, h2⟩)
      · split at h
        · exact .inr ⟨a, by simp, by assumption⟩
        · exact .inl h
      · exact .inr ⟨x, by simp [h1], h2⟩
    · rintro (h | ⟨x, h1, h2⟩)
      · left; split
        · rfl
        · exact h
      · rcases List.mem_cons.1 h1 with rfl | h1
        · left; rw [if_pos h2]; rfl
        · exact .inr ⟨x, h1, h2⟩

theorem addDesc_loop_role {r q : Nat} (hq : r ≠ q) {ds : List Nat} {h h' : RHeap} (hs : RHeap.addDescendant.loop r h ds = .ok h') :
    h'.roles[q]? = h.roles[q]? ∧ h'.groups = h.groups := by
  induction ds generalizing h with
  | nil => simp [RHeap.addDescendant.loop] at hs; subst hs; exact ⟨rfl, rfl⟩
  | cons d ds ih =>
    rw [RHeap.addDescendant.loop] at hs
    split at hs
    · split at hs
      · exact ih hs
      · obtain ⟨a, b⟩ := ih hs
        exact ⟨a.trans (set_same hq), b⟩
    · cases hs

theorem addDesc_loop_groups {r : Nat} {ds : List Nat} {h h' : RHeap} (hs : RHeap.addDescendant.loop r h ds = .ok h') :
    h'.groups = h.groups := by
  induction ds generalizing h with
  | nil => simp [RHeap.addDescendant.loop] at hs; subst hs; rfl
  | cons d ds ih =>
    rw [RHeap.addDescendant.loop] at hs
    split at hs
    · split at hs
      · exact ih hs
      · exact (ih hs :)
    · cases hs

/-- A call leaves a locked role as it is, unless it unlocks it. -/
theorem locked_step {h h' : RHeap} {r : Nat} {ro : RoleObj} (hr : h.roles[r]? = some ro) (hl : ro.lock = true) {op : RoleOp}
    (hn : op ≠ .lock r false) (ha : op.apply h = .ok h') : h'.roles[r]? = some ro := by
  have hlt := RHeap.lt_of_get hr
  cases op with
  | newRole id => cases ha; exact (get_append_lt hlt).trans hr
  | newGroup id => cases ha; exact hr
  | addDesc q ds =>
    obtain ⟨⟨e, h2⟩, h3, rfl⟩ := Out.map_eq_ok.1 ha
    by_cases hq : q = r
    · subst hq
      rw [(C19_locked hr hl).1] at h3
      cases h3; exact hr
    · rw [RHeap.addDescendant] at h3
      split at h3
      · cases h3
      · split at h3
        · cases h3; exact hr
        · obtain ⟨h4, h5, h6⟩ := Out.map_eq_ok.1 h3
          cases h6
          exact (addDesc_loop_role hq h5).1.trans hr
  | addPerm q g as =>
    obtain ⟨⟨e, h2⟩, h3, rfl⟩ := Out.map_eq_ok.1 ha
    by_cases hq : q = r
    · subst hq
      rw [(C19_locked hr hl).2.1] at h3
      cases h3; exact hr
    · rw [RHeap.addPermission] at h3
      split at h3
      · cases h3
      · split at h3
        · cases h3; exact hr
        · split at h3
          · split at h3
            · cases h3
            · cases h3; exact (set_same hq).trans hr
          · cases h3; exact (set_same hq).trans hr
  | addGroup q ga =>
    obtain ⟨⟨e, h2⟩, h3, rfl⟩ := Out.map_eq_ok.1 ha
    rw [RHeap.addPermissionResourceGroup] at h3
    split at h3
    · rename_i qo g hqo hg
      split at h3
      · cases h3; exact hr
      · rename_i hql
        split at h3
        · cases h3; exact hr
        · cases h3
          by_cases hq : q = r
          · subst hq; rw [hr] at hqo; cases hqo; exact absurd hl hql
          · exact (set_same hq).trans hr
    · cases h3
  | addAttrs ga as =>
    change h.groupAddAttributes ga as = .ok h' at ha
    rw [RHeap.groupAddAttributes] at ha
    split at ha
    · cases ha
    · cases ha; exact hr
  | lock q b =>
    change h.setLock q b = .ok h' at ha
    rw [RHeap.setLock] at ha
    split at ha
    · cases ha
    · rename_i qo hqo
      cases ha
      by_cases hq : q = r
      · subst hq
        rw [hr] at hqo; cases hqo
        cases b with
        | false => exact absurd rfl hn
        | true =>
          simp only [List.getElem?_set_self hlt]
          rw [← hl]
      · exact (set_same hq).trans hr

/-- What a call adds to a group. -/
theorem group_step {h h' : RHeap} (ok : Spec.RHeap.OK h) {ga : Nat} {g : GroupObj} (hg : h.groups[ga]? = some g) {op : RoleOp}
    (ha : op.apply h = .ok h') :
    ∃ g', h'.groups[ga]? = some g' ∧ ∀ k, (g'.perms.get k).isSome ↔ (g.perms.get k).isSome ∨ ∃ a, op.Gives h ga a ∧ a.toStr = k := by
  have hlt := RHeap.lt_of_get hg
  have same : ∀ {k : Str}, (∀ a, ¬ op.Gives h ga a) → ((g.perms.get k).isSome ↔ (g.perms.get k).isSome ∨ ∃ a, op.Gives h ga a ∧ a.toStr = k) :=
    fun hn => ⟨.inl, fun h => h.elim id fun ⟨a, h, _⟩ => absurd h (hn a)⟩
  cases op with
  | newRole id => cases ha; exact ⟨g, hg, fun k => same fun _ h => h⟩
  | newGroup id => cases ha; exact ⟨g, (get_append_lt hlt).trans hg, fun k => same fun _ h => h⟩
  | addDesc q ds =>
    obtain ⟨⟨e, h2⟩, h3, rfl⟩ := Out.map_eq_ok.1 ha
    refine ⟨g, ?_, fun k => same fun _ h => h⟩
    rw [RHeap.addDescendant] at h3
    split at h3
    · cases h3
    · split at h3
      · cases h3; exact hg
      · obtain ⟨h4, h5, h6⟩ := Out.map_eq_ok.1 h3
        cases h6
        rw [addDesc_loop_groups h5]; exact hg
  | addPerm q grp as =>
    obtain ⟨⟨e, h2⟩, h3, rfl⟩ := Out.map_eq_ok.1 ha
    rw [RHeap.addPermission] at h3
    split at h3
    · cases h3
    · rename_i ro hro
      split at h3
      · rename_i hl
        cases h3
        refine ⟨g, hg, fun k => same ?_⟩
        rintro a ⟨_, ro', h1, h2, _⟩
        rw [hro] at h1; cases h1; rw [hl] at h2; cases h2
      · rename_i hl
        have wf := ok.permsWF ro (List.mem_of_getElem? hro)
        split at h3
        · rename_i ga' hga'
          split at h3
          · cases h3
          · rename_i g0 hg0
            cases h3
            by_cases he : ga' = ga
            · subst he
              rw [hg] at hg0; cases hg0
              refine ⟨_, List.getElem?_set_self hlt, fun k => ?_⟩
              rw [keys_keep]
              refine or_congr_right ⟨?_, ?_⟩
              · rintro ⟨a, h1, h2⟩
                exact ⟨a, ⟨h1, ro, hro, by simpa using hl, GoMap.get_some_mem hga'⟩, h2⟩
              · rintro ⟨a, ⟨h1, _⟩, h2⟩; exact ⟨a, h1, h2⟩
            · refine ⟨g, (set_same he).trans hg, fun k => same ?_⟩
              rintro a ⟨_, ro', h1, _, h3⟩
              rw [hro] at h1; cases h1
              rw [GoMap.mem_iff_get wf, hga'] at h3
              exact he (Option.some.inj h3)
        · rename_i hga'
          cases h3
          refine ⟨g, (get_append_lt hlt).trans hg, fun k => same ?_⟩
          rintro a ⟨_, ro', h1, _, h3⟩
          rw [hro] at h1; cases h1
          rw [GoMap.mem_iff_get wf, hga'] at h3
          cases h3
  | addGroup q ga' =>
    obtain ⟨⟨e, h2⟩, h3, rfl⟩ := Out.map_eq_ok.1 ha
    refine ⟨g, ?_, fun k => same fun _ h => h⟩
    rw [RHeap.addPermissionResourceGroup] at h3
    split at h3
    · split at h3
      · cases h3; exact hg
      · split at h3
        · cases h3; exact hg
        · cases h3; exact hg
    · cases h3
  | addAttrs ga' as =>
    change h.groupAddAttributes ga' as = .ok h' at ha
    rw [RHeap.groupAddAttributes] at ha
    split at ha
    · cases ha
    · rename_i g0 hg0
      cases ha
      by_cases he : ga' = ga
      · subst he
        rw [hg] at hg0; cases hg0
        refine ⟨_, List.getElem?_set_self hlt, fun k => ?_⟩
        rw [keys_put]
        refine or_congr_right ⟨?_, ?_⟩
        · rintro ⟨a, h1, h2⟩; exact ⟨a, ⟨rfl, h1⟩, h2⟩
        · rintro ⟨a, ⟨_, h1⟩, h2⟩; exact ⟨a, h1, h2⟩
      · exact ⟨g, (set_same he).trans hg, fun k => same fun a h => he h.1⟩
  | lock q b =>
    change h.setLock q b = .ok h' at ha
    rw [RHeap.setLock] at ha
    split at ha
    · cases ha
    · cases ha; exact ⟨g, hg, fun k => same fun _ h => h⟩

/-- C20. Whatever is called, a role that is locked and not unlocked keeps its id, its groups and its descendants. -/
theorem C20_role {ops : List RoleOp} {h h' : RHeap} {r : Nat} {ro : RoleObj} (hr : h.roles[r]? = some ro) (hl : ro.lock = true)
    (hn : .lock r false ∉ ops) (hrun : RoleOp.run h ops = .ok h') : h'.roles[r]? = some ro := by
  induction ops generalizing h with
  | nil => cases hrun; exact hr
  | cons op ops ih =>
    rw [RoleOp.run, Out.bind_eq_ok] at hrun
    obtain ⟨h1, h2, h3⟩ := hrun
    exact ih (locked_step hr hl (fun e => hn (by simp [e])) h2) (fun hm => hn (by simp [hm])) h3

/-- C20. What a group has after a history: what it had, and what calls gave it. -/
theorem C20_group {ops : List RoleOp} {h h' : RHeap} (ok : Spec.RHeap.OK h) {ga : Nat} {g : GroupObj} (hg : h.groups[ga]? = some g)
    (hrun : RoleOp.run h ops = .ok h') : ∃ g', h'.groups[ga]? = some g' ∧
      ∀ k, (∃ a, (k, a) ∈ g'.perms) ↔ (∃ a, (k, a) ∈ g.perms) ∨ ∃ a, GivenIn h ops ga a ∧ a.resource ++ 32 :: a.action = k := by
  have key : ∃ g', h'.groups[ga]? = some g' ∧
      ∀ k, (g'.perms.get k).isSome ↔ (g.perms.get k).isSome ∨ ∃ a, GivenIn h ops ga a ∧ a.toStr = k := by
    induction ops generalizing h g with
    | nil => cases hrun; exact ⟨g, hg, fun k => ⟨.inl, fun h => h.elim id fun ⟨_, h, _⟩ => h.elim⟩⟩
    | cons op ops ih =>
      rw [RoleOp.run, Out.bind_eq_ok] at hrun
      obtain ⟨h1, h2, h3⟩ := hrun
      obtain ⟨g1, e1, e2⟩ := group_step ok hg h2
      obtain ⟨g2, f1, f2⟩ := ih (RoleOp.apply_ok ok h2) e1 h3
      refine ⟨g2, f1, fun k => ?_⟩
      rw [f2, e2]
      constructor
      · rintro ((h | ⟨a, h, e⟩) | ⟨a, h, e⟩)
        · exact .inl h
        · exact .inr ⟨a, .inl h, e⟩
        · exact .inr ⟨a, .inr ⟨h1, h2, h⟩, e⟩
      · rintro (h | ⟨a, h | ⟨h4, h5, h⟩, e⟩)
        · exact .inl (.inl h)
        · exact .inl (.inr ⟨a, h, e⟩)
        · rw [h2] at h5; cases h5; exact .inr ⟨a, h, e⟩
  obtain ⟨g', e1, e2⟩ := key
  have mem : ∀ (m : GoMap Str Attr) (k : Str), (∃ a, (k, a) ∈ m) ↔ (m.get k).isSome := by
    intro m k
    rw [GoMap.get_isSome_iff, List.mem_map]
    exact ⟨fun ⟨a, h⟩ => ⟨(k, a), h, rfl⟩, fun ⟨⟨k', a⟩, h, e⟩ => ⟨a, by cases e; exact h⟩⟩
  have txt : ∀ a : Attr, a.toStr = a.resource ++ 32 :: a.action := fun a => by simp [Attr.toStr, str]; rfl
  refine ⟨g', e1, fun k => ?_⟩
  rw [mem, mem, e2]
  simp only [txt]

/-- A role and its descendants are locked. -/
def LockedFrom (h : RHeap) (r : Nat) : Prop := ∀ d, d = r ∨ Desc h r d → ∃ ro, h.roles[d]? = some ro ∧ ro.lock = true

theorem desc_same {h h' : RHeap} {r : Nat} (same : ∀ d, d = r ∨ Desc h r d → h'.roles[d]? = h.roles[d]?) (d : Nat) :
    Desc h' r d ↔ Desc h r d := by
  constructor
  · intro hd
    induction hd with
    | child hc =>
      obtain ⟨ro, k, h1, h2⟩ := hc
      exact .child ⟨ro, k, (same _ (.inl rfl)) ▸ h1, h2⟩
    | step hc _ ih =>
      obtain ⟨ro, k, h1, h2⟩ := hc
      have hc' : Child h _ _ := ⟨ro, k, (same _ (.inl rfl)) ▸ h1, h2⟩
      exact .step hc' (ih fun x hx => same x (.inr (hx.elim (fun e => e ▸ .child hc') fun hx => .step hc' hx)))
  · intro hd
    induction hd with
    | child hc =>
      obtain ⟨ro, k, h1, h2⟩ := hc
      exact .child ⟨ro, k, (same _ (.inl rfl)).trans h1, h2⟩
    | step hc _ ih =>
      obtain ⟨ro, k, h1, h2⟩ := id hc
      exact .step ⟨ro, k, (same _ (.inl rfl)).trans h1, h2⟩
        (ih fun x hx => same x (.inr (hx.elim (fun e => e ▸ .child hc) fun hx => .step hc hx)))

/-- C20. With a locked role, locked descendants and no call that unlocks one of them, the role grants after a history exactly what
it granted before and what matches an attribute that a call gave to the group of the role or of an allowed descendant. -/
theorem C20_exact {ops : List RoleOp} {h h' : RHeap} (ok : Spec.RHeap.OK h) {r : Nat} (hl : LockedFrom h r)
    (hn : ∀ d, d = r ∨ Desc h r d → .lock d false ∉ ops) (hrun : RoleOp.run h ops = .ok h') (allowed : List Str) (group name : Str) :
    Granted h' allowed group name r ↔ Granted h allowed group name r ∨
      (∃ g, GroupOf h r group g) ∧ ∃ d ro ga a, (d = r ∨ Desc h r d ∧ (allowed = [] ∨ ro.id ∈ allowed)) ∧ h.roles[d]? = some ro ∧
        (group, ga) ∈ ro.perms ∧ GivenIn h ops ga a ∧
        (a.resource ++ 32 :: a.action = name ∨ Matches (a.resource ++ 32 :: a.action) name) := by
  have same : ∀ d, d = r ∨ Desc h r d → h'.roles[d]? = h.roles[d]? := fun d hd => by
    obtain ⟨ro, h1, h2⟩ := hl d hd
    rw [C20_role h1 h2 (hn d hd) hrun, h1]
  have grp : ∀ d, d = r ∨ Desc h r d → ((∃ g, GroupOf h' d group g) ↔ ∃ g, GroupOf h d group g) := by
    intro d hd
    constructor
    · rintro ⟨g, ro, ga, h1, h2, _⟩
      rw [same d hd] at h1
      have := ok.perms ro (List.mem_of_getElem? h1) _ h2
      exact ⟨_, ro, ga, h1, h2, List.getElem?_eq_getElem this⟩
    · rintro ⟨g, ro, ga, h1, h2, h3⟩
      obtain ⟨g', h4, _⟩ := C20_group ok h3 hrun
      exact ⟨g', ro, ga, (same d hd).trans h1, h2, h4⟩
  have own : ∀ d, d = r ∨ Desc h r d → (OwnGrant h' d group name ↔ OwnGrant h d group name ∨ ∃ ro ga a, h.roles[d]? = some ro ∧
        (group, ga) ∈ ro.perms ∧ GivenIn h ops ga a ∧
        (a.resource ++ 32 :: a.action = name ∨ Matches (a.resource ++ 32 :: a.action) name)) := by
    intro d hd
    constructor
    · rintro ⟨g', ⟨ro, ga, h1, h2, h3⟩, k, a, h4, h5⟩
      rw [same d hd] at h1
      have hlt := ok.perms ro (List.mem_of_getElem? h1) _ h2
      have hg := List.getElem?_eq_getElem hlt
      obtain ⟨g'', h6, h7⟩ := C20_group ok hg hrun
      rw [h3] at h6; cases h6
      rcases (h7 k).1 ⟨a, h4⟩ with ⟨b, h8⟩ | ⟨b, h8, h9⟩
      · exact .inl ⟨_, ⟨ro, ga, h1, h2, hg⟩, k, b, h8, h5⟩
      · exact .inr ⟨ro, ga, b, h1, h2, h8, h9 ▸ h5⟩
    · rintro (⟨g, ⟨ro, ga, h1, h2, h3⟩, k, a, h4, h5⟩ | ⟨ro, ga, b, h1, h2, h8, h5⟩)
      · obtain ⟨g', h6, h7⟩ := C20_group ok h3 hrun
        obtain ⟨b, hb⟩ := (h7 k).2 (.inl ⟨a, h4⟩)
        exact ⟨g', ⟨ro, ga, (same d hd).trans h1, h2, h6⟩, k, b, hb, h5⟩
      · have hlt := ok.perms ro (List.mem_of_getElem? h1) _ h2
        obtain ⟨g', h6, h7⟩ := C20_group ok (List.getElem?_eq_getElem hlt) hrun
        obtain ⟨c, hc⟩ := (h7 _).2 (.inr ⟨b, h8, rfl⟩)
        exact ⟨g', ⟨ro, ga, (same d hd).trans h1, h2, h6⟩, _, c, hc, h5⟩
  have dsc := desc_same same
  constructor
  · rintro ⟨h1, h2⟩
    rw [grp r (.inl rfl)] at h1
    rcases h2 with h2 | ⟨d, dr, h2, h3, h4, h5⟩
    · rcases (own r (.inl rfl)).1 h2 with h2 | ⟨ro, ga, a, h2⟩
      · exact .inl ⟨h1, .inl h2⟩
      · exact .inr ⟨h1, r, ro, ga, a, .inl rfl, h2⟩
    · rw [dsc] at h2
      rw [same d (.inr h2)] at h3
      rcases (own d (.inr h2)).1 h5 with h5 | ⟨ro, ga, a, h6, h7⟩
      · exact .inl ⟨h1, .inr ⟨d, dr, h2, h3, h4, h5⟩⟩
      · rw [h3] at h6; cases h6
        exact .inr ⟨h1, d, dr, ga, a, .inr ⟨h2, h4⟩, h3, h7⟩
  · rintro (⟨h1, h2⟩ | ⟨h1, d, ro, ga, a, h2, h3, h4⟩)
    · refine ⟨(grp r (.inl rfl)).2 h1, ?_⟩
      rcases h2 with h2 | ⟨d, dr, h2, h3, h4, h5⟩
      · exact .inl ((own r (.inl rfl)).2 (.inl h2))
      · exact .inr ⟨d, dr, (dsc d).2 h2, (same d (.inr h2)).trans h3, h4, (own d (.inr h2)).2 (.inl h5)⟩
    · refine ⟨(grp r (.inl rfl)).2 h1, ?_⟩
      rcases h2 with rfl | ⟨h2, h5⟩
      · exact .inl ((own d (.inl rfl)).2 (.inr ⟨ro, ga, a, h3, h4⟩))
      · exact .inr ⟨d, ro, (dsc d).2 h2, (same d (.inr h2)).trans h3, h5, (own d (.inr h2)).2 (.inr ⟨ro, ga, a, h3, h4⟩)⟩

/-- The case of `C20_counterexample`: the locked role has no descendants, and a call on the other role gives the attribute to the
group both have. -/
example : ∃ h, RoleOp.run {} [.newRole (str "locked"), .newRole (str "other"), .newGroup (str "g"),
      .addGroup 0 0, .addGroup 1 0, .lock 0 true] = .ok h ∧ LockedFrom h 0 ∧
    GivenIn h [.addPerm 1 (str "g") [⟨str "/x", str "GET"⟩]] 0 ⟨str "/x", str "GET"⟩ := by
  refine ⟨_, rfl, ?_, .inl ⟨by simp, _, rfl, rfl, by decide⟩⟩
  rintro d (rfl | hd)
  · exact ⟨_, rfl, rfl⟩
  · cases hd with
    | child h => obtain ⟨ro, k, h1, h2⟩ := h; cases h1; cases h2
    | step h _ => obtain ⟨ro, k, h1, h2⟩ := h; cases h1; cases h2

end Verif
