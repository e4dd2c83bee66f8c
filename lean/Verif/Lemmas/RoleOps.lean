import Verif.Lemmas.Role

namespace Verif
open Spec

namespace RHeap
variable {h : RHeap} {o : Ord}

/-! ## Implicit permissions -/

/-- `a` is listed under `k`. -/
def Listed (m : GoMap Str (List Attr)) (k : Str) (a : Attr) : Prop := a ∈ (m.get k).getD []

theorem listed_appendTo {m : GoMap Str (List Attr)} {k k' : Str} {l : List Attr} {a : Attr} :
    Listed (appendTo m k l) k' a ↔ Listed m k' a ∨ (k = k' ∧ a ∈ l) := by
  unfold Listed appendTo
  rw [GoMap.get_set]
  by_cases hk : k = k'
  · subst hk; simp
  · simp [hk]

theorem key_appendTo {m : GoMap Str (List Attr)} {k k' : Str} {l : List Attr} :
    (GoMap.get (appendTo m k l) k').isSome ↔ (m.get k').isSome ∨ k = k' := by
  unfold appendTo
  rw [GoMap.get_set]
  by_cases hk : k = k'
  · subst hk; simp
  · simp [hk]

theorem ownImplicit_spec {site : List Val} {l : List (Str × Nat)} {i : Nat}
    {acc m : GoMap Str (List Attr)} (hm : ownImplicit h o site i l acc = .ok m) (k : Str) :
    (∀ a, Listed m k a ↔ Listed acc k a ∨
      ∃ ga g, (k, ga) ∈ l ∧ h.groups[ga]? = some g ∧ ∃ key, (key, a) ∈ g.perms) ∧
    ((m.get k).isSome ↔ (acc.get k).isSome ∨ ∃ ga g, (k, ga) ∈ l ∧ h.groups[ga]? = some g) := by
  induction l generalizing i acc with
  | nil => simp [ownImplicit] at hm; subst hm; simp
  | cons e l ih =>
    obtain ⟨k0, ga⟩ := e
    rw [ownImplicit] at hm
    cases hg : h.groups[ga]? with
    | none => rw [hg] at hm; cases hm
    | some g =>
      rw [hg] at hm
      simp only at hm
      obtain ⟨h1, h2⟩ := ih hm
      refine ⟨fun a => ?_, ?_⟩
      · rw [h1 a, listed_appendTo]
        constructor
        · rintro ((h | ⟨rfl, h⟩) | ⟨ga', g', h3, h4, h5⟩)
          · exact .inl h
          · simp only [List.mem_map, Ord.mem_ord, Prod.exists, exists_eq_right] at h
            exact .inr ⟨ga, g, by simp, hg, h⟩
          · exact .inr ⟨ga', g', by simp [h3], h4, h5⟩
        · rintro (h | ⟨ga', g', h3, h4, h5⟩)
          · exact .inl (.inl h)
          · rcases List.mem_cons.1 h3 with e | h3
            · cases e
              rw [hg] at h4; cases h4
              refine .inl (.inr ⟨rfl, ?_⟩)
              obtain ⟨key, hk⟩ := h5
              exact List.mem_map.2 ⟨(key, a), Ord.mem_ord.2 hk, rfl⟩
            · exact .inr ⟨ga', g', h3, h4, h5⟩
      · rw [h2, key_appendTo]
        constructor
        · rintro ((h | rfl) | ⟨ga', g', h3, h4⟩)
          · exact .inl h
          · exact .inr ⟨ga, g, by simp, hg⟩
          · exact .inr ⟨ga', g', by simp [h3], h4⟩
        · rintro (h | ⟨ga', g', h3, h4⟩)
          · exact .inl (.inl h)
          · rcases List.mem_cons.1 h3 with e | h3
            · cases e; exact .inl (.inr rfl)
            · exact .inr ⟨ga', g', h3, h4⟩

theorem foldRoles_spec {f : Nat → Nat → GoMap Str (List Attr) → Out (GoMap Str (List Attr))}
    {Q : Nat → Prop} {ds : List Nat} {i : Nat} {acc m : GoMap Str (List Attr)}
    {X : GoMap Str (List Attr) → Prop}
    (hf : ∀ j, ∀ d ∈ ds, ∀ acc m, f j d acc = .ok m → (X m ↔ X acc ∨ Q d))
    (hm : foldRoles f i ds acc = .ok m) : X m ↔ X acc ∨ ∃ d ∈ ds, Q d := by
  induction ds generalizing i acc with
  | nil => simp [foldRoles] at hm; subst hm; simp
  | cons d ds ih =>
    rw [foldRoles, Out.bind_eq_ok] at hm
    obtain ⟨acc', h1, h2⟩ := hm
    rw [ih (fun j d' hd' => hf j d' (by simp [hd'])) h2, hf i d (by simp) _ _ h1]
    simp [or_assoc]

theorem allImplicit_spec {n : Nat} {site : List Val} {r : Nat} {acc m : GoMap Str (List Attr)}
    (hm : allImplicit h o n site r acc = .ok m) (k : Str) :
    (∀ a, Listed m k a ↔ Listed acc k a ∨
      ∃ d, (d = r ∨ Desc h r d) ∧ ∃ g, GroupOf h d k g ∧ ∃ key, (key, a) ∈ g.perms) ∧
    ((m.get k).isSome ↔ (acc.get k).isSome ∨ ∃ d, (d = r ∨ Desc h r d) ∧ ∃ g, GroupOf h d k g) := by
  induction n generalizing site r acc m with
  | zero => cases hm
  | succ n ih =>
    rw [allImplicit] at hm
    cases hr : h.roles[r]? with
    | none => rw [hr] at hm; cases hm
    | some ro =>
      rw [hr] at hm
      simp only [Out.bind_eq_ok] at hm
      obtain ⟨acc', h1, ds, h2, h3⟩ := hm
      have hds := descRoles_mem h2
      obtain ⟨o1, o2⟩ := ownImplicit_spec h1 k
      have hgo : ∀ g, (∃ ga, (k, ga) ∈ o.ord (site ++ [.int 3]) _ ro.perms ∧ h.groups[ga]? = some g) ↔
          GroupOf h r k g := by
        intro g
        constructor
        · rintro ⟨ga, h4, h5⟩; exact ⟨ro, ga, hr, Ord.mem_ord.1 h4, h5⟩
        · rintro ⟨ro', ga, hr', h4, h5⟩
          rw [hr] at hr'; cases hr'
          exact ⟨ga, Ord.mem_ord.2 h4, h5⟩
      -- descendants of descendants are descendants
      have hcl : ∀ d ∈ ds, ∀ d', (d' = d ∨ Desc h d d') → Desc h r d' := by
        rintro d hd d' (rfl | hdd)
        · exact (hds _).1 hd
        · exact desc_trans ((hds _).1 hd) hdd
      refine ⟨fun a => ?_, ?_⟩
      · have hfold := foldRoles_spec (X := fun m => Listed m k a)
          (Q := fun d => ∃ d', (d' = d ∨ Desc h d d') ∧ ∃ g, GroupOf h d' k g ∧ ∃ key, (key, a) ∈ g.perms)
          (fun j d _ acc m hfm => (ih hfm).1 a) h3
        rw [hfold, o1 a]
        constructor
        · rintro ((hx | ⟨ga, g, h4, h5, h6⟩) | ⟨d, hd, d', hd', hx⟩)
          · exact .inl hx
          · exact .inr ⟨r, .inl rfl, g, (hgo g).1 ⟨ga, h4, h5⟩, h6⟩
          · exact .inr ⟨d', .inr (hcl d hd d' hd'), hx⟩
        · rintro (hx | ⟨d, rfl | hd, g, hg, h6⟩)
          · exact .inl (.inl hx)
          · obtain ⟨ga, h4, h5⟩ := (hgo g).2 hg
            exact .inl (.inr ⟨ga, g, h4, h5, h6⟩)
          · exact .inr ⟨d, (hds d).2 hd, d, .inl rfl, g, hg, h6⟩
      · have hfold := foldRoles_spec (X := fun m => (m.get k).isSome = true)
          (Q := fun d => ∃ d', (d' = d ∨ Desc h d d') ∧ ∃ g, GroupOf h d' k g)
          (fun j d _ acc m hfm => (ih hfm).2) h3
        rw [hfold, o2]
        constructor
        · rintro ((hx | ⟨ga, g, h4, h5⟩) | ⟨d, hd, d', hd', hx⟩)
          · exact .inl hx
          · exact .inr ⟨r, .inl rfl, g, (hgo g).1 ⟨ga, h4, h5⟩⟩
          · exact .inr ⟨d', .inr (hcl d hd d' hd'), hx⟩
        · rintro (hx | ⟨d, rfl | hd, g, hg⟩)
          · exact .inl (.inl hx)
          · obtain ⟨ga, h4, h5⟩ := (hgo g).2 hg
            exact .inl (.inr ⟨ga, g, h4, h5⟩)
          · exact .inr ⟨d, (hds d).2 hd, d, .inl rfl, g, hg⟩

/-! ## Heap invariants under the operations -/

theorem _root_.Verif.Spec.RHeap.OK.empty : Spec.RHeap.OK {} := by
  constructor <;> simp

theorem _root_.Verif.Spec.RHeap.OK.setRole (ok : Spec.RHeap.OK h) {r : Nat} {ro : RoleObj}
    (h1 : ∀ e ∈ ro.desc, e.2 < h.roles.length) (h2 : ∀ e ∈ ro.perms, e.2 < h.groups.length)
    (h3 : GoMap.WF ro.desc) (h4 : GoMap.WF ro.perms) :
    Spec.RHeap.OK { h with roles := h.roles.set r ro } := by
  have key : ∀ x ∈ h.roles.set r ro, x ∈ h.roles ∨ x = ro := fun x hx => List.mem_or_eq_of_mem_set hx
  constructor
  · intro x hx e he
    rw [List.length_set]
    rcases key x hx with hx | rfl
    · exact ok.desc x hx e he
    · exact h1 e he
  · intro x hx e he
    rcases key x hx with hx | rfl
    · exact ok.perms x hx e he
    · exact h2 e he
  · intro x hx
    rcases key x hx with hx | rfl
    · exact ok.descWF x hx
    · exact h3
  · intro x hx
    rcases key x hx with hx | rfl
    · exact ok.permsWF x hx
    · exact h4
  · exact ok.groupWF
  · exact ok.keyed

theorem _root_.Verif.Spec.RHeap.OK.setGroup (ok : Spec.RHeap.OK h) {ga : Nat} {g : GroupObj} (h1 : GoMap.WF g.perms)
    (h2 : ∀ e ∈ g.perms, e.1 = e.2.resource ++ 32 :: e.2.action) :
    Spec.RHeap.OK { h with groups := h.groups.set ga g } := by
  have key : ∀ x ∈ h.groups.set ga g, x ∈ h.groups ∨ x = g := fun x hx => List.mem_or_eq_of_mem_set hx
  constructor
  · exact ok.desc
  · intro x hx e he; rw [List.length_set]; exact ok.perms x hx e he
  · exact ok.descWF
  · exact ok.permsWF
  · intro x hx
    rcases key x hx with hx | rfl
    · exact ok.groupWF x hx
    · exact h1
  · intro x hx
    rcases key x hx with hx | rfl
    · exact ok.keyed x hx
    · exact h2

theorem _root_.Verif.Spec.RHeap.OK.pushGroup (ok : Spec.RHeap.OK h) {g : GroupObj} (h1 : GoMap.WF g.perms)
    (h2 : ∀ e ∈ g.perms, e.1 = e.2.resource ++ 32 :: e.2.action) :
    Spec.RHeap.OK { h with groups := h.groups ++ [g] } := by
  constructor
  · exact ok.desc
  · intro x hx e he
    have := ok.perms x hx e he
    simp only [List.length_append]; omega
  · exact ok.descWF
  · exact ok.permsWF
  · intro x hx
    rcases List.mem_append.1 hx with hx | hx
    · exact ok.groupWF x hx
    · rw [List.mem_singleton.1 hx]; exact h1
  · intro x hx
    rcases List.mem_append.1 hx with hx | hx
    · exact ok.keyed x hx
    · rw [List.mem_singleton.1 hx]; exact h2

theorem _root_.Verif.Spec.RHeap.OK.newRole (ok : Spec.RHeap.OK h) (id : Str) : Spec.RHeap.OK (h.newRole id) := by
  constructor
  · intro x hx e he
    simp only [RHeap.newRole, List.length_append]
    rcases List.mem_append.1 hx with hx | hx
    · have := ok.desc x hx e he; omega
    · rw [List.mem_singleton.1 hx] at he; cases he
  · intro x hx e he
    rcases List.mem_append.1 hx with hx | hx
    · exact ok.perms x hx e he
    · rw [List.mem_singleton.1 hx] at he; cases he
  · intro x hx
    rcases List.mem_append.1 hx with hx | hx
    · exact ok.descWF x hx
    · rw [List.mem_singleton.1 hx]; exact GoMap.wf_nil
  · intro x hx
    rcases List.mem_append.1 hx with hx | hx
    · exact ok.permsWF x hx
    · rw [List.mem_singleton.1 hx]; exact GoMap.wf_nil
  · exact ok.groupWF
  · exact ok.keyed

theorem _root_.Verif.Spec.RHeap.OK.newGroup (ok : Spec.RHeap.OK h) (id : Str) : Spec.RHeap.OK (h.newGroup id) :=
  ok.pushGroup GoMap.wf_nil (by simp)

theorem toStr_eq (a : Attr) : a.toStr = a.resource ++ 32 :: a.action := by
  have : str " " = [32] := by decide
  simp [Attr.toStr, this]

theorem addAttrsKeep_wf {m : GoMap Str Attr} {as : List Attr} (wf : GoMap.WF m)
    (hk : ∀ e ∈ m, e.1 = e.2.resource ++ 32 :: e.2.action) :
    GoMap.WF (addAttrsKeep m as) ∧ ∀ e ∈ addAttrsKeep m as, e.1 = e.2.resource ++ 32 :: e.2.action := by
  induction as generalizing m with
  | nil => exact ⟨wf, hk⟩
  | cons a as ih =>
    rw [addAttrsKeep]
    split
    · exact ih wf hk
    · refine ih (GoMap.wf_set wf _ _) ?_
      intro e he
      rcases (GoMap.mem_set_iff wf).1 he with rfl | ⟨_, he⟩
      · exact toStr_eq a
      · exact hk e he

theorem foldAttrs_wf {m : GoMap Str Attr} {as : List Attr} (wf : GoMap.WF m)
    (hk : ∀ e ∈ m, e.1 = e.2.resource ++ 32 :: e.2.action) :
    GoMap.WF (as.foldl (fun m a => GoMap.set m a.toStr a) m) ∧
      ∀ e ∈ as.foldl (fun m a => GoMap.set m a.toStr a) m, e.1 = e.2.resource ++ 32 :: e.2.action := by
  induction as generalizing m with
  | nil => exact ⟨wf, hk⟩
  | cons a as ih =>
    rw [List.foldl_cons]
    refine ih (GoMap.wf_set wf _ _) ?_
    intro e he
    rcases (GoMap.mem_set_iff wf).1 he with rfl | ⟨_, he⟩
    · exact toStr_eq a
    · exact hk e he

theorem _root_.Verif.Spec.RHeap.OK.setLock (ok : Spec.RHeap.OK h) {r : Nat} {b : Bool} {h' : RHeap}
    (hs : h.setLock r b = .ok h') : Spec.RHeap.OK h' := by
  rw [RHeap.setLock] at hs
  cases hr : h.roles[r]? with
  | none => rw [hr] at hs; cases hs
  | some ro =>
    rw [hr] at hs; cases hs
    have hm := List.mem_of_getElem? hr
    exact ok.setRole (ok.desc ro hm) (ok.perms ro hm) (ok.descWF ro hm) (ok.permsWF ro hm)

theorem _root_.Verif.Spec.RHeap.OK.groupAddAttributes (ok : Spec.RHeap.OK h) {ga : Nat} {as : List Attr} {h' : RHeap}
    (hs : h.groupAddAttributes ga as = .ok h') : Spec.RHeap.OK h' := by
  rw [RHeap.groupAddAttributes] at hs
  cases hg : h.groups[ga]? with
  | none => rw [hg] at hs; cases hs
  | some g =>
    rw [hg] at hs; cases hs
    have hm := List.mem_of_getElem? hg
    obtain ⟨h1, h2⟩ := foldAttrs_wf (as := as) (ok.groupWF g hm) (ok.keyed g hm)
    exact ok.setGroup h1 h2

theorem _root_.Verif.Spec.RHeap.OK.addPermissionResourceGroup (ok : Spec.RHeap.OK h) {r ga : Nat} {e : Option Err} {h' : RHeap}
    (hs : h.addPermissionResourceGroup r ga = .ok (e, h')) : Spec.RHeap.OK h' := by
  rw [RHeap.addPermissionResourceGroup] at hs
  cases hr : h.roles[r]? with
  | none => rw [hr] at hs; cases hs
  | some ro =>
    cases hg : h.groups[ga]? with
    | none => rw [hr, hg] at hs; cases hs
    | some g =>
      rw [hr, hg] at hs
      simp only at hs
      have hm := List.mem_of_getElem? hr
      split at hs
      · cases hs; exact ok
      · split at hs
        · cases hs; exact ok
        · cases hs
          refine ok.setRole (ok.desc ro hm) ?_ (ok.descWF ro hm) (GoMap.wf_set (ok.permsWF ro hm) _ _)
          intro e he
          rcases (GoMap.mem_set_iff (ok.permsWF ro hm)).1 he with rfl | ⟨_, he⟩
          · exact lt_of_get hg
          · exact ok.perms ro hm e he

theorem _root_.Verif.Spec.RHeap.OK.addPermission (ok : Spec.RHeap.OK h) {r : Nat} {grp : Str} {as : List Attr}
    {e : Option Err} {h' : RHeap} (hs : h.addPermission r grp as = .ok (e, h')) : Spec.RHeap.OK h' := by
  rw [RHeap.addPermission] at hs
  cases hr : h.roles[r]? with
  | none => rw [hr] at hs; cases hs
  | some ro =>
    rw [hr] at hs
    simp only at hs
    have hm := List.mem_of_getElem? hr
    have wf := ok.permsWF ro hm
    split at hs
    · cases hs; exact ok
    · cases hg : ro.perms.get grp with
      | some ga =>
        rw [hg] at hs
        simp only at hs
        cases hgr : h.groups[ga]? with
        | none => rw [hgr] at hs; cases hs
        | some g =>
          rw [hgr] at hs; cases hs
          have hgm := List.mem_of_getElem? hgr
          obtain ⟨h1, h2⟩ := addAttrsKeep_wf (as := as) (ok.groupWF g hgm) (ok.keyed g hgm)
          have ok1 := ok.setGroup (ga := ga) (g := { g with perms := addAttrsKeep g.perms as }) h1 h2
          refine ok1.setRole (r := r) (ok.desc ro hm) ?_ (ok.descWF ro hm) (GoMap.wf_set wf _ _)
          intro e he
          simp only [List.length_set]
          rcases (GoMap.mem_set_iff wf).1 he with rfl | ⟨_, he⟩
          · exact lt_of_get hgr
          · exact ok.perms ro hm e he
      | none =>
        rw [hg] at hs; cases hs
        obtain ⟨h1, h2⟩ := addAttrsKeep_wf (m := []) (as := as) GoMap.wf_nil (by simp)
        have ok1 := ok.pushGroup (g := { id := grp, perms := addAttrsKeep [] as }) h1 h2
        refine ok1.setRole (r := r) (ok.desc ro hm) ?_ (ok.descWF ro hm) (GoMap.wf_set wf _ _)
        intro e he
        simp only [List.length_append, List.length_singleton]
        rcases (GoMap.mem_set_iff wf).1 he with rfl | ⟨_, he⟩
        · simp
        · have := ok.perms ro hm e he; omega

theorem addDescendant_loop_ok {r : Nat} {ds : List Nat} {h h' : RHeap} (ok : Spec.RHeap.OK h)
    (hs : RHeap.addDescendant.loop r h ds = .ok h') : Spec.RHeap.OK h' := by
  induction ds generalizing h with
  | nil => simp [RHeap.addDescendant.loop] at hs; subst hs; exact ok
  | cons d ds ih =>
    rw [RHeap.addDescendant.loop] at hs
    cases hd : h.roles[d]? with
    | none => rw [hd] at hs; cases hs
    | some dro =>
      cases hr : h.roles[r]? with
      | none => rw [hd, hr] at hs; cases hs
      | some ro =>
        rw [hd, hr] at hs
        simp only at hs
        have hm := List.mem_of_getElem? hr
        split at hs
        · exact ih ok hs
        · refine ih (ok.setRole (r := r) (ro := { ro with desc := ro.desc.set dro.id d }) ?_
            (ok.perms ro hm) (GoMap.wf_set (ok.descWF ro hm) _ _) (ok.permsWF ro hm)) hs
          intro e he
          rcases (GoMap.mem_set_iff (ok.descWF ro hm)).1 he with rfl | ⟨_, he⟩
          · exact lt_of_get hd
          · exact ok.desc ro hm e he

theorem _root_.Verif.Spec.RHeap.OK.addDescendant (ok : Spec.RHeap.OK h) {r : Nat} {ds : List Nat} {e : Option Err} {h' : RHeap}
    (hs : h.addDescendant r ds = .ok (e, h')) : Spec.RHeap.OK h' := by
  rw [RHeap.addDescendant] at hs
  cases hr : h.roles[r]? with
  | none => rw [hr] at hs; cases hs
  | some ro =>
    rw [hr] at hs
    simp only at hs
    split at hs
    · cases hs; exact ok
    · rw [Out.map_eq_ok] at hs
      obtain ⟨h2, h3, h4⟩ := hs
      cases h4
      exact addDescendant_loop_ok ok h3

end RHeap
end Verif
