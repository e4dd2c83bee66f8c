import Verif.Lemmas.RoleOps

/-!
# Roles: C16 - C21
-/

namespace Verif
open Spec

/-! ## Reachable heaps -/

/-- The exported calls that create or change roles and attribute groups
(role.go:31-35, 45-55, 105-147; permission.go:24-37). -/
inductive RoleOp where
  | newRole (id : Str)
  | newGroup (id : Str)
  | addDesc (r : Nat) (ds : List Nat)
  | addPerm (r : Nat) (group : Str) (attrs : List Attr)
  | addGroup (r ga : Nat)
  | addAttrs (ga : Nat) (attrs : List Attr)
  | lock (r : Nat) (b : Bool)

/-- Effect of a call on the heap (the returned error is dropped). -/
def RoleOp.apply (h : RHeap) : RoleOp → Out RHeap
  | .newRole id => .ok (h.newRole id)
  | .newGroup id => .ok (h.newGroup id)
  | .addDesc r ds => (h.addDescendant r ds).map (·.2)
  | .addPerm r g as => (h.addPermission r g as).map (·.2)
  | .addGroup r ga => (h.addPermissionResourceGroup r ga).map (·.2)
  | .addAttrs ga as => h.groupAddAttributes ga as
  | .lock r b => h.setLock r b

/-- Run a history of calls. -/
def RoleOp.run (h : RHeap) : List RoleOp → Out RHeap
  | [] => .ok h
  | op :: ops => (op.apply h).bind fun h' => RoleOp.run h' ops

theorem RoleOp.apply_ok {h h' : RHeap} {op : RoleOp} (ok : Spec.RHeap.OK h)
    (ha : op.apply h = .ok h') : Spec.RHeap.OK h' := by
  cases op with
  | newRole id => cases ha; exact ok.newRole id
  | newGroup id => cases ha; exact ok.newGroup id
  | addDesc r ds =>
    obtain ⟨⟨e, h2⟩, h3, rfl⟩ := Out.map_eq_ok.1 ha; exact ok.addDescendant h3
  | addPerm r g as =>
    obtain ⟨⟨e, h2⟩, h3, rfl⟩ := Out.map_eq_ok.1 ha; exact ok.addPermission h3
  | addGroup r ga =>
    obtain ⟨⟨e, h2⟩, h3, rfl⟩ := Out.map_eq_ok.1 ha; exact ok.addPermissionResourceGroup h3
  | addAttrs ga as => exact ok.groupAddAttributes ha
  | lock r b => exact ok.setLock ha

/-- Every heap produced by any history of calls satisfies the representation invariant that the
theorems below assume. -/
theorem RoleOp.run_ok {h h' : RHeap} {ops : List RoleOp} (ok : Spec.RHeap.OK h)
    (hr : RoleOp.run h ops = .ok h') : Spec.RHeap.OK h' := by
  induction ops generalizing h with
  | nil => cases hr; exact ok
  | cons op ops ih =>
    rw [RoleOp.run, Out.bind_eq_ok] at hr
    obtain ⟨h1, h2, h3⟩ := hr
    exact ih (RoleOp.apply_ok ok h2) h3

theorem RoleOp.reachable_ok {h : RHeap} {ops : List RoleOp} (hr : RoleOp.run {} ops = .ok h) :
    Spec.RHeap.OK h := RoleOp.run_ok Spec.RHeap.OK.empty hr

/-! ## C16 -/

/-- C16. `Role.Has` decides inherited permission: whenever it returns, its answer is the flat
specification `Granted`. -/
theorem C16_has {h : RHeap} (ok : Spec.RHeap.OK h) {o : Ord} {group name : Str} {allowed : List Str}
    {n : Nat} {site : List Val} {r : Nat} {b : Bool}
    (hh : h.has o group name allowed n site r = .ok b) :
    b = true ↔ Granted h allowed group name r := RHeap.has_spec ok hh

/-- Consequently the answer does not depend on iteration order, stack depth or call site. -/
theorem C16_order_independent {h : RHeap} (ok : Spec.RHeap.OK h) {o o' : Ord} {group name : Str}
    {allowed : List Str} {n n' : Nat} {site site' : List Val} {r : Nat} {b b' : Bool}
    (hh : h.has o group name allowed n site r = .ok b)
    (hh' : h.has o' group name allowed n' site' r = .ok b') : b = b' := by
  have h1 := C16_has ok hh
  have h2 := C16_has ok hh'
  rw [Bool.eq_iff_iff, h1, h2]

/-- boss > worker; both carry "post"; worker may "/p/:id GET". -/
def exHeap : Out RHeap := RoleOp.run {} [
  .newRole (str "boss"), .newRole (str "worker"),
  .addPerm 0 (str "post") [⟨str "/x", str "PUT"⟩],
  .addPerm 1 (str "post") [⟨str "/p/:id", str "GET"⟩],
  .addDesc 0 [1]]

example : ∃ h, exHeap = .ok h ∧
    h.has .fwd (str "post") (str "/p/7 GET") [] 4 [] 0 = .ok true ∧
    h.has .fwd (str "post") (str "/p/7 GET") [str "worker"] 4 [] 0 = .ok true ∧
    h.has .fwd (str "post") (str "/p/7 GET") [str "boss"] 4 [] 0 = .ok false := ⟨_, rfl, by decide⟩

/-! ## C17 -/

/-- C17, positive half: `Has` returns when no infinite descendant chain starts at the role and no
stored pattern hangs on the activity. -/
theorem C17_terminates {h : RHeap} (ok : Spec.RHeap.OK h) {group name : Str} {r : Nat}
    (hacc : Acc (fun d c => Child h c d) r) (hlt : r < h.roles.length)
    (hpat : ∀ d, (d = r ∨ Desc h r d) → ∀ g, GroupOf h d group g → ∀ e ∈ g.perms, ¬ Hangs e.1 name) :
    ∃ n, ∀ m ≥ n, ∀ allowed o site, ∃ b, h.has o group name allowed m site r = .ok b := by
  obtain ⟨n, hn⟩ := RHeap.has_total ok (r := r) hacc hlt hpat
  exact ⟨n, fun m hm allowed o site => (hn allowed o site).imp fun b hb => RHeap.has_mono hb hm⟩

/-- C17, the descendant walk returns exactly when no infinite chain starts at the role. -/
theorem C17_walk_iff {h : RHeap} (ok : Spec.RHeap.OK h) {o : Ord} {r : Nat} (hlt : r < h.roles.length) :
    (∃ n site ds, h.descRoles o n site r = .ok ds) ↔ Acc (fun d c => Child h c d) r := by
  constructor
  · rintro ⟨n, site, ds, hd⟩; exact RHeap.descRoles_acc hd
  · intro hacc
    obtain ⟨n, hn⟩ := RHeap.descRoles_total ok (r := r) hacc hlt
    obtain ⟨ds, hds⟩ := hn o []
    exact ⟨n, [], ds, hds⟩

theorem not_acc_of_desc_self {h : RHeap} {r : Nat} (hd : Desc h r r) : ¬ Acc (fun d c => Child h c d) r := by
  have key : ∀ a, Acc (fun d c => Child h c d) a → ∀ b, Desc h a b → Desc h b a → False := by
    intro a hacc
    induction hacc with
    | intro a _ ih =>
      intro b hab hba
      -- the first link a -> c of the walk a -> b, then c lies on the same cycle
      cases hab with
      | child hc => exact ih b hc a hba (.child hc)
      | step hc hcb => exact ih _ hc a (RHeap.desc_trans hcb hba) (.child hc)
  exact fun hacc => key r hacc r hd hd

/-- C17, a role that is its own transitive descendant: the walk returns for no stack depth. -/
theorem C17_cycle {h : RHeap} {o : Ord} {r : Nat} (hd : Desc h r r) (n : Nat) (site : List Val)
    (ds : List Nat) : h.descRoles o n site r ≠ .ok ds :=
  fun he => not_acc_of_desc_self hd (RHeap.descRoles_acc he)

/-- Hence `Has` on such a role either finds the activity in the role itself or does not return. -/
theorem C17_cycle_has {h : RHeap} (ok : Spec.RHeap.OK h) {o : Ord} {r : Nat} (hd : Desc h r r)
    {group name : Str} {allowed : List Str} {n : Nat} {site : List Val} {b : Bool}
    (hh : h.has o group name allowed n site r = .ok b) :
    (b = true ∧ OwnGrant h r group name) ∨ (b = false ∧ ∀ g, ¬ GroupOf h r group g) := by
  cases n with
  | zero => cases hh
  | succ n =>
    rw [RHeap.has] at hh
    cases hr : h.roles[r]? with
    | none => rw [hr] at hh; cases hh
    | some ro =>
      rw [hr] at hh
      simp only at hh
      cases hg : ro.perms.get group with
      | none =>
        rw [hg] at hh; cases hh
        refine .inr ⟨rfl, fun g hgo => ?_⟩
        obtain ⟨ga, h1, _⟩ := (RHeap.groupOf_get ok hr).1 hgo
        rw [hg] at h1; cases h1
      | some ga =>
        rw [hg] at hh
        simp only at hh
        cases hgr : h.groups[ga]? with
        | none => rw [hgr] at hh; cases hh
        | some g =>
          have hgo : GroupOf h r group g := (RHeap.groupOf_get ok hr).2 ⟨ga, hg, hgr⟩
          rw [hgr] at hh
          simp only at hh
          split at hh
          · rename_i hn
            cases hh
            obtain ⟨a, ha⟩ := Option.isSome_iff_exists.1 hn
            exact .inl ⟨rfl, g, hgo, name, a, GoMap.get_some_mem ha, .inl rfl⟩
          · rw [Out.bind_eq_ok] at hh
            obtain ⟨m, hm, hh⟩ := hh
            cases m with
            | true =>
              cases hh
              obtain ⟨e, he, hp⟩ := (Out.anyI_spec (P := fun (e : Str × Attr) => Matches e.1 name)
                (fun j x _ c hc => RHeap.matchResource_spec hc) hm).1 rfl
              exact .inl ⟨rfl, g, hgo, e.1, e.2, Ord.mem_ord.1 he, .inr hp⟩
            | false =>
              simp only [Bool.false_eq_true, if_false, Out.bind_eq_ok] at hh
              obtain ⟨ds, hds, _⟩ := hh
              exact absurd hds (C17_cycle hd _ _ _)

/-- `AddDescendant` accepts a cycle, without an error. -/
theorem C17_cycle_accepted : ∃ h0 h1 h2 : RHeap, RoleOp.run {} [.newRole (str "a"), .newRole (str "b")] = .ok h0 ∧
    h0.addDescendant 0 [1] = .ok (none, h1) ∧ h1.addDescendant 1 [0] = .ok (none, h2) ∧ Desc h2 0 0 :=
  ⟨_, _, _, rfl, rfl, rfl, .step (c := 1) ⟨_, str "b", rfl, by decide⟩ (.child ⟨_, str "a", rfl, by decide⟩)⟩

/-! ## C18 -/

/-- C18, exact content of `GetAllImplicitPermissions`: an attribute is listed under a group exactly
when the role or a transitive descendant carries it there. -/
theorem C18_listing {h : RHeap} {o : Ord} {n : Nat} {site : List Val} {r : Nat}
    {m : GoMap Str (List Attr)} (hm : h.allImplicit o n site r [] = .ok m) (k : Str) (a : Attr) :
    a ∈ (m.get k).getD [] ↔
      ∃ d, (d = r ∨ Desc h r d) ∧ ∃ g, GroupOf h d k g ∧ ∃ key, (key, a) ∈ g.perms := by
  have := (RHeap.allImplicit_spec hm k).1 a
  simpa [RHeap.Listed] using this

/-- C18, the group keys present in the result. -/
theorem C18_groups {h : RHeap} {o : Ord} {n : Nat} {site : List Val} {r : Nat}
    {m : GoMap Str (List Attr)} (hm : h.allImplicit o n site r [] = .ok m) (k : Str) :
    (m.get k).isSome ↔ ∃ d, (d = r ∨ Desc h r d) ∧ ∃ g, GroupOf h d k g := by
  have := (RHeap.allImplicit_spec hm k).2
  simpa using this

/-- Full statement of C18: every listed permission is granted. -/
def C18_full : Prop := ∀ (h : RHeap) (o : Ord) (n : Nat) (site : List Val) (r : Nat)
  (m : GoMap Str (List Attr)) (k : Str) (a : Attr), Spec.RHeap.OK h →
  h.allImplicit o n site r [] = .ok m → a ∈ (m.get k).getD [] → Granted h [] k a.toStr r

/-- C18 restricted to roles that carry the group themselves. Missing: roles that only inherit the
group, for which the claim is false (`C18_counterexample`). -/
theorem C18_usable_partial {h : RHeap} (ok : Spec.RHeap.OK h) {o : Ord} {n : Nat} {site : List Val}
    {r : Nat} {m : GoMap Str (List Attr)} (hm : h.allImplicit o n site r [] = .ok m) {k : Str} {a : Attr}
    (hg : ∃ g, GroupOf h r k g) (ha : a ∈ (m.get k).getD []) : Granted h [] k a.toStr r := by
  obtain ⟨d, hd, g, hgo, key, hk⟩ := (C18_listing hm k a).1 ha
  have hkey : key = a.toStr := by
    obtain ⟨ro, ga, h1, h2, h3⟩ := hgo
    rw [RHeap.toStr_eq]
    exact ok.keyed g (List.mem_of_getElem? h3) _ hk
  have own : OwnGrant h d k a.toStr := ⟨g, hgo, key, a, hk, .inl hkey⟩
  refine ⟨hg, ?_⟩
  rcases hd with rfl | hd
  · exact .inl own
  · obtain ⟨dr, hdr⟩ : ∃ dr, h.roles[d]? = some dr :=
      ⟨_, List.getElem?_eq_getElem (RHeap.desc_lt ok hd)⟩
    exact .inr ⟨d, dr, hd, hdr, .inl rfl, own⟩

/-- ... and `Has` itself says so whenever it returns. -/
theorem C18_has_partial {h : RHeap} (ok : Spec.RHeap.OK h) {o o' : Ord} {n n' : Nat} {site site' : List Val}
    {r : Nat} {m : GoMap Str (List Attr)} (hm : h.allImplicit o n site r [] = .ok m) {k : Str} {a : Attr}
    (hg : ∃ g, GroupOf h r k g) (ha : a ∈ (m.get k).getD []) {b : Bool}
    (hb : h.has o' k a.toStr [] n' site' r = .ok b) : b = true :=
  (C16_has ok hb).2 (C18_usable_partial ok hm hg ha)

example : ∃ h m, exHeap = .ok h ∧ h.allImplicit .fwd 4 [] 0 [] = .ok m ∧
    (⟨str "/p/:id", str "GET"⟩ : Attr) ∈ (m.get (str "post")).getD [] := ⟨_, _, rfl, rfl, by decide⟩

/-- C18 is false: a role without the group inherits nothing under it, though it is listed. -/
theorem C18_counterexample : ∃ h : RHeap, RoleOp.run {} [
      .newRole (str "boss"), .newRole (str "worker"),
      .addPerm 1 (str "post") [⟨str "/p", str "GET"⟩], .addDesc 0 [1]] = .ok h ∧
    (∃ m, h.allImplicit .fwd 4 [] 0 [] = .ok m ∧
      (⟨str "/p", str "GET"⟩ : Attr) ∈ (m.get (str "post")).getD []) ∧
    h.has .fwd (str "post") (Attr.toStr ⟨str "/p", str "GET"⟩) [] 4 [] 0 = .ok false :=
  ⟨_, rfl, ⟨_, rfl, by decide⟩, by decide⟩

theorem C18_full_false : ¬ C18_full := by
  intro hf
  obtain ⟨h, h1, ⟨m, h2, h3⟩, h4⟩ := C18_counterexample
  have ok := RoleOp.reachable_ok h1
  have := (C16_has ok h4).2 (hf h .fwd 4 [] 0 m _ _ ok h2 h3)
  cases this

/-- `GetResourceGroupPermissions` lists exactly the attributes of the role's own group. -/
theorem C18_group_listing {h : RHeap} (ok : Spec.RHeap.OK h) {o : Ord} {site : List Val} {r : Nat} {group : Str}
    {l : List Attr} (hl : h.groupPermissions o site r group = .ok l) (a : Attr) :
    a ∈ l ↔ ∃ g, GroupOf h r group g ∧ ∃ key, (key, a) ∈ g.perms := by
  rw [RHeap.groupPermissions] at hl
  cases hr : h.roles[r]? with
  | none => rw [hr] at hl; cases hl
  | some ro =>
    rw [hr] at hl
    simp only at hl
    cases hg : ro.perms.get group with
    | none =>
      rw [hg] at hl; cases hl
      simp only [List.not_mem_nil, false_iff]
      rintro ⟨g, hgo, _⟩
      obtain ⟨ga, h1, _⟩ := (RHeap.groupOf_get ok hr).1 hgo
      rw [hg] at h1; cases h1
    | some ga =>
      rw [hg] at hl
      simp only at hl
      cases hgr : h.groups[ga]? with
      | none => rw [hgr] at hl; cases hl
      | some g =>
        rw [hgr] at hl; cases hl
        simp only [List.mem_map, Ord.mem_ord, Prod.exists, exists_eq_right]
        constructor
        · intro hk; exact ⟨g, (RHeap.groupOf_get ok hr).2 ⟨ga, hg, hgr⟩, hk⟩
        · rintro ⟨g', hgo, hk⟩
          obtain ⟨ga', h1, h2⟩ := (RHeap.groupOf_get ok hr).1 hgo
          rw [hg] at h1; cases h1
          rw [hgr] at h2; cases h2
          exact hk

theorem getPermissions_loop_spec {h : RHeap} {o : Ord} {site : List Val} {l : List (Str × Nat)} {i : Nat}
    {acc m : GoMap Str (List Attr)} (hnd : (l.map (·.1)).Nodup)
    (hm : RHeap.getPermissions.loop h o site i l acc = .ok m) (k : Str) :
    (∀ as, m.get k = some as → (k ∉ l.map (·.1) ∧ acc.get k = some as) ∨
      ∃ ga g, (k, ga) ∈ l ∧ h.groups[ga]? = some g ∧ ∀ a, a ∈ as ↔ ∃ key, (key, a) ∈ g.perms) ∧
    ((m.get k).isSome ↔ k ∈ l.map (·.1) ∨ (acc.get k).isSome) := by
  induction l generalizing i acc with
  | nil => simp [RHeap.getPermissions.loop] at hm; subst hm; simp
  | cons e l ih =>
    obtain ⟨k0, ga⟩ := e
    simp only [List.map_cons, List.nodup_cons] at hnd
    rw [RHeap.getPermissions.loop] at hm
    cases hg : h.groups[ga]? with
    | none => rw [hg] at hm; cases hm
    | some g =>
      rw [hg] at hm
      simp only at hm
      obtain ⟨h1, h2⟩ := ih hnd.2 hm
      constructor
      · intro as has
        rcases h1 as has with ⟨h3, h4⟩ | ⟨ga', g', h3, h4, h5⟩
        · rw [GoMap.get_set] at h4
          by_cases hk : k0 = k
          · subst hk
            rw [if_pos rfl] at h4; cases h4
            exact .inr ⟨ga, g, by simp, hg, fun a => by simp [Ord.mem_ord]⟩
          · rw [if_neg hk] at h4
            exact .inl ⟨by simp only [List.map_cons, List.mem_cons, not_or]; exact ⟨fun e => hk e.symm, h3⟩, h4⟩
        · exact .inr ⟨ga', g', by simp [h3], h4, h5⟩
      · rw [h2, GoMap.get_set]
        by_cases hk : k0 = k
        · subst hk; simp
        · rw [if_neg hk, List.map_cons, List.mem_cons, or_assoc]
          constructor
          · exact .inr
          · rintro (e | h)
            · exact absurd e.symm hk
            · exact h

/-- `GetPermissions` lists exactly the role's own groups with exactly their attributes. -/
theorem C18_own_listing {h : RHeap} (ok : Spec.RHeap.OK h) {o : Ord} {site : List Val} {r : Nat}
    {m : GoMap Str (List Attr)} (hm : h.getPermissions o site r = .ok m) (k : Str) :
    ((m.get k).isSome ↔ ∃ g, GroupOf h r k g) ∧
    ∀ a, a ∈ (m.get k).getD [] ↔ ∃ g, GroupOf h r k g ∧ ∃ key, (key, a) ∈ g.perms := by
  rw [RHeap.getPermissions] at hm
  cases hr : h.roles[r]? with
  | none => rw [hr] at hm; cases hm
  | some ro =>
    rw [hr] at hm
    simp only at hm
    have hmem := List.mem_of_getElem? hr
    have hnd : ((o.ord (site ++ [.int 3]) _ ro.perms).map (·.1)).Nodup :=
      (List.Perm.nodup_iff (List.Perm.map Prod.fst (o.perm (site ++ [.int 3]) _ ro.perms))).2 (ok.permsWF ro hmem)
    obtain ⟨h1, h2⟩ := getPermissions_loop_spec hnd hm k
    have hkeys : k ∈ (o.ord (site ++ [.int 3]) _ ro.perms).map (·.1) ↔ ∃ g, GroupOf h r k g := by
      constructor
      · intro hk
        obtain ⟨⟨k', ga⟩, he, rfl⟩ := List.mem_map.1 hk
        have hlt := ok.perms ro hmem _ (Ord.mem_ord.1 he)
        exact ⟨_, ro, ga, hr, Ord.mem_ord.1 he, List.getElem?_eq_getElem hlt⟩
      · rintro ⟨g, ro', ga, hr', he, _⟩
        rw [hr] at hr'; cases hr'
        exact List.mem_map.2 ⟨_, Ord.mem_ord.2 he, rfl⟩
    have hs : (m.get k).isSome ↔ ∃ g, GroupOf h r k g := by rw [h2, hkeys]; simp
    refine ⟨hs, fun a => ?_⟩
    cases hk : m.get k with
    | none =>
      simp only [hk, Option.isSome_none, Bool.false_eq_true, false_iff, not_exists] at hs
      simp [hs]
    | some as =>
      rcases h1 as hk with ⟨_, h3⟩ | ⟨ga, g, h3, h4, h5⟩
      · simp at h3
      · have hgo : GroupOf h r k g := ⟨ro, ga, hr, Ord.mem_ord.1 h3, h4⟩
        simp only [Option.getD_some, h5 a]
        constructor
        · exact fun hx => ⟨g, hgo, hx⟩
        · rintro ⟨g', hgo', hx⟩
          obtain ⟨ga1, a1, a2⟩ := (RHeap.groupOf_get ok hr).1 hgo
          obtain ⟨ga2, b1, b2⟩ := (RHeap.groupOf_get ok hr).1 hgo'
          rw [a1] at b1; cases b1
          rw [a2] at b2; cases b2
          exact hx

/-! ## C19 -/

/-- C19. On a locked role every change is refused and the whole heap is unchanged. -/
theorem C19_locked {h : RHeap} {r : Nat} {ro : RoleObj} (hr : h.roles[r]? = some ro) (hl : ro.lock = true) :
    (∀ ds, h.addDescendant r ds = .ok (some .changesNotAllowed, h)) ∧
    (∀ g as, h.addPermission r g as = .ok (some .changesNotAllowed, h)) ∧
    (∀ ga, ga < h.groups.length →
      h.addPermissionResourceGroup r ga = .ok (some .changesNotAllowed, h)) := by
  refine ⟨fun ds => ?_, fun g as => ?_, fun ga hga => ?_⟩
  · rw [RHeap.addDescendant, hr]; simp [hl]
  · rw [RHeap.addPermission, hr]; simp [hl]
  · rw [RHeap.addPermissionResourceGroup, hr, List.getElem?_eq_getElem hga]; simp [hl]

/-- The state after `Lock` is locked, after `Unlock` unlocked, and nothing else changes. -/
theorem C19_lock {h : RHeap} {r : Nat} {ro : RoleObj} (hr : h.roles[r]? = some ro) (b : Bool) :
    ∃ h', h.setLock r b = .ok h' ∧ h'.roles[r]? = some { ro with lock := b } ∧
      (∀ q ≠ r, h'.roles[q]? = h.roles[q]?) ∧ h'.groups = h.groups := by
  refine ⟨{ h with roles := h.roles.set r { ro with lock := b } }, by rw [RHeap.setLock, hr], ?_, ?_, rfl⟩
  · simp [RHeap.lt_of_get hr]
  · intro q hq; simp [Ne.symm hq]

theorem addDescendant_loop_total {r : Nat} {ds : List Nat} {h : RHeap} (hr : r < h.roles.length)
    (hds : ∀ d ∈ ds, d < h.roles.length) : ∃ h', RHeap.addDescendant.loop r h ds = .ok h' := by
  induction ds generalizing h with
  | nil => exact ⟨h, rfl⟩
  | cons d ds ih =>
    rw [RHeap.addDescendant.loop, List.getElem?_eq_getElem (hds d (by simp)), List.getElem?_eq_getElem hr]
    simp only
    split
    · exact ih hr (fun x hx => hds x (by simp [hx]))
    · exact ih (by simpa using hr) (fun x hx => by simpa using hds x (by simp [hx]))

/-- C19. On an unlocked role the calls never fail. -/
theorem C19_unlocked {h : RHeap} (ok : Spec.RHeap.OK h) {r : Nat} {ro : RoleObj}
    (hr : h.roles[r]? = some ro) (hl : ro.lock = false) :
    (∀ ds, (∀ d ∈ ds, d < h.roles.length) → ∃ h', h.addDescendant r ds = .ok (none, h')) ∧
    (∀ g as, ∃ h', h.addPermission r g as = .ok (none, h')) ∧
    (∀ ga, ga < h.groups.length → ∃ h', h.addPermissionResourceGroup r ga = .ok (none, h')) := by
  refine ⟨fun ds hds => ?_, fun g as => ?_, fun ga hga => ?_⟩
  · obtain ⟨h', hh⟩ := addDescendant_loop_total (RHeap.lt_of_get hr) hds
    exact ⟨h', by rw [RHeap.addDescendant, hr]; simp [hl, hh]⟩
  · rw [RHeap.addPermission, hr]
    simp only [hl, Bool.false_eq_true, if_false]
    cases hg : ro.perms.get g with
    | none => exact ⟨_, rfl⟩
    | some ga =>
      have := ok.perms ro (List.mem_of_getElem? hr) _ (GoMap.get_some_mem hg)
      simp only [List.getElem?_eq_getElem this]
      exact ⟨_, rfl⟩
  · rw [RHeap.addPermissionResourceGroup, hr, List.getElem?_eq_getElem hga]
    simp only [hl, Bool.false_eq_true, if_false]
    split <;> exact ⟨_, rfl⟩

theorem addAttrsKeep_get {as : List Attr} {m : GoMap Str Attr} (k : Str) :
    ((RHeap.addAttrsKeep m as).get k).isSome ↔ (m.get k).isSome ∨ ∃ a ∈ as, a.toStr = k := by
  induction as generalizing m with
  | nil => simp [RHeap.addAttrsKeep]
  | cons a as ih =>
    rw [RHeap.addAttrsKeep]
    split
    · rename_i hs
      rw [ih]
      constructor
      · rintro (h | ⟨b, hb, he⟩)
        · exact .inl h
        · exact .inr ⟨b, by simp [hb], he⟩
      · rintro (h | ⟨b, hb, rfl⟩)
        · exact .inl h
        · rcases List.mem_cons.1 hb with rfl | hb
          · exact .inl hs
          · exact .inr ⟨b, hb, rfl⟩
    · rw [ih, GoMap.get_set]
      by_cases hk : a.toStr = k
      · simp [hk]
      · simp [hk]

/-- Effect of a successful `AddPermission`: the role's group then lists exactly the old and the given
activities; the role's other groups, its descendants and all other roles are untouched. -/
theorem C19_addPermission_effect {h h' : RHeap} {r : Nat} {ro : RoleObj} {grp : Str}
    {as : List Attr} (hr : h.roles[r]? = some ro) (hs : h.addPermission r grp as = .ok (none, h')) :
    ∃ ro' ga g, h'.roles[r]? = some ro' ∧ ro'.perms.get grp = some ga ∧ h'.groups[ga]? = some g ∧
      (∀ k, (g.perms.get k).isSome ↔
        (∃ ga0 g0, ro.perms.get grp = some ga0 ∧ h.groups[ga0]? = some g0 ∧ (g0.perms.get k).isSome) ∨
        ∃ a ∈ as, a.toStr = k) ∧
      (∀ k ≠ grp, ro'.perms.get k = ro.perms.get k) ∧ ro'.desc = ro.desc ∧ ro'.id = ro.id ∧
      (∀ q ≠ r, h'.roles[q]? = h.roles[q]?) ∧
      (∀ x < h.groups.length, x ≠ ga → h'.groups[x]? = h.groups[x]?) := by
  have hlt := RHeap.lt_of_get hr
  rw [RHeap.addPermission, hr] at hs
  simp only at hs
  split at hs
  · cases hs
  · cases hg : ro.perms.get grp with
    | some ga =>
      rw [hg] at hs
      simp only at hs
      cases hgr : h.groups[ga]? with
      | none => rw [hgr] at hs; cases hs
      | some g =>
        rw [hgr] at hs
        simp only [Out.ok.injEq, Prod.mk.injEq, true_and] at hs
        subst hs
        refine ⟨{ ro with perms := ro.perms.set grp ga }, ga, { g with perms := RHeap.addAttrsKeep g.perms as },
          by simp [hlt], by simp, by simp [RHeap.lt_of_get hgr], ?_, ?_, rfl, rfl, ?_, ?_⟩
        · intro k
          rw [addAttrsKeep_get]
          constructor
          · rintro (hx | hx)
            · exact .inl ⟨ga, g, rfl, hgr, hx⟩
            · exact .inr hx
          · rintro (⟨ga0, g0, e1, e2, hx⟩ | hx)
            · cases e1; rw [hgr] at e2; cases e2; exact .inl hx
            · exact .inr hx
        · intro k hk; simp [Ne.symm hk]
        · intro q hq; simp [Ne.symm hq]
        · intro x _ hx; simp [Ne.symm hx]
    | none =>
      rw [hg] at hs
      simp only [Out.ok.injEq, Prod.mk.injEq, true_and] at hs
      subst hs
      refine ⟨{ ro with perms := ro.perms.set grp h.groups.length }, h.groups.length,
        { id := grp, perms := RHeap.addAttrsKeep [] as },
        by simp [hlt], by simp, by simp, ?_, ?_, rfl, rfl, ?_, ?_⟩
      · intro k
        rw [addAttrsKeep_get]
        simp
      · intro k hk; simp [Ne.symm hk]
      · intro q hq; simp [Ne.symm hq]
      · intro x hx _; simp [List.getElem?_append, hx]

/-! ## C20 -/

/-- Full statement of C20: a call that is not `Unlock` and not aimed at the locked role leaves its
decisions alone. -/
def C20_full : Prop := ∀ (h h' : RHeap) (r : Nat) (ro : RoleObj) (op : RoleOp), Spec.RHeap.OK h →
  h.roles[r]? = some ro → ro.lock = true → (∀ b, op ≠ .lock r b) → op.apply h = .ok h' →
  ∀ group name, Granted h' [] group name r ↔ Granted h [] group name r

/-- C20 is false: extending a shared attribute group through another role changes what the locked
role grants; so does `AddAttributes` on the group. -/
theorem C20_counterexample : ∃ h h1 h2 : RHeap, RoleOp.run {} [
      .newRole (str "locked"), .newRole (str "other"), .newGroup (str "g"),
      .addGroup 0 0, .addGroup 1 0, .lock 0 true] = .ok h ∧
    (RoleOp.addPerm 1 (str "g") [⟨str "/x", str "GET"⟩]).apply h = .ok h1 ∧
    (RoleOp.addAttrs 0 [⟨str "/x", str "GET"⟩]).apply h = .ok h2 ∧
    h.has .fwd (str "g") (str "/x GET") [] 3 [] 0 = .ok false ∧
    h1.has .fwd (str "g") (str "/x GET") [] 3 [] 0 = .ok true ∧
    h2.has .fwd (str "g") (str "/x GET") [] 3 [] 0 = .ok true :=
  ⟨_, _, _, rfl, rfl, rfl, by decide⟩

theorem C20_full_false : ¬ C20_full := by
  intro hf
  obtain ⟨h, h1, h2, e0, e1, e2, a0, a1, a2⟩ := C20_counterexample
  have ok := RoleOp.reachable_ok e0
  have ok1 := RoleOp.apply_ok ok e1
  obtain ⟨ro, hro, hlk⟩ : ∃ ro, h.roles[0]? = some ro ∧ ro.lock = true := by
    cases e0; exact ⟨_, rfl, rfl⟩
  have := (hf h h1 0 ro _ ok hro hlk (by intro b; exact RoleOp.noConfusion) e1 (str "g") (str "/x GET")).1
    ((C16_has ok1 a1).1 rfl)
  exact Bool.noConfusion ((C16_has ok a0).2 this)

/-- `S` is a set of locked roles closed under descendants, `G` contains their groups, and no role
outside `S` refers to a group in `G`. -/
structure Sealed (h : RHeap) (S G : Nat → Prop) : Prop where
  lt : ∀ s, S s → s < h.roles.length
  glt : ∀ g, G g → g < h.groups.length
  locked : ∀ s ro, S s → h.roles[s]? = some ro → ro.lock = true
  closed : ∀ s ro e, S s → h.roles[s]? = some ro → e ∈ ro.desc → S e.2
  groups : ∀ s ro e, S s → h.roles[s]? = some ro → e ∈ ro.perms → G e.2
  unshared : ∀ s ro e, ¬ S s → h.roles[s]? = some ro → e ∈ ro.perms → ¬ G e.2

/-- Calls aimed at the sealed objects: unlocking a sealed role, `AddAttributes` on a sealed group,
handing a sealed group to a role. -/
def RoleOp.breaks (S G : Nat → Prop) : RoleOp → Prop
  | .lock r b => S r ∧ b = false
  | .addAttrs ga _ => G ga
  | .addGroup _ ga => G ga
  | _ => False

/-- The sealed part is the same in both heaps. -/
structure SameOn (h h' : RHeap) (S G : Nat → Prop) : Prop where
  roles : ∀ s, S s → h'.roles[s]? = h.roles[s]?
  groups : ∀ g, G g → h'.groups[g]? = h.groups[g]?

theorem get_append_lt {α : Type} {l : List α} {x : α} {i : Nat} (hi : i < l.length) :
    (l ++ [x])[i]? = l[i]? := by rw [List.getElem?_append, if_pos hi]

theorem set_same {α : Type} {l : List α} {i j : Nat} {x : α} (hij : i ≠ j) : (l.set i x)[j]? = l[j]? := by
  simp [hij]

/-- Changing one role outside `S` to a version whose groups are outside `G`. -/
theorem Sealed.setOther {h : RHeap} {S G : Nat → Prop} (se : Sealed h S G) {r : Nat} {ro : RoleObj}
    (hr : ¬ S r) (hg : ∀ e ∈ ro.perms, ¬ G e.2) :
    Sealed { h with roles := h.roles.set r ro } S G ∧ SameOn h { h with roles := h.roles.set r ro } S G := by
  have hne : ∀ s, S s → r ≠ s := fun s hs e => hr (e ▸ hs)
  have hsame : ∀ s, S s → (h.roles.set r ro)[s]? = h.roles[s]? := fun s hs => set_same (hne s hs)
  refine ⟨⟨?_, se.glt, ?_, ?_, ?_, ?_⟩, hsame, fun _ _ => rfl⟩
  · intro s hs; simpa using se.lt s hs
  · intro s x hs hx; exact se.locked s x hs (hsame s hs ▸ hx)
  · intro s x e hs hx; exact se.closed s x e hs (hsame s hs ▸ hx)
  · intro s x e hs hx; exact se.groups s x e hs (hsame s hs ▸ hx)
  · intro s x e hs hx he
    by_cases hrs : r = s
    · subst hrs
      simp only [List.getElem?_set, if_true] at hx
      split at hx
      · cases hx; exact hg e he
      · cases hx
    · simp only [set_same hrs] at hx
      exact se.unshared s x e hs hx he

theorem SameOn.refl_same (h : RHeap) (S G : Nat → Prop) : SameOn h h S G := ⟨fun _ _ => rfl, fun _ _ => rfl⟩

theorem SameOn.trans {h1 h2 h3 : RHeap} {S G : Nat → Prop} (a : SameOn h1 h2 S G) (b : SameOn h2 h3 S G) :
    SameOn h1 h3 S G :=
  ⟨fun s hs => (b.roles s hs).trans (a.roles s hs), fun g hg => (b.groups g hg).trans (a.groups g hg)⟩

theorem Sealed.setGroupOther {h : RHeap} {S G : Nat → Prop} (se : Sealed h S G) {ga : Nat} {g : GroupObj}
    (hg : ¬ G ga) : Sealed { h with groups := h.groups.set ga g } S G ∧
      SameOn h { h with groups := h.groups.set ga g } S G := by
  refine ⟨⟨se.lt, ?_, se.locked, se.closed, se.groups, se.unshared⟩, fun _ _ => rfl, ?_⟩
  · intro x hx; simpa using se.glt x hx
  · intro x hx; exact set_same (fun e => hg (e ▸ hx))

theorem Sealed.pushGroup {h : RHeap} {S G : Nat → Prop} (se : Sealed h S G) {g : GroupObj} :
    Sealed { h with groups := h.groups ++ [g] } S G ∧ SameOn h { h with groups := h.groups ++ [g] } S G := by
  refine ⟨⟨se.lt, ?_, se.locked, se.closed, se.groups, se.unshared⟩, fun _ _ => rfl, ?_⟩
  · intro x hx; have := se.glt x hx; simp only [List.length_append]; omega
  · intro x hx; exact get_append_lt (se.glt x hx)

theorem Sealed.addDesc_loop {S G : Nat → Prop} {r : Nat} (hr : ¬ S r) {ds : List Nat} {h h' : RHeap}
    (se : Sealed h S G) (hs : RHeap.addDescendant.loop r h ds = .ok h') : Sealed h' S G ∧ SameOn h h' S G := by
  induction ds generalizing h with
  | nil => simp [RHeap.addDescendant.loop] at hs; subst hs; exact ⟨se, .refl_same ..⟩
  | cons d ds ih =>
    rw [RHeap.addDescendant.loop] at hs
    cases hd : h.roles[d]? with
    | none => rw [hd] at hs; cases hs
    | some dro =>
      cases hro : h.roles[r]? with
      | none => rw [hd, hro] at hs; cases hs
      | some ro =>
        rw [hd, hro] at hs
        simp only at hs
        split at hs
        · exact ih se hs
        · obtain ⟨a, b⟩ := se.setOther (r := r) (ro := { ro with desc := ro.desc.set dro.id d }) hr
            (fun e he => se.unshared r ro e hr hro he)
          obtain ⟨c, d⟩ := ih a hs
          exact ⟨c, b.trans d⟩

/-- One call that does not aim at the sealed objects leaves them alone and keeps them sealed. -/
theorem C20_step {h h' : RHeap} {S G : Nat → Prop} (ok : Spec.RHeap.OK h) (se : Sealed h S G) {op : RoleOp}
    (hb : ¬ op.breaks S G) (ha : op.apply h = .ok h') : Sealed h' S G ∧ SameOn h h' S G := by
  cases op with
  | newRole id =>
    cases ha
    have hsame : ∀ s, s < h.roles.length → (h.newRole id).roles[s]? = h.roles[s]? :=
      fun s hs => get_append_lt hs
    refine ⟨⟨?_, se.glt, ?_, ?_, ?_, ?_⟩, fun s hs => hsame s (se.lt s hs), fun _ _ => rfl⟩
    · intro s hs; have := se.lt s hs; simp only [RHeap.newRole, List.length_append]; omega
    · intro s x hs hx; exact se.locked s x hs (hsame s (se.lt s hs) ▸ hx)
    · intro s x e hs hx; exact se.closed s x e hs (hsame s (se.lt s hs) ▸ hx)
    · intro s x e hs hx; exact se.groups s x e hs (hsame s (se.lt s hs) ▸ hx)
    · intro s x e hs hx he
      by_cases hlt : s < h.roles.length
      · exact se.unshared s x e hs (hsame s hlt ▸ hx) he
      · have hx' : (h.roles ++ [{ id := id }])[s]? = some x := hx
        rw [List.getElem?_append, if_neg hlt] at hx'
        have := List.mem_of_getElem? hx'
        rw [List.mem_singleton] at this
        subst this
        cases he
  | newGroup id => cases ha; exact se.pushGroup
  | addDesc r ds =>
    obtain ⟨⟨e, h2⟩, h3, rfl⟩ := Out.map_eq_ok.1 ha
    simp only
    rw [RHeap.addDescendant] at h3
    cases hr : h.roles[r]? with
    | none => rw [hr] at h3; cases h3
    | some ro =>
      rw [hr] at h3
      simp only at h3
      split at h3
      · cases h3; exact ⟨se, .refl_same ..⟩
      · rename_i hl
        obtain ⟨h4, h5, h6⟩ := Out.map_eq_ok.1 h3
        cases h6
        exact se.addDesc_loop (fun hs => hl (se.locked r ro hs hr)) h5
  | addPerm r g as =>
    obtain ⟨⟨e, h2⟩, h3, rfl⟩ := Out.map_eq_ok.1 ha
    simp only
    rw [RHeap.addPermission] at h3
    cases hr : h.roles[r]? with
    | none => rw [hr] at h3; cases h3
    | some ro =>
      rw [hr] at h3
      simp only at h3
      have wf := ok.permsWF ro (List.mem_of_getElem? hr)
      split at h3
      · cases h3; exact ⟨se, .refl_same ..⟩
      · rename_i hl
        have hns : ¬ S r := fun hs => hl (se.locked r ro hs hr)
        cases hg : ro.perms.get g with
        | some ga =>
          rw [hg] at h3
          simp only at h3
          have hng : ¬ G ga := se.unshared r ro (g, ga) hns hr (GoMap.get_some_mem hg)
          cases hgr : h.groups[ga]? with
          | none => rw [hgr] at h3; cases h3
          | some go =>
            rw [hgr] at h3; cases h3
            obtain ⟨a1, b1⟩ := se.setGroupOther (ga := ga)
              (g := { go with perms := RHeap.addAttrsKeep go.perms as }) hng
            obtain ⟨a2, b2⟩ := a1.setOther (r := r) (ro := { ro with perms := ro.perms.set g ga }) hns (by
              intro e he
              rcases (GoMap.mem_set_iff wf).1 he with rfl | ⟨_, he⟩
              · exact hng
              · exact se.unshared r ro e hns hr he)
            exact ⟨a2, b1.trans b2⟩
        | none =>
          rw [hg] at h3; cases h3
          obtain ⟨a1, b1⟩ := se.pushGroup (g := { id := g, perms := RHeap.addAttrsKeep [] as })
          obtain ⟨a2, b2⟩ := a1.setOther (r := r) (ro := { ro with perms := ro.perms.set g h.groups.length }) hns (by
            intro e he
            rcases (GoMap.mem_set_iff wf).1 he with rfl | ⟨_, he⟩
            · intro hG; exact absurd (se.glt _ hG) (Nat.lt_irrefl _)
            · exact se.unshared r ro e hns hr he)
          exact ⟨a2, b1.trans b2⟩
  | addGroup r ga =>
    obtain ⟨⟨e, h2⟩, h3, rfl⟩ := Out.map_eq_ok.1 ha
    simp only
    rw [RHeap.addPermissionResourceGroup] at h3
    cases hr : h.roles[r]? with
    | none => rw [hr] at h3; cases h3
    | some ro =>
      cases hg : h.groups[ga]? with
      | none => rw [hr, hg] at h3; cases h3
      | some g =>
        rw [hr, hg] at h3
        simp only at h3
        have wf := ok.permsWF ro (List.mem_of_getElem? hr)
        split at h3
        · cases h3; exact ⟨se, .refl_same ..⟩
        · rename_i hl
          have hns : ¬ S r := fun hs => hl (se.locked r ro hs hr)
          split at h3
          · cases h3; exact ⟨se, .refl_same ..⟩
          · cases h3
            refine se.setOther hns ?_
            intro e he
            rcases (GoMap.mem_set_iff wf).1 he with rfl | ⟨_, he⟩
            · exact hb
            · exact se.unshared r ro e hns hr he
  | addAttrs ga as =>
    rw [RoleOp.apply, RHeap.groupAddAttributes] at ha
    cases hg : h.groups[ga]? with
    | none => rw [hg] at ha; cases ha
    | some g => rw [hg] at ha; cases ha; exact se.setGroupOther hb
  | lock r b =>
    rw [RoleOp.apply, RHeap.setLock] at ha
    cases hr : h.roles[r]? with
    | none => rw [hr] at ha; cases ha
    | some ro =>
      rw [hr] at ha; cases ha
      by_cases hs : S r
      · have hbt : b = true := by
          cases b with
          | true => rfl
          | false => exact absurd ⟨hs, rfl⟩ hb
        have hl := se.locked r ro hs hr
        have : h.roles.set r { ro with lock := b } = h.roles := by
          obtain ⟨hlt, he⟩ := List.getElem?_eq_some_iff.1 hr
          rw [hbt, ← hl]
          subst he
          exact List.set_getElem_self hlt
        rw [this]
        exact ⟨se, .refl_same ..⟩
      · exact se.setOther hs (fun e he => se.unshared r ro e hs hr he)

theorem C20_descRoles {h h' : RHeap} {S G : Nat → Prop} (se : Sealed h S G) (sm : SameOn h h' S G) {o : Ord}
    {n : Nat} {site : List Val} {r : Nat} (hr : S r) : h'.descRoles o n site r = h.descRoles o n site r := by
  induction n generalizing site r with
  | zero => rfl
  | succ n ih =>
    rw [RHeap.descRoles_succ, RHeap.descRoles_succ, sm.roles r hr]
    cases hro : h.roles[r]? with
    | none => rfl
    | some ro =>
      simp only
      have : ∀ (l : List (Str × Nat)) (i : Nat), (∀ e ∈ l, S e.2) →
          Out.collectI (fun i (e : Str × Nat) =>
            (h'.descRoles o n (site ++ [.int i]) e.2).map (fun ds => e.2 :: ds)) i l =
          Out.collectI (fun i (e : Str × Nat) =>
            (h.descRoles o n (site ++ [.int i]) e.2).map (fun ds => e.2 :: ds)) i l := by
        intro l
        induction l with
        | nil => intro i _; rfl
        | cons e l ihl =>
          intro i hl
          rw [Out.collectI, Out.collectI, ih (hl e (by simp)), ihl (i + 1) (fun x hx => hl x (by simp [hx]))]
      exact this _ _ (fun e he => se.closed r ro e hr hro (Ord.mem_ord.1 he))

theorem Sealed.desc {h : RHeap} {S G : Nat → Prop} (se : Sealed h S G) {r d : Nat} (hr : S r)
    (hd : Desc h r d) : S d := by
  induction hd with
  | child hc => obtain ⟨ro, k, h1, h2⟩ := hc; exact se.closed _ ro _ hr h1 h2
  | step hc _ ih => obtain ⟨ro, k, h1, h2⟩ := hc; exact ih (se.closed _ ro _ hr h1 h2)

theorem anyI_congr {α : Type} {f g : Nat → α → Out Bool} {l : List α} (i : Nat)
    (h : ∀ j, ∀ x ∈ l, f j x = g j x) : Out.anyI f i l = Out.anyI g i l := by
  induction l generalizing i with
  | nil => rfl
  | cons x l ih =>
    rw [Out.anyI, Out.anyI, h i x (by simp), ih (i + 1) (fun j y hy => h j y (by simp [hy]))]

/-- Two heaps that agree on the sealed part give the same answers (including not returning) for the
sealed roles. -/
theorem C20_has {h h' : RHeap} {S G : Nat → Prop} (se : Sealed h S G) (sm : SameOn h h' S G) {o : Ord}
    {group name : Str} {allowed : List Str} {n : Nat} {site : List Val} {r : Nat} (hr : S r) :
    h'.has o group name allowed n site r = h.has o group name allowed n site r := by
  induction n generalizing site r with
  | zero => rfl
  | succ n ih =>
    rw [RHeap.has, RHeap.has, sm.roles r hr]
    cases hro : h.roles[r]? with
    | none => rfl
    | some ro =>
      simp only
      cases hg : ro.perms.get group with
      | none => rfl
      | some ga =>
        simp only
        rw [sm.groups ga (se.groups r ro (group, ga) hr hro (GoMap.get_some_mem hg)), C20_descRoles se sm hr]
        cases h.groups[ga]? with
        | none => rfl
        | some g =>
          simp only
          congr 2
          funext matched
          congr 1
          cases hds : h.descRoles o n (site ++ [.int 1]) r with
          | panic => rfl
          | diverge => rfl
          | ok ds =>
            simp only [Out.bind_ok]
            apply anyI_congr
            intro j d hd
            have hS : S d := se.desc hr ((RHeap.descRoles_mem hds d).1 hd)
            rw [sm.roles d hS, ih hS]

/-- C20 for histories, restricted to unshared groups: as long as the roles and groups stay sealed off
(no unlock, no direct extension or sharing of the sealed groups) every `Has` on a sealed role keeps
its answer. Missing: shared groups, for which the claim is false (`C20_counterexample`). -/
theorem C20_frozen_partial {ops : List RoleOp} {h h' : RHeap} {S G : Nat → Prop} (ok : Spec.RHeap.OK h)
    (se : Sealed h S G) (hb : ∀ op ∈ ops, ¬ op.breaks S G) (hrun : RoleOp.run h ops = .ok h') :
    ∀ r, S r → ∀ o group name allowed n site,
      h'.has o group name allowed n site r = h.has o group name allowed n site r := by
  have key : Sealed h' S G ∧ SameOn h h' S G := by
    induction ops generalizing h with
    | nil => cases hrun; exact ⟨se, .refl_same ..⟩
    | cons op ops ih =>
      rw [RoleOp.run, Out.bind_eq_ok] at hrun
      obtain ⟨h1, h2, h3⟩ := hrun
      obtain ⟨a, b⟩ := C20_step ok se (hb op (by simp)) h2
      obtain ⟨c, d⟩ := ih (RoleOp.apply_ok ok h2) a (fun x hx => hb x (by simp [hx])) h3
      exact ⟨c, b.trans d⟩
  intro r hr o group name allowed n site
  exact C20_has se key.2 hr

/-- A sealed role: boss and worker of `exHeap`, locked. -/
example : ∃ h, (exHeap.bind fun h => RoleOp.run h [.lock 0 true, .lock 1 true]) = .ok h ∧
    Sealed h (· < 2) (· < 2) := by
  refine ⟨_, rfl, ?_⟩
  constructor
  · intro s hs; exact hs
  · intro s hs; exact hs
  · intro s ro hs hr
    rcases s with _ | _ | s
    · cases hr; rfl
    · cases hr; rfl
    · omega
  · intro s ro e hs hr he
    rcases s with _ | _ | s
    · cases hr; have := List.mem_singleton.1 he; subst this; decide
    · cases hr; cases he
    · omega
  · intro s ro e hs hr he
    rcases s with _ | _ | s
    · cases hr; have := List.mem_singleton.1 he; subst this; decide
    · cases hr; have := List.mem_singleton.1 he; subst this; decide
    · omega
  · intro s ro e hs hr he
    rcases s with _ | _ | s
    · omega
    · omega
    · cases hr

/-! ## C21 -/

theorem allAssociated_iff {g : GroupObj} {as : List Attr} :
    RHeap.allAssociated g as = true ↔ ∀ a ∈ as, (g.perms.get a.toStr).isSome := by
  induction as with
  | nil => simp [RHeap.allAssociated]
  | cons a as ih =>
    rw [RHeap.allAssociated]
    split
    · rename_i h; rw [ih]; simp [h]
    · rename_i h; simp [h]

/-- C21. `AddPermissionsToRole` fails exactly when the role or the group is unknown, an attribute is not
in the group, or the role is locked. -/
theorem C21_error_iff {h h' : RHeap} {roles groups : GoMap Str Nat} {roleID groupID : Str} {as : List Attr}
    {e : Option Err} (hs : h.addPermissionsToRole roles groups roleID groupID as = .ok (e, h')) :
    e = none ↔ ∃ r ga ro g, roles.get roleID = some r ∧ groups.get groupID = some ga ∧
      h.roles[r]? = some ro ∧ h.groups[ga]? = some g ∧ ro.lock = false ∧
      ∀ a ∈ as, (g.perms.get a.toStr).isSome := by
  rw [RHeap.addPermissionsToRole] at hs
  cases hr : roles.get roleID with
  | none => rw [hr] at hs; cases hs; simp
  | some r =>
    rw [hr] at hs
    simp only at hs
    cases hg : groups.get groupID with
    | none => rw [hg] at hs; cases hs; simp
    | some ga =>
      rw [hg] at hs
      simp only at hs
      cases hgr : h.groups[ga]? with
      | none => rw [hgr] at hs; cases hs
      | some g =>
        rw [hgr] at hs
        simp only at hs
        split at hs
        · rename_i hall
          rw [RHeap.addPermission] at hs
          cases hro : h.roles[r]? with
          | none => rw [hro] at hs; cases hs
          | some ro =>
            rw [hro] at hs
            simp only at hs
            by_cases hl : ro.lock = true
            · rw [if_pos hl] at hs
              cases hs
              simp only [reduceCtorEq, false_iff]
              rintro ⟨r', ga', ro', g', e1, e2, e3, e4, e5, _⟩
              cases e1; rw [hro] at e3; cases e3; rw [hl] at e5; cases e5
            · rw [if_neg hl] at hs
              have he : e = none := by
                split at hs
                · split at hs
                  · cases hs
                  · cases hs; rfl
                · cases hs; rfl
              simp only [he, true_iff]
              exact ⟨r, ga, ro, g, rfl, rfl, hro, hgr, by simpa using hl, allAssociated_iff.1 hall⟩
        · rename_i hall
          cases hs
          simp only [reduceCtorEq, false_iff]
          rintro ⟨r', ga', ro', g', e1, e2, e3, e4, e5, h6⟩
          cases e2
          rw [hgr] at e4; cases e4
          exact hall (allAssociated_iff.2 h6)

/-- C21. On failure nothing changes. -/
theorem C21_error_unchanged {h h' : RHeap} {roles groups : GoMap Str Nat} {roleID groupID : Str}
    {as : List Attr} {e : Err}
    (hs : h.addPermissionsToRole roles groups roleID groupID as = .ok (some e, h')) : h' = h := by
  rw [RHeap.addPermissionsToRole] at hs
  split at hs
  · cases hs; rfl
  · split at hs
    · cases hs; rfl
    · split at hs
      · cases hs
      · split at hs
        · rw [RHeap.addPermission] at hs
          split at hs
          · cases hs
          · split at hs
            · cases hs; rfl
            · split at hs
              · split at hs
                · cases hs
                · cases hs
              · cases hs
        · cases hs; rfl

/-- C21. On success the role lists, under the group id, exactly what it listed before plus every given
attribute; nothing else about any role changes. -/
theorem C21_success {h h' : RHeap} {roles groups : GoMap Str Nat} {roleID groupID : Str} {as : List Attr}
    (hs : h.addPermissionsToRole roles groups roleID groupID as = .ok (none, h')) :
    ∃ r ro ro' ga g, roles.get roleID = some r ∧ h.roles[r]? = some ro ∧ h'.roles[r]? = some ro' ∧
      ro'.perms.get groupID = some ga ∧ h'.groups[ga]? = some g ∧
      (∀ k, (g.perms.get k).isSome ↔
        (∃ ga0 g0, ro.perms.get groupID = some ga0 ∧ h.groups[ga0]? = some g0 ∧ (g0.perms.get k).isSome) ∨
        ∃ a ∈ as, a.toStr = k) ∧
      (∀ k ≠ groupID, ro'.perms.get k = ro.perms.get k) ∧ ro'.desc = ro.desc ∧
      (∀ q ≠ r, h'.roles[q]? = h.roles[q]?) := by
  obtain ⟨r, ga, ro, g, e1, e2, e3, e4, e5, e6⟩ := (C21_error_iff hs).1 rfl
  have hs' : h.addPermission r groupID as = .ok (none, h') := by
    rw [RHeap.addPermissionsToRole, e1] at hs
    simp only [e2, e4] at hs
    rw [if_pos (allAssociated_iff.2 e6)] at hs
    exact hs
  obtain ⟨ro', ga', g', f1, f2, f3, f4, f5, f6, _, f7, _⟩ := C19_addPermission_effect e3 hs'
  exact ⟨r, ro, ro', ga', g', e1, e3, f1, f2, f3, f4, f5, f6, f7⟩

/-- ... so each given attribute is granted by the role afterwards. -/
theorem C21_granted {h h' : RHeap} {roles groups : GoMap Str Nat} {roleID groupID : Str} {as : List Attr}
    (hs : h.addPermissionsToRole roles groups roleID groupID as = .ok (none, h')) :
    ∃ r, roles.get roleID = some r ∧ ∀ a ∈ as, ∀ allowed, Granted h' allowed groupID a.toStr r := by
  obtain ⟨r, ro, ro', ga, g, e1, _, e2, e3, e4, e5, _⟩ := C21_success hs
  refine ⟨r, e1, fun a ha allowed => ?_⟩
  have hg : GroupOf h' r groupID g := ⟨ro', ga, e2, GoMap.get_some_mem e3, e4⟩
  obtain ⟨x, hx⟩ := Option.isSome_iff_exists.1 ((e5 a.toStr).2 (.inr ⟨a, ha, rfl⟩))
  exact ⟨⟨g, hg⟩, .inl ⟨g, hg, a.toStr, x, GoMap.get_some_mem hx, .inl rfl⟩⟩

/-- C21: with registries that point at existing objects the call always returns. -/
theorem C21_total {h : RHeap} (ok : Spec.RHeap.OK h) {roles groups : GoMap Str Nat}
    (h1 : ∀ k r, roles.get k = some r → r < h.roles.length)
    (h2 : ∀ k g, groups.get k = some g → g < h.groups.length) (roleID groupID : Str) (as : List Attr) :
    ∃ e h', h.addPermissionsToRole roles groups roleID groupID as = .ok (e, h') := by
  rw [RHeap.addPermissionsToRole]
  cases hr : roles.get roleID with
  | none => exact ⟨_, _, rfl⟩
  | some r =>
    simp only
    cases hg : groups.get groupID with
    | none => exact ⟨_, _, rfl⟩
    | some ga =>
      simp only [List.getElem?_eq_getElem (h2 _ _ hg)]
      split
      · have hro := List.getElem?_eq_getElem (h1 _ _ hr)
        by_cases hl : (h.roles[r]'(h1 _ _ hr)).lock = true
        · exact ⟨_, _, (C19_locked hro hl).2.1 _ _⟩
        · obtain ⟨h', hh⟩ := (C19_unlocked ok hro (by simpa using hl)).2.1 groupID as
          exact ⟨_, _, hh⟩
      · exact ⟨_, _, rfl⟩

example : ∃ h h', RoleOp.run {} [.newRole (str "r"), .newGroup (str "g"),
      .addAttrs 0 [⟨str "/x", str "GET"⟩]] = .ok h ∧
    h.addPermissionsToRole [(str "r", 0)] [(str "g", 0)] (str "r") (str "g") [⟨str "/x", str "GET"⟩]
      = .ok (none, h') ∧
    h.addPermissionsToRole [(str "r", 0)] [(str "g", 0)] (str "r") (str "g") [⟨str "/y", str "GET"⟩]
      = .ok (some .notAssociated, h) := ⟨_, _, rfl, rfl, rfl⟩

end Verif
