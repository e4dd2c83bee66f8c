import Verif.Lemmas.Manager

namespace Verif
open Spec

/-! ## Heap growth -/

/-- Objects keep their address and id. -/
structure HExt (h h' : RHeap) : Prop where
  roles : ∀ (a : Nat) (ro : RoleObj), h.roles[a]? = some ro → ∃ ro' : RoleObj, h'.roles[a]? = some ro' ∧ ro'.id = ro.id
  groups : ∀ (a : Nat) (g : GroupObj), h.groups[a]? = some g → ∃ g' : GroupObj, h'.groups[a]? = some g' ∧ g'.id = g.id

theorem HExt.refl (h : RHeap) : HExt h h := ⟨fun _ ro hr => ⟨ro, hr, rfl⟩, fun _ g hg => ⟨g, hg, rfl⟩⟩

theorem HExt.trans {a b c : RHeap} (h1 : HExt a b) (h2 : HExt b c) : HExt a c := by
  refine ⟨fun i ro hr => ?_, fun i g hg => ?_⟩
  · obtain ⟨r1, e1, e2⟩ := h1.roles i ro hr
    obtain ⟨r2, e3, e4⟩ := h2.roles i r1 e1
    exact ⟨r2, e3, e4.trans e2⟩
  · obtain ⟨r1, e1, e2⟩ := h1.groups i g hg
    obtain ⟨r2, e3, e4⟩ := h2.groups i r1 e1
    exact ⟨r2, e3, e4.trans e2⟩

theorem get_set_id {α : Type} {id : α → Str} {l : List α} {r : Nat} {x x' : α} (hr : l[r]? = some x)
    (hid : id x' = id x) (a : Nat) (y : α) (hy : l[a]? = some y) :
    ∃ y', (l.set r x')[a]? = some y' ∧ id y' = id y := by
  by_cases h : r = a
  · subst h
    rw [hr] at hy; cases hy
    exact ⟨x', by rw [List.getElem?_set_self (RHeap.lt_of_get hr)], hid⟩
  · exact ⟨y, by rw [List.getElem?_set_ne h]; exact hy, rfl⟩

theorem HExt.setRole {h : RHeap} {r : Nat} {ro ro' : RoleObj} (hr : h.roles[r]? = some ro)
    (hid : ro'.id = ro.id) : HExt h { h with roles := h.roles.set r ro' } :=
  ⟨fun a x hx => get_set_id (id := RoleObj.id) hr hid a x hx, fun _ g hg => ⟨g, hg, rfl⟩⟩

theorem HExt.setGroup {h : RHeap} {r : Nat} {ro ro' : GroupObj} (hr : h.groups[r]? = some ro)
    (hid : ro'.id = ro.id) : HExt h { h with groups := h.groups.set r ro' } :=
  ⟨fun _ g hg => ⟨g, hg, rfl⟩, fun a x hx => get_set_id (id := GroupObj.id) hr hid a x hx⟩

theorem HExt.addDescLoop {r : Nat} {ds : List Nat} {h h' : RHeap}
    (hl : RHeap.addDescendant.loop r h ds = .ok h') : HExt h h' := by
  induction ds generalizing h with
  | nil => cases hl; exact .refl _
  | cons d ds ih =>
    rw [RHeap.addDescendant.loop] at hl
    split at hl
    · rename_i dro ro hd hr
      split at hl
      · exact ih hl
      · exact (HExt.setRole (ro' := { ro with desc := ro.desc.set dro.id d }) hr rfl).trans (ih hl)
    · cases hl

theorem HExt.addPermission {h h' : RHeap} {r : Nat} {g : Str} {as : List Attr} {e : Option Err}
    (ha : h.addPermission r g as = .ok (e, h')) : HExt h h' := by
  unfold RHeap.addPermission at ha
  split at ha
  · cases ha
  · rename_i ro hr
    split at ha
    · cases ha; exact .refl _
    · split at ha
      · rename_i ga _
        split at ha
        · cases ha
        · rename_i go hg
          cases ha
          exact (HExt.setRole (ro' := { ro with perms := ro.perms.set g ga }) hr rfl).trans
            (HExt.setGroup (h := { h with roles := _ }) (ro' := { go with perms := RHeap.addAttrsKeep go.perms as }) hg rfl)
      · cases ha
        refine ⟨fun a x hx => get_set_id (id := RoleObj.id) (x' := { ro with perms := ro.perms.set g h.groups.length }) hr rfl a x hx, fun a x hx => ⟨x, ?_, rfl⟩⟩
        rw [get_append_lt (RHeap.lt_of_get hx)]; exact hx

theorem HExt.apply {h h' : RHeap} {op : RoleOp} (ha : op.apply h = .ok h') : HExt h h' := by
  cases op with
  | newRole id =>
    cases ha
    refine ⟨fun a x hx => ⟨x, ?_, rfl⟩, fun _ g hg => ⟨g, hg, rfl⟩⟩
    rw [RHeap.newRole, get_append_lt (RHeap.lt_of_get hx)]; exact hx
  | newGroup id =>
    cases ha
    refine ⟨fun _ g hg => ⟨g, hg, rfl⟩, fun a x hx => ⟨x, ?_, rfl⟩⟩
    rw [RHeap.newGroup, get_append_lt (RHeap.lt_of_get hx)]; exact hx
  | addDesc r ds =>
    obtain ⟨⟨e, h2⟩, h3, rfl⟩ := Out.map_eq_ok.1 ha
    unfold RHeap.addDescendant at h3
    split at h3
    · cases h3
    · split at h3
      · cases h3; exact .refl _
      · obtain ⟨h4, h5, h6⟩ := Out.map_eq_ok.1 h3
        cases h6; exact .addDescLoop h5
  | addPerm r g as =>
    obtain ⟨⟨e, h2⟩, h3, rfl⟩ := Out.map_eq_ok.1 ha; exact .addPermission h3
  | addGroup r ga =>
    obtain ⟨⟨e, h2⟩, h3, rfl⟩ := Out.map_eq_ok.1 ha
    unfold RHeap.addPermissionResourceGroup at h3
    split at h3
    · rename_i ro g hr hg
      split at h3
      · cases h3; exact .refl _
      · split at h3
        · cases h3; exact .refl _
        · cases h3; exact .setRole hr rfl
    · cases h3
  | addAttrs ga as =>
    simp only [RoleOp.apply, RHeap.groupAddAttributes] at ha
    split at ha
    · cases ha
    · rename_i g hg
      cases ha; exact .setGroup hg rfl
  | lock r b =>
    simp only [RoleOp.apply, RHeap.setLock] at ha
    split at ha
    · cases ha
    · rename_i g hg
      cases ha; exact .setRole hg rfl

theorem HExt.addPermissionsToRole {h h' : RHeap} {roles groups : GoMap Str Nat} {r g : Str} {as : List Attr}
    {e : Option Err} (ha : h.addPermissionsToRole roles groups r g as = .ok (e, h')) : HExt h h' := by
  unfold RHeap.addPermissionsToRole at ha
  split at ha
  · cases ha; exact .refl _
  · split at ha
    · cases ha; exact .refl _
    · split at ha
      · cases ha
      · split at ha
        · exact .addPermission ha
        · cases ha; exact .refl _

theorem ok_addPermissionsToRole {h h' : RHeap} (ok : Spec.RHeap.OK h) {roles groups : GoMap Str Nat} {r g : Str}
    {as : List Attr} {e : Option Err} (ha : h.addPermissionsToRole roles groups r g as = .ok (e, h')) :
    Spec.RHeap.OK h' := by
  unfold RHeap.addPermissionsToRole at ha
  split at ha
  · cases ha; exact ok
  · split at ha
    · cases ha; exact ok
    · split at ha
      · cases ha
      · split at ha
        · exact ok.addPermission ha
        · cases ha; exact ok

namespace Mgr
variable {w : Mgr} {o : Ord}

/-! ## Tenant graph -/

/-- Tenant objects keep address, id, manager and links. -/
def TExt (w w' : Mgr) : Prop :=
  ∀ (a : Nat) (t : TenantObj), w.tobjs[a]? = some t → ∃ t' : TenantObj, w'.tobjs[a]? = some t' ∧ t'.id = t.id ∧
    (t.managed = true → t'.managed = true) ∧ ∀ e ∈ t.desc, e ∈ t'.desc

theorem TExt.of_eq {w w' : Mgr} (h : w'.tobjs = w.tobjs) : TExt w w' := by
  intro a t ht; exact ⟨t, by rw [h]; exact ht, rfl, id, fun _ => id⟩

theorem TExt.trans {a b c : Mgr} (h1 : TExt a b) (h2 : TExt b c) : TExt a c := by
  intro i t ht
  obtain ⟨t1, a1, a2, a3, a4⟩ := h1 i t ht
  obtain ⟨t2, b1, b2, b3, b4⟩ := h2 i t1 a1
  exact ⟨t2, b1, b2.trans a2, b3 ∘ a3, fun e he => b4 e (a4 e he)⟩

theorem TExt.tdesc {w w' : Mgr} (h : TExt w w') {c d : Nat} (hd : TDesc w.tobjs c d) : TDesc w'.tobjs c d := by
  have hc : ∀ {c d}, TChild w.tobjs c d → TChild w'.tobjs c d := by
    rintro c d ⟨t, k, ht, hm⟩
    obtain ⟨t', a1, _, _, a4⟩ := h c t ht
    exact ⟨t', k, a1, a4 _ hm⟩
  induction hd with
  | child x => exact .child (hc x)
  | step x _ ih => exact .step (hc x) ih

theorem TExt.below {w w' : Mgr} (h : TExt w w') {c : Nat} {x : Str} (hb : BelowObj w.tobjs c x) : BelowObj w'.tobjs c x := by
  obtain ⟨d, t, h1, h2, h3⟩ := hb
  obtain ⟨t', a1, a2, _⟩ := h d t h2
  exact ⟨d, t', h.tdesc h1, a1, a2.trans h3⟩

theorem TExt.under {w w' : Mgr} (h : TExt w w') (ht : ∀ k c, w.tenants.get k = some c → w'.tenants.get k = some c)
    {a x : Str} (hu : Under w a x) : Under w' a x := by
  obtain ⟨c, h1, h2⟩ := hu
  exact ⟨c, ht _ _ h1, h.below h2⟩

theorem tdesc_trans {a b c : Nat} (h1 : TDesc w.tobjs a b) (h2 : TDesc w.tobjs b c) : TDesc w.tobjs a c := by
  induction h1 with
  | child x => exact .step x h2
  | step x _ ih => exact .step x (ih h2)

theorem descendants_succ (n : Nat) (site : List Val) (c : Nat) : w.descendants o (n + 1) site c =
    match w.tobjs[c]? with
    | none => .panic
    | some t =>
      Out.collectI (fun i (e : Str × Nat) =>
        (w.descendants o n (site ++ [.int i]) e.2).map (fun ds => e.1 :: ds)) 0 (o.ord site _ t.desc) := rfl

theorem descendants_mem (inv : w.Inv) {n : Nat} {site : List Val} {c : Nat} {ds : List Str}
    (hd : w.descendants o n site c = .ok ds) (x : Str) : x ∈ ds ↔ BelowObj w.tobjs c x := by
  induction n generalizing site c ds x with
  | zero => cases hd
  | succ n ih =>
    rw [descendants_succ] at hd
    cases hr : w.tobjs[c]? with
    | none => rw [hr] at hd; cases hd
    | some t =>
      rw [hr] at hd
      simp only at hd
      have := Out.collectI_mem (P := fun (e : Str × Nat) y => y = e.1 ∨ BelowObj w.tobjs e.2 y) (by
        intro j e _ ys hy y
        rw [Out.map_eq_ok] at hy
        obtain ⟨ds', h1, rfl⟩ := hy
        simp [ih h1 y]) hd x
      rw [this]
      constructor
      · rintro ⟨⟨k, d⟩, he, rfl | ⟨d', t', h1, h2, h3⟩⟩
        · obtain ⟨dt, a1, a2⟩ := inv.desc t (List.mem_of_getElem? hr) _ (Ord.mem_ord.1 he)
          exact ⟨d, dt, .child ⟨t, _, hr, Ord.mem_ord.1 he⟩, a1, a2⟩
        · exact ⟨d', t', .step ⟨t, k, hr, Ord.mem_ord.1 he⟩ h1, h2, h3⟩
      · rintro ⟨d, dt, hdd, h2, h3⟩
        cases hdd with
        | child hc =>
          obtain ⟨t', k, hr', hm⟩ := hc
          rw [hr] at hr'; cases hr'
          refine ⟨(k, d), Ord.mem_ord.2 hm, .inl ?_⟩
          obtain ⟨dt', a1, a2⟩ := inv.desc t (List.mem_of_getElem? hr) _ hm
          simp only at a1 a2
          rw [h2] at a1; cases a1
          exact h3.symm.trans a2
        | step hc hd' =>
          obtain ⟨t', k, hr', hm⟩ := hc
          rw [hr] at hr'; cases hr'
          exact ⟨(k, _), Ord.mem_ord.2 hm, .inr ⟨d, dt, hd', h2, h3⟩⟩

theorem descendants_mono {n m : Nat} {site : List Val} {c : Nat} {ds : List Str}
    (hd : w.descendants o n site c = .ok ds) (hm : n ≤ m) : w.descendants o m site c = .ok ds := by
  induction n generalizing site c ds m with
  | zero => cases hd
  | succ n ih =>
    obtain ⟨m, rfl⟩ : ∃ m', m = m' + 1 := ⟨m - 1, by omega⟩
    rw [descendants_succ] at hd ⊢
    cases hr : w.tobjs[c]? with
    | none => rw [hr] at hd; cases hd
    | some t =>
      rw [hr] at hd
      simp only at hd ⊢
      refine Out.collectI_mono ?_ hd
      intro j e _ ys hy
      rw [Out.map_eq_ok] at hy ⊢
      obtain ⟨ds', h1, rfl⟩ := hy
      exact ⟨ds', ih h1 (by omega), rfl⟩

theorem descendants_acc {n : Nat} {site : List Val} {c : Nat} {ds : List Str}
    (hd : w.descendants o n site c = .ok ds) : Acc (fun d c => TChild w.tobjs c d) c := by
  induction n generalizing site c ds with
  | zero => cases hd
  | succ n ih =>
    rw [descendants_succ] at hd
    cases hr : w.tobjs[c]? with
    | none => rw [hr] at hd; cases hd
    | some t =>
      rw [hr] at hd
      simp only at hd
      refine ⟨_, fun d hb => ?_⟩
      obtain ⟨t', k, hr', hm⟩ := hb
      rw [hr] at hr'; cases hr'
      obtain ⟨j, ys, hy⟩ := Out.collectI_all hd (k, d) (Ord.mem_ord.2 hm)
      rw [Out.map_eq_ok] at hy
      obtain ⟨ds', h1, _⟩ := hy
      exact ih h1

theorem descendants_total (inv : w.Inv) {c : Nat} (hacc : Acc (fun d c => TChild w.tobjs c d) c)
    (hlt : c < w.tobjs.length) : ∃ n, ∀ m ≥ n, ∀ o site, ∃ ds, w.descendants o m site c = .ok ds := by
  induction hacc with
  | intro c _ ih =>
    obtain ⟨t, hr⟩ : ∃ t, w.tobjs[c]? = some t := ⟨_, List.getElem?_eq_getElem hlt⟩
    obtain ⟨n, hn⟩ := RHeap.bound_exists
      (P := fun (e : Str × Nat) n => ∀ m ≥ n, ∀ o site, ∃ ds, w.descendants o m site e.2 = .ok ds)
      (by intro x n m h hm m' hm'; exact h m' (by omega)) t.desc (by
        intro e he
        obtain ⟨d, hd, _⟩ := inv.desc t (List.mem_of_getElem? hr) e he
        exact ih e.2 ⟨t, e.1, hr, he⟩ (RHeap.lt_of_get hd))
    refine ⟨n + 1, fun m hm o site => ?_⟩
    obtain ⟨m, rfl⟩ : ∃ m', m = m' + 1 := ⟨m - 1, by omega⟩
    rw [descendants_succ, hr]
    apply Out.collectI_total
    intro j e he
    obtain ⟨ds, hds⟩ := hn e (Ord.mem_ord.1 he) m (by omega) o (site ++ [.int j])
    exact ⟨e.1 :: ds, by rw [hds]; rfl⟩

/-! ## Invariant preservation -/

theorem stored_log {d : Data} (h : Stored w d) : d ∈ w.log := by
  have := List.mem_of_getLast? (survivors_mem.1 h)
  exact (List.mem_filter.1 this).1

theorem Inv.empty : Inv {} where
  trie := TrieInv.new _ _
  heap := Spec.RHeap.OK.empty
  regT := GoMap.wf_nil
  regN := GoMap.wf_nil
  regS := GoMap.wf_nil
  regP := GoMap.wf_nil
  regR := GoMap.wf_nil
  regA := GoMap.wf_nil
  regG := GoMap.wf_nil
  roles := by intro k a h; cases h
  groups := by intro k a h; cases h
  tenants := by intro k a h; cases h
  desc := by intro t h; cases h
  descWF := by intro t h; cases h
  hier := by intro a l h; cases h
  pc := by intro a l h; cases h

theorem addData_eq (inv : w.Inv) (d : Data) : ∃ t, w.addData d = .ok { w with trie := t, log := w.log ++ [d] } ∧
    TrieInv dataKeys (w.log ++ [d]) t := by
  obtain ⟨t, ht⟩ : ∃ t, w.trie.insert (some d) = .ok t := by
    rw [Trie.insert]; simp only [inv.trie.keysEq, dataKeys]; exact ⟨_, rfl⟩
  exact ⟨t, by rw [addData, ht]; rfl, inv.trie.insert ht⟩

theorem Inv.addData {w' : Mgr} (inv : w.Inv) {d : Data} (h : w.addData d = .ok w') : w'.Inv := by
  obtain ⟨t, h1, h2⟩ := addData_eq inv d
  rw [h1] at h; cases h
  exact { inv with
    trie := h2
    hier := inv.hier
    pc := fun p I hp x hx => by
      obtain ⟨row, hr, rest⟩ := inv.pc p I hp x hx
      exact ⟨row, by simp [hr], rest⟩ }

/-- Replace a tenant object. -/
theorem Inv.setT (inv : w.Inv) {c : Nat} {t t' : TenantObj} (hc : w.tobjs[c]? = some t) (hid : t'.id = t.id)
    (hm : t.managed = true → t'.managed = true) (hd : ∀ e ∈ t.desc, e ∈ t'.desc) (hwf : GoMap.WF t'.desc)
    (hnew : ∀ e ∈ t'.desc, ∃ d, w.tobjs[e.2]? = some d ∧ d.id = e.1) :
    Inv { w with tobjs := w.tobjs.set c t' } ∧ TExt w { w with tobjs := w.tobjs.set c t' } := by
  have hx : TExt w { w with tobjs := w.tobjs.set c t' } := by
    intro a x hax
    by_cases h : c = a
    · subst h
      rw [hc] at hax; cases hax
      exact ⟨t', by simp [RHeap.lt_of_get hc], hid, hm, hd⟩
    · exact ⟨x, by simp only; rw [List.getElem?_set_ne h]; exact hax, rfl, id, fun _ => id⟩
  refine ⟨{ inv with tenants := ?_, desc := ?_, descWF := ?_, hier := ?_, pc := ?_ }, hx⟩
  · intro k a hk
    obtain ⟨x, a1, a2, a3⟩ := inv.tenants k a hk
    obtain ⟨x', b1, b2, b3, _⟩ := hx a x a1
    exact ⟨x', b1, b2.trans a2, b3 a3⟩
  · intro x hxm e he
    have : ∃ d, w.tobjs[e.2]? = some d ∧ d.id = e.1 := by
      rcases List.mem_or_eq_of_mem_set hxm with h | h
      · exact inv.desc x h e he
      · exact hnew e (h ▸ he)
    obtain ⟨d, d1, d2⟩ := this
    obtain ⟨d', b1, b2, _⟩ := hx _ d d1
    exact ⟨d', b1, b2.trans d2⟩
  · intro x hxm
    rcases List.mem_or_eq_of_mem_set hxm with h | h
    · exact inv.descWF x h
    · exact h ▸ hwf
  · intro a l hl v hv
    obtain ⟨x, e, hu⟩ := inv.hier a l hl v hv
    exact ⟨x, e, hx.under (fun _ _ h => h) hu⟩
  · intro p I hp x hxI
    obtain ⟨row, hr, h1, t0, h2, h3⟩ := inv.pc p I hp x hxI
    exact ⟨row, hr, h1, t0, h2, h3.imp id (fun h => ⟨h.1, hx.under (fun _ _ h => h) h.2⟩)⟩

theorem Inv.newTenant (inv : w.Inv) (id : Str) : (w.newTenant id).Inv := by
  have hx : TExt w (w.newTenant id) := by
    intro a t ht
    exact ⟨t, by rw [Mgr.newTenant, get_append_lt (RHeap.lt_of_get ht)]; exact ht, rfl, fun h => h, fun _ h => h⟩
  refine { inv with tenants := ?_, desc := ?_, descWF := ?_, hier := ?_, pc := ?_ }
  · intro k a hk
    obtain ⟨x, a1, a2, a3⟩ := inv.tenants k a hk
    obtain ⟨x', b1, b2, b3, _⟩ := hx a x a1
    exact ⟨x', b1, b2.trans a2, b3 a3⟩
  · intro x hxm e he
    rcases List.mem_append.1 hxm with h | h
    · obtain ⟨d, d1, d2⟩ := inv.desc x h e he
      obtain ⟨d', b1, b2, _⟩ := hx _ d d1
      exact ⟨d', b1, b2.trans d2⟩
    · rw [List.mem_singleton.1 h] at he; cases he
  · intro x hxm
    rcases List.mem_append.1 hxm with h | h
    · exact inv.descWF x h
    · rw [List.mem_singleton.1 h]; exact GoMap.wf_nil
  · intro a l hl v hv
    obtain ⟨x, e, hu⟩ := inv.hier a l hl v hv
    exact ⟨x, e, hx.under (fun _ _ h => h) hu⟩
  · intro p I hp x hxI
    obtain ⟨row, hr, h1, t0, h2, h3⟩ := inv.pc p I hp x hxI
    exact ⟨row, hr, h1, t0, h2, h3.imp (fun h => h) (fun h => ⟨h.1, hx.under (fun _ _ h => h) h.2⟩)⟩

theorem Inv.setHeap (inv : w.Inv) {h : RHeap} (ok : Spec.RHeap.OK h) (hx : HExt w.heap h) :
    Inv { w with heap := h } := by
  refine { inv with heap := ok, roles := ?_, groups := ?_, hier := inv.hier, pc := inv.pc }
  · intro k a hk
    obtain ⟨ro, a1, a2⟩ := inv.roles k a hk
    obtain ⟨ro', b1, b2⟩ := hx.roles a ro a1
    exact ⟨ro', b1, b2.trans a2⟩
  · intro k a hk
    obtain ⟨ro, a1, a2⟩ := inv.groups k a hk
    obtain ⟨ro', b1, b2⟩ := hx.groups a ro a1
    exact ⟨ro', b1, b2.trans a2⟩

theorem register_wf {m : GoMap Str Nat} (wf : GoMap.WF m) (id : Str) (obj : Nat) : GoMap.WF (register m id obj).2 := by
  unfold register
  split
  · exact wf
  · exact GoMap.wf_set wf _ _

theorem register_get {m : GoMap Str Nat} (id : Str) (obj : Nat) (k : Str) :
    (register m id obj).2.get k = match m.get k with
      | some x => some x
      | none => if k = id then some obj else none := by
  unfold register
  cases h : m.get id with
  | some d =>
    simp only
    by_cases hk : k = id
    · subst hk; simp [h]
    · cases m.get k <;> simp [hk]
  | none =>
    simp only [GoMap.get_set]
    by_cases hk : id = k
    · subst hk; simp [h]
    · cases m.get k <;> simp [hk, eq_comm]

theorem register_mono {m : GoMap Str Nat} (id : Str) (obj : Nat) {k : Str} {x : Nat} (h : m.get k = some x) :
    (register m id obj).2.get k = some x := by rw [register_get, h]

theorem Inv.addTenant {a x : Nat} {w' : Mgr} (inv : w.Inv) (h : w.addTenant a = .ok (x, w')) : w'.Inv := by
  unfold Mgr.addTenant at h
  split at h
  · cases h
  · rename_i t ht
    simp only [Out.ok.injEq, Prod.mk.injEq] at h
    obtain ⟨-, rfl⟩ := h
    obtain ⟨i2, hx⟩ := inv.setT (t' := { t with managed := true }) ht rfl (fun _ => rfl) (fun _ h => h)
      (inv.descWF t (List.mem_of_getElem? ht)) (inv.desc t (List.mem_of_getElem? ht))
    refine { i2 with regT := register_wf inv.regT _ _, tenants := ?_, hier := ?_, pc := ?_ }
    · intro k b hk
      simp only at hk ⊢
      rw [register_get] at hk
      cases hg : w.tenants.get k with
      | some y => rw [hg] at hk; cases hk; exact i2.tenants k _ hg
      | none =>
        rw [hg] at hk
        simp only at hk
        split at hk
        · rename_i e
          cases hk
          exact ⟨{ t with managed := true }, by simp [RHeap.lt_of_get ht], e.symm, rfl⟩
        · cases hk
    · intro b l hl v hv
      obtain ⟨x, e, c, h1, h2⟩ := i2.hier b l hl v hv
      exact ⟨x, e, c, register_mono _ _ h1, h2⟩
    · intro p I hp x hxI
      obtain ⟨row, hr, h1, t0, h2, h3⟩ := i2.pc p I hp x hxI
      refine ⟨row, hr, h1, t0, h2, h3.imp (fun h => h) (fun h => ⟨h.1, ?_⟩)⟩
      obtain ⟨c, h4, h5⟩ := h.2
      exact ⟨c, register_mono _ _ h4, h5⟩

theorem Inv.addNamespace (inv : w.Inv) (id : Str) (obj : Nat) : (w.addNamespace id obj).2.Inv :=
  { inv with regN := register_wf inv.regN _ _, hier := inv.hier, pc := inv.pc }
theorem Inv.addScope (inv : w.Inv) (id : Str) (obj : Nat) : (w.addScope id obj).2.Inv :=
  { inv with regS := register_wf inv.regS _ _, hier := inv.hier, pc := inv.pc }
theorem Inv.addPrincipal (inv : w.Inv) (id : Str) (obj : Nat) : (w.addPrincipal id obj).2.Inv :=
  { inv with regP := register_wf inv.regP _ _, hier := inv.hier, pc := inv.pc }
theorem Inv.addAttribute (inv : w.Inv) (a : Attr) (obj : Nat) : (w.addAttribute a obj).2.Inv :=
  { inv with regA := register_wf inv.regA _ _, hier := inv.hier, pc := inv.pc }

theorem Inv.addRole {a x : Nat} {w' : Mgr} (inv : w.Inv) (h : w.addRole a = .ok (x, w')) : w'.Inv := by
  unfold Mgr.addRole at h
  split at h
  · cases h
  · rename_i ro hr
    simp only [Out.ok.injEq, Prod.mk.injEq] at h
    obtain ⟨-, rfl⟩ := h
    refine { inv with regR := register_wf inv.regR _ _, roles := ?_, hier := inv.hier, pc := inv.pc }
    intro k b hk
    simp only at hk
    rw [register_get] at hk
    cases hg : w.roles.get k with
    | some y => rw [hg] at hk; cases hk; exact inv.roles k _ hg
    | none =>
      rw [hg] at hk
      simp only at hk
      split at hk
      · rename_i e; cases hk; exact ⟨ro, hr, e.symm⟩
      · cases hk

theorem Inv.addAttributeGroup {a x : Nat} {w' : Mgr} (inv : w.Inv) (h : w.addAttributeGroup a = .ok (x, w')) : w'.Inv := by
  unfold Mgr.addAttributeGroup at h
  split at h
  · cases h
  · rename_i ro hr
    simp only [Out.ok.injEq, Prod.mk.injEq] at h
    obtain ⟨-, rfl⟩ := h
    refine { inv with regG := register_wf inv.regG _ _, groups := ?_, hier := inv.hier, pc := inv.pc }
    intro k b hk
    simp only at hk
    rw [register_get] at hk
    cases hg : w.attrGroups.get k with
    | some y => rw [hg] at hk; cases hk; exact inv.groups k _ hg
    | none =>
      rw [hg] at hk
      simp only at hk
      split at hk
      · rename_i e; cases hk; exact ⟨ro, hr, e.symm⟩
      · cases hk

theorem withTenant_ok {α : Type} {c : Nat} {f : TenantObj → Out α} {x : α} (h : w.withTenant c f = .ok x) :
    ∃ t, w.tobjs[c]? = some t ∧ t.managed = true ∧ f t = .ok x := by
  unfold withTenant at h
  split at h
  · cases h
  · rename_i t ht
    split at h
    · rename_i hm; exact ⟨t, ht, hm, h⟩
    · cases h

theorem Inv.tAddNamespace {c : Nat} {n : Str} {w' : Mgr} (inv : w.Inv) (h : w.tAddNamespace c n = .ok w') : w'.Inv := by
  obtain ⟨t, _, _, h3⟩ := withTenant_ok h; exact inv.addData h3
theorem Inv.tAddScopesToNamespace {c : Nat} {n s : Str} {w' : Mgr} (inv : w.Inv)
    (h : w.tAddScopesToNamespace c n s = .ok w') : w'.Inv := by
  obtain ⟨t, _, _, h3⟩ := withTenant_ok h; exact inv.addData h3
theorem Inv.tAddPrincipalInNamespace {c : Nat} {p n s : Str} {w' : Mgr} (inv : w.Inv)
    (h : w.tAddPrincipalInNamespace c p n s = .ok w') : w'.Inv := by
  obtain ⟨t, _, _, h3⟩ := withTenant_ok h; exact inv.addData h3
theorem Inv.tAddRole {c : Nat} {n : Str} {w' : Mgr} (inv : w.Inv) (h : w.tAddRole c n = .ok w') : w'.Inv := by
  obtain ⟨t, _, _, h3⟩ := withTenant_ok h; exact inv.addData h3
theorem Inv.tAddScope {c : Nat} {n : Str} {w' : Mgr} (inv : w.Inv) (h : w.tAddScope c n = .ok w') : w'.Inv := by
  obtain ⟨t, _, _, h3⟩ := withTenant_ok h; exact inv.addData h3

theorem Inv.tSetDefaultNamespace {c : Nat} {n : Str} {w' : Mgr} (inv : w.Inv)
    (h : w.tSetDefaultNamespace c n = .ok w') : w'.Inv := by
  obtain ⟨t, ht, _, h3⟩ := withTenant_ok h
  split at h3
  · cases h3
    exact (inv.setT (t' := { t with defNs := some n }) ht rfl (fun h => h) (fun _ h => h) (inv.descWF t (List.mem_of_getElem? ht))
      (inv.desc t (List.mem_of_getElem? ht))).1
  · cases h3; exact inv

/-- The first step of `AddDescendant`. -/
theorem Inv.link (inv : w.Inv) {c d : Nat} {ct dt : TenantObj} (hc : w.tobjs[c]? = some ct)
    (hd : w.tobjs[d]? = some dt) (hn : ct.desc.get dt.id = none) :
    Inv { w with tobjs := w.tobjs.set c { ct with desc := ct.desc.set dt.id d } } := by
  have hwf := inv.descWF ct (List.mem_of_getElem? hc)
  refine (inv.setT (t' := { ct with desc := ct.desc.set dt.id d }) hc rfl (fun h => h) ?_ (GoMap.wf_set hwf _ _) ?_).1
  · intro e he
    refine (GoMap.mem_set_iff hwf).2 (.inr ⟨?_, he⟩)
    rintro rfl'
    have := (GoMap.mem_iff_get hwf (k := e.1) (v := e.2)).1 he
    rw [rfl', hn] at this; cases this
  · intro e he
    rcases (GoMap.mem_set_iff hwf).1 he with rfl | ⟨_, he⟩
    · exact ⟨dt, hd, rfl⟩
    · exact inv.desc ct (List.mem_of_getElem? hc) e he

theorem Inv.tAddDescendant {c : Nat} {ds : List Nat} {w w' : Mgr} (inv : w.Inv)
    (h : w.tAddDescendant c ds = .ok w') : w'.Inv := by
  induction ds generalizing w with
  | nil => cases h; exact inv
  | cons d ds ih =>
    rw [Mgr.tAddDescendant] at h
    split at h
    · rename_i ct dt hc hd
      have i1 : (if (ct.desc.get dt.id).isSome then w
        else { w with tobjs := w.tobjs.set c { ct with desc := ct.desc.set dt.id d } }).Inv := by
        split
        · exact inv
        · rename_i hs; exact inv.link hc hd (by simpa using hs)
      simp only at h
      generalize (if (ct.desc.get dt.id).isSome then w
        else { w with tobjs := w.tobjs.set c { ct with desc := ct.desc.set dt.id d } }) = w1 at i1 h
      split at h
      · exact ih i1 h
      · rw [Out.bind_eq_ok] at h
        obtain ⟨w2, h2, h⟩ := h
        rw [Out.bind_eq_ok] at h
        obtain ⟨w3, h3, h⟩ := h
        exact ih ((i1.tAddNamespace h2).tSetDefaultNamespace h3) h
    · cases h

theorem Inv.tAddPrincipalWithRole {c : Nat} {p r : Str} {m : Bool} {e : Option Err} {w' : Mgr} (inv : w.Inv)
    (h : w.tAddPrincipalWithRole c p r m = .ok (e, w')) : w'.Inv := by
  obtain ⟨t, _, _, h⟩ := withTenant_ok h
  split at h
  · cases h; exact inv
  · split at h
    · cases h; exact inv
    · rw [Out.bind_eq_ok] at h
      obtain ⟨w1, h1, h⟩ := h
      have i1 := inv.addData h1
      split at h
      · cases h; exact i1
      · obtain ⟨w2, h2, h3⟩ := Out.map_eq_ok.1 h
        cases h3; exact i1.addData h2

theorem Inv.tAddPrincipal {c : Nat} {p : Str} {m : Bool} {rs : List Str} {e : Option Err} {w w' : Mgr} (inv : w.Inv)
    (h : w.tAddPrincipal c p m rs = .ok (e, w')) : w'.Inv := by
  induction rs generalizing w with
  | nil => cases h; exact inv
  | cons r rs ih =>
    rw [Mgr.tAddPrincipal, Out.bind_eq_ok] at h
    obtain ⟨⟨e1, w1⟩, h1, h⟩ := h
    have i1 := inv.tAddPrincipalWithRole h1
    split at h
    · cases h; exact i1
    · exact ih i1 h

theorem Inv.tAddScopeToPrincipal {c : Nat} {p r : Str} {m : Bool} {e : Option Err} {w' : Mgr} (inv : w.Inv)
    (h : w.tAddScopeToPrincipal c p r m = .ok (e, w')) : w'.Inv := by
  obtain ⟨t, _, _, h⟩ := withTenant_ok h
  split at h
  · cases h; exact inv
  · split at h
    · cases h; exact inv
    · rw [Out.bind_eq_ok] at h
      obtain ⟨w1, h1, h⟩ := h
      have i1 := inv.addData h1
      split at h
      · cases h; exact i1
      · obtain ⟨w2, h2, h3⟩ := Out.map_eq_ok.1 h
        cases h3; exact i1.addData h2

theorem Inv.tAssignScopes {c : Nat} {p : Str} {m : Bool} {rs : List Str} {e : Option Err} {w w' : Mgr} (inv : w.Inv)
    (h : w.tAssignScopes c p m rs = .ok (e, w')) : w'.Inv := by
  induction rs generalizing w with
  | nil => cases h; exact inv
  | cons r rs ih =>
    rw [Mgr.tAssignScopes, Out.bind_eq_ok] at h
    obtain ⟨⟨e1, w1⟩, h1, h⟩ := h
    have i1 := inv.tAddScopeToPrincipal h1
    split at h
    · cases h; exact i1
    · exact ih i1 h

/-! ## Caches -/

/-- Two states that differ in the caches only. -/
def SameBut (w w' : Mgr) : Prop :=
  w' = { w with hierarchy := w'.hierarchy, pcache := w'.pcache }

theorem SameBut.refl (w : Mgr) : SameBut w w := rfl

theorem SameBut.trans {a b c : Mgr} (h1 : SameBut a b) (h2 : SameBut b c) : SameBut a c := by
  unfold SameBut at *; rw [h2, h1]

theorem Inv.setHier (inv : w.Inv) {h : GoMap Str (List Val)}
    (hs : ∀ a l, h.get a = some l → ∀ v ∈ l, ∃ x, v = .str x ∧ Under w a x) : Inv { w with hierarchy := h } :=
  { inv with hier := hs, pc := inv.pc }

theorem tenantChildren_spec (inv : w.Inv) {fuel : Nat} {site : List Val} {id : Str} {l : List Val} {w' : Mgr}
    (h : w.tenantChildren o fuel site id = .ok (l, w')) :
    w'.Inv ∧ w' = { w with hierarchy := w'.hierarchy } ∧
    (∀ v ∈ l, ∃ x, v = .str x ∧ Under w id x) ∧
    (w.hierarchy.get id = none → ∀ x, Under w id x → .str x ∈ l) ∧
    (∀ k, k ≠ id → w'.hierarchy.get k = w.hierarchy.get k) ∧
    (∀ l', w'.hierarchy.get id = some l' → ∀ v, v ∈ l' ↔ v ∈ l) ∧
    (∀ l', w.hierarchy.get id = some l' → l = l' ∧ w' = w) := by
  unfold tenantChildren at h
  split at h
  · rename_i hier hh
    cases h
    refine ⟨inv, rfl, inv.hier id l hh, by simp [hh], fun _ _ => rfl, ?_, ?_⟩
    · intro l' hl'; rw [hh] at hl'; cases hl'; simp
    · intro l' hl'; rw [hh] at hl'; cases hl'; exact ⟨rfl, rfl⟩
  · rename_i hh
    split at h
    · rename_i ht
      cases h
      refine ⟨inv, rfl, by simp, ?_, fun _ _ => rfl, by simp [hh], by simp [hh]⟩
      rintro - x ⟨c, hc, _⟩; rw [ht] at hc; cases hc
    · rename_i c hc
      obtain ⟨ds, h1, h2⟩ := Out.map_eq_ok.1 h
      cases h2
      have hm := descendants_mem inv h1
      have hv : ∀ v, v ∈ ds.map Val.str ↔ ∃ x, v = .str x ∧ Under w id x := by
        intro v
        rw [List.mem_map]
        constructor
        · rintro ⟨x, hx, rfl⟩; exact ⟨x, rfl, c, hc, (hm x).1 hx⟩
        · rintro ⟨x, rfl, c', hc', hb⟩
          rw [hc] at hc'; cases hc'
          exact ⟨x, (hm x).2 hb, rfl⟩
      refine ⟨inv.setHier ?_, rfl, fun v hv' => (hv v).1 hv', fun _ x hx => (hv _).2 ⟨x, rfl, hx⟩, ?_, ?_, by simp [hh]⟩
      · intro a l hl v hv'
        rw [GoMap.get_set] at hl
        split at hl
        · rename_i e; subst e
          cases hl
          exact (hv v).1 (((C12_compact _).2.1 v).1 hv')
        · exact inv.hier a l hl v hv'
      · intro k hk; simp only [GoMap.get_set]; rw [if_neg (fun e => hk e.symm)]
      · intro l' hl' v
        simp only [GoMap.get_set, if_true, Option.some.injEq] at hl'
        rw [← hl', (C12_compact _).2.1]

theorem addDescs_spec {E E' : List Str} {l : List Val} (hl : ∀ v ∈ l, ∃ x, v = .str x) (h : addDescs E l = .ok E') :
    ∀ x, x ∈ E' ↔ x ∈ E ∨ .str x ∈ l := by
  induction l generalizing E with
  | nil => cases h; simp
  | cons v l ih =>
    obtain ⟨s, rfl⟩ := hl v (by simp)
    rw [addDescs] at h
    intro x
    rw [ih (fun v hv => hl v (by simp [hv])) h]
    split
    · rename_i hs
      simp only [List.mem_cons, Val.str.injEq]
      constructor
      · rintro (h | h)
        · exact .inl h
        · exact .inr (.inr h)
      · rintro (h | rfl | h)
        · exact .inl h
        · exact .inl hs
        · exact .inr h
    · simp [or_assoc]

theorem addDescs_total {E : List Str} {l : List Val} (hl : ∀ v ∈ l, ∃ x, v = .str x) : ∃ E', addDescs E l = .ok E' := by
  induction l generalizing E with
  | nil => exact ⟨E, rfl⟩
  | cons v l ih =>
    obtain ⟨s, rfl⟩ := hl v (by simp)
    rw [addDescs]
    exact ih (fun v hv => hl v (by simp [hv]))

/-- The cached subtree lists are complete. -/
def HierFresh (w : Mgr) : Prop :=
  ∀ a l, w.hierarchy.get a = some l → ∀ x, Under w a x → .str x ∈ l

/-- `Under` does not look at the caches. -/
theorem under_hier {h : GoMap Str (List Val)} {a x : Str} :
    Under { w with hierarchy := h } a x ↔ Under w a x := by
  constructor <;> intro hu
  · exact (TExt.of_eq (w := { w with hierarchy := h }) (w' := w) rfl).under (fun _ _ h => h) hu
  · exact (TExt.of_eq (w' := { w with hierarchy := h }) (w := w) rfl).under (fun _ _ h => h) hu

theorem implicitLoop_spec {fuel : Nat} {site : List Val} {rows : List Data} {i : Nat} {E E' : List Str} {w w' : Mgr}
    (inv : w.Inv) (h : implicitLoop o fuel site i rows E w = .ok (E', w')) :
    w'.Inv ∧ w' = { w with hierarchy := w'.hierarchy } ∧ (∀ x ∈ E, x ∈ E') ∧
    (∀ row ∈ rows, ∃ t, row.tenant = .str t ∧ t ∈ E') ∧
    (∀ x ∈ E', x ∈ E ∨ ∃ row ∈ rows, ∃ t, row.tenant = .str t ∧
      (x = t ∨ (row.manage = .bool true ∧ Under w t x))) ∧
    (HierFresh w → HierFresh w') := by
  induction rows generalizing i E w with
  | nil => cases h; exact ⟨inv, rfl, fun _ h => h, by simp, fun x hx => .inl hx, fun h => h⟩
  | cons row rows ih =>
    rw [implicitLoop] at h
    split at h
    · rename_i t ht
      split at h
      · rename_i hE
        obtain ⟨a1, a2, a3, a4, a5, a6⟩ := ih inv h
        refine ⟨a1, a2, a3, ?_, ?_, a6⟩
        · intro r hr
          rcases List.mem_cons.1 hr with rfl | hr
          · exact ⟨t, ht, a3 t hE⟩
          · exact a4 r hr
        · intro x hx
          refine (a5 x hx).imp id ?_
          rintro ⟨r, hr, h⟩; exact ⟨r, by simp [hr], h⟩
      · split at h
        · rename_i hE hm
          rw [Out.bind_eq_ok] at h
          obtain ⟨⟨l, w1⟩, h1, h⟩ := h
          rw [Out.bind_eq_ok] at h
          obtain ⟨E1, h2, h⟩ := h
          obtain ⟨c1, c2, c3, c4, c5, c6, c7⟩ := tenantChildren_spec inv h1
          have hstr : ∀ v ∈ l, ∃ x, v = .str x := fun v hv => (c3 v hv).imp fun x h => h.1
          have d := addDescs_spec hstr h2
          obtain ⟨a1, a2, a3, a4, a5, a6⟩ := ih c1 h
          have hu : ∀ {a x}, Under w1 a x ↔ Under w a x := by
            intro a x; rw [c2]; exact under_hier
          refine ⟨a1, ?_, ?_, ?_, ?_, ?_⟩
          · rw [a2, c2]
          · intro x hx; exact a3 x ((d x).2 (.inl (by simp [hx])))
          · intro r hr
            rcases List.mem_cons.1 hr with rfl | hr
            · exact ⟨t, ht, a3 t ((d t).2 (.inl (by simp)))⟩
            · exact a4 r hr
          · intro x hx
            rcases a5 x hx with hx | ⟨r, hr, t', h3, h4⟩
            · rcases (d x).1 hx with hx | hx
              · rcases List.mem_append.1 hx with hx | hx
                · exact .inl hx
                · exact .inr ⟨row, by simp, t, ht, .inl (List.mem_singleton.1 hx)⟩
              · obtain ⟨y, e, hy⟩ := c3 _ hx
                cases e
                exact .inr ⟨row, by simp, t, ht, .inr ⟨hm, hy⟩⟩
            · exact .inr ⟨r, by simp [hr], t', h3, h4.imp id (fun h => ⟨h.1, hu.1 h.2⟩)⟩
          · intro hf
            apply a6
            intro a l' hl' x hx
            have hx : Under w a x := hu.1 hx
            by_cases ha : a = t
            · subst ha
              rw [c6 l' hl']
              cases hh : w.hierarchy.get a with
              | none => exact c4 hh x hx
              | some l2 =>
                obtain ⟨e, _⟩ := c7 l2 hh
                rw [e]; exact hf a l2 hh x hx
            · rw [c5 a ha] at hl'
              exact hf a l' hl' x hx
        · rename_i hE hm
          obtain ⟨a1, a2, a3, a4, a5, a6⟩ := ih inv h
          refine ⟨a1, a2, fun x hx => a3 x (by simp [hx]), ?_, ?_, a6⟩
          · intro r hr
            rcases List.mem_cons.1 hr with rfl | hr
            · exact ⟨t, ht, a3 t (by simp)⟩
            · exact a4 r hr
          · intro x hx
            rcases a5 x hx with hx | ⟨r, hr, h⟩
            · rcases List.mem_append.1 hx with hx | hx
              · exact .inl hx
              · exact .inr ⟨row, by simp, t, ht, .inl (List.mem_singleton.1 hx)⟩
            · exact .inr ⟨r, by simp [hr], h⟩
    · cases h

theorem mem_rowsOf (inv : w.Inv) {site : List Val} {p : Str} {row : Data} :
    row ∈ w.search o site { principal := .str p } filterTenantsByPrincipal ↔
      Stored w row ∧ row.principal = .str p ∧ row.tenant ≠ .nil := by
  simp only [mem_search inv, filterTenantsByPrincipal, Bool.and_eq_true, matchPrincipal_iff,
    Bool.not_eq_true', isNil, decide_eq_false_iff_not]
  constructor
  · rintro ⟨a, ⟨_, b⟩, c⟩; exact ⟨a, b, c⟩
  · rintro ⟨a, b, c⟩; exact ⟨a, ⟨by rw [b]; simp, b⟩, c⟩

theorem implicitTenants_inv (inv : w.Inv) {fuel : Nat} {site : List Val} {p : Str} {I : List Str} {w' : Mgr}
    (h : w.implicitTenants o fuel site p = .ok (I, w')) :
    w'.Inv ∧ SameBut w w' ∧ w'.pcache.get p = some I ∧
    (∀ q, q ≠ p → w'.pcache.get q = w.pcache.get q) ∧
    (∀ J, w.pcache.get p = some J → I = J ∧ w' = w) := by
  unfold implicitTenants at h
  split at h
  · rename_i J hJ
    cases h
    refine ⟨inv, rfl, hJ, fun _ _ => rfl, ?_⟩
    intro J hJ'; rw [hJ] at hJ'; cases hJ'; exact ⟨rfl, rfl⟩
  · rename_i hn
    obtain ⟨⟨E, w1⟩, h1, h2⟩ := Out.map_eq_ok.1 h
    cases h2
    obtain ⟨a1, a2, a3, a4, a5, a6⟩ := implicitLoop_spec inv h1
    have hp : w1.pcache = w.pcache := by rw [a2]
    refine ⟨{ a1 with hier := a1.hier, pc := ?_ }, ?_, by simp, ?_, by simp [hn]⟩
    · intro q J hq x hx
      simp only [GoMap.get_set] at hq
      split at hq
      · rename_i e; subst e
        cases hq
        rcases a5 x hx with hx | ⟨row, hr, t, h3, h4⟩
        · cases hx
        · obtain ⟨s1, s2, s3⟩ := (mem_rowsOf inv).1 hr
          refine ⟨row, ?_, s2, t, h3, ?_⟩
          · simp only; rw [a2]; exact stored_log s1
          · refine h4.imp id (fun h => ⟨h.1, ?_⟩)
            have := h.2
            rw [← under_hier (h := w1.hierarchy), ← a2] at this
            exact this
      · exact a1.pc q J hq x hx
    · unfold SameBut; simp only; rw [a2]
    · intro q hq; simp only [GoMap.get_set]; rw [if_neg (fun e => hq e.symm), hp]

theorem authorize_inv {fuel : Nat} {site : List Val} {p : Str} {opts : List Opt} {b : Bool} {w' : Mgr}
    (h : w.authorize o fuel site p opts = .ok (b, w')) :
    (w' = w ∧ b = false ∧ w.principals.get p = none) ∨
    (w.principals.get p ≠ none ∧ ∃ I, w.implicitTenants o fuel (site ++ [.int 0]) p = .ok (I, w')) := by
  unfold authorize at h
  split at h
  · rename_i hn; cases h; exact .inl ⟨rfl, rfl, by simpa using hn⟩
  · rename_i hn
    refine .inr ⟨by simpa using hn, ?_⟩
    simp only [Out.bind_eq_ok] at h
    obtain ⟨⟨I, w1⟩, h1, h⟩ := h
    suffices w' = w1 by subst this; exact ⟨I, h1⟩
    split at h
    · cases h; rfl
    · rw [Out.bind_eq_ok] at h
      obtain ⟨v, _, h⟩ := h
      split at h
      · cases h; rfl
      · rw [Out.bind_eq_ok] at h
        obtain ⟨b', _, h⟩ := h
        split at h
        · cases h; rfl
        · obtain ⟨_, _, h⟩ := Out.map_eq_ok.1 h
          cases h; rfl

end Mgr

/-! ## Histories -/

/-- Every exported call of the root package that can change the state of one manager. -/
inductive MOp where
  | role (op : RoleOp)
  | newTenant (id : Str)
  | addTenant (a : Nat)
  | addNamespace (id : Str) (obj : Nat)
  | addScope (id : Str) (obj : Nat)
  | addPrincipal (id : Str) (obj : Nat)
  | addRole (r : Nat)
  | addAttribute (a : Attr) (obj : Nat)
  | addAttributeGroup (ga : Nat)
  | addData (d : Data)
  | tAddNamespace (c : Nat) (n : Str)
  | tAddScopesToNamespace (c : Nat) (n s : Str)
  | tSetDefaultNamespace (c : Nat) (n : Str)
  | tAddPrincipalInNamespace (c : Nat) (p n r : Str)
  | tAddRole (c : Nat) (r : Str)
  | tAddScope (c : Nat) (s : Str)
  | tAddDescendant (c : Nat) (ds : List Nat)
  | tAddPrincipalWithRole (c : Nat) (p r : Str) (manage : Bool)
  | tAddPrincipal (c : Nat) (p : Str) (manage : Bool) (rs : List Str)
  | tAddScopeToPrincipal (c : Nat) (p s : Str) (manage : Bool)
  | tAssignScopes (c : Nat) (p : Str) (manage : Bool) (ss : List Str)
  | addPermissionsToRole (r g : Str) (attrs : List Attr)
  | tenantChildren (o : Ord) (fuel : Nat) (site : List Val) (id : Str)
  | implicitTenants (o : Ord) (fuel : Nat) (site : List Val) (p : Str)
  | authorize (o : Ord) (fuel : Nat) (site : List Val) (p : Str) (opts : List Opt)

/-- Effect of a call on the state (results and errors are dropped). -/
def MOp.apply (w : Mgr) : MOp → Out Mgr
  | .role op => (op.apply w.heap).map fun h => { w with heap := h }
  | .newTenant id => .ok (w.newTenant id)
  | .addTenant a => (w.addTenant a).map (·.2)
  | .addNamespace id obj => .ok (w.addNamespace id obj).2
  | .addScope id obj => .ok (w.addScope id obj).2
  | .addPrincipal id obj => .ok (w.addPrincipal id obj).2
  | .addRole r => (w.addRole r).map (·.2)
  | .addAttribute a obj => .ok (w.addAttribute a obj).2
  | .addAttributeGroup ga => (w.addAttributeGroup ga).map (·.2)
  | .addData d => w.addData d
  | .tAddNamespace c n => w.tAddNamespace c n
  | .tAddScopesToNamespace c n s => w.tAddScopesToNamespace c n s
  | .tSetDefaultNamespace c n => w.tSetDefaultNamespace c n
  | .tAddPrincipalInNamespace c p n r => w.tAddPrincipalInNamespace c p n r
  | .tAddRole c r => w.tAddRole c r
  | .tAddScope c s => w.tAddScope c s
  | .tAddDescendant c ds => w.tAddDescendant c ds
  | .tAddPrincipalWithRole c p r m => (w.tAddPrincipalWithRole c p r m).map (·.2)
  | .tAddPrincipal c p m rs => (w.tAddPrincipal c p m rs).map (·.2)
  | .tAddScopeToPrincipal c p s m => (w.tAddScopeToPrincipal c p s m).map (·.2)
  | .tAssignScopes c p m ss => (w.tAssignScopes c p m ss).map (·.2)
  | .addPermissionsToRole r g as =>
    (w.heap.addPermissionsToRole w.roles w.attrGroups r g as).map fun x => { w with heap := x.2 }
  | .tenantChildren o fuel site id => (w.tenantChildren o fuel site id).map (·.2)
  | .implicitTenants o fuel site p => (w.implicitTenants o fuel site p).map (·.2)
  | .authorize o fuel site p opts => (w.authorize o fuel site p opts).map (·.2)

/-- Run a history of calls. -/
def MOp.run (w : Mgr) : List MOp → Out Mgr
  | [] => .ok w
  | op :: ops => (op.apply w).bind fun w' => MOp.run w' ops

theorem MOp.apply_inv {w w' : Mgr} {op : MOp} (inv : w.Inv) (h : op.apply w = .ok w') : w'.Inv := by
  cases op with
  | role op =>
    obtain ⟨h1, h2, rfl⟩ := Out.map_eq_ok.1 h
    exact inv.setHeap (RoleOp.apply_ok inv.heap h2) (.apply h2)
  | newTenant id => cases h; exact inv.newTenant id
  | addTenant a => obtain ⟨⟨x, w1⟩, h2, rfl⟩ := Out.map_eq_ok.1 h; exact inv.addTenant h2
  | addNamespace id obj => cases h; exact inv.addNamespace id obj
  | addScope id obj => cases h; exact inv.addScope id obj
  | addPrincipal id obj => cases h; exact inv.addPrincipal id obj
  | addRole r => obtain ⟨⟨x, w1⟩, h2, rfl⟩ := Out.map_eq_ok.1 h; exact inv.addRole h2
  | addAttribute a obj => cases h; exact inv.addAttribute a obj
  | addAttributeGroup ga => obtain ⟨⟨x, w1⟩, h2, rfl⟩ := Out.map_eq_ok.1 h; exact inv.addAttributeGroup h2
  | addData d => exact inv.addData h
  | tAddNamespace c n => exact inv.tAddNamespace h
  | tAddScopesToNamespace c n s => exact inv.tAddScopesToNamespace h
  | tSetDefaultNamespace c n => exact inv.tSetDefaultNamespace h
  | tAddPrincipalInNamespace c p n r => exact inv.tAddPrincipalInNamespace h
  | tAddRole c r => exact inv.tAddRole h
  | tAddScope c s => exact inv.tAddScope h
  | tAddDescendant c ds => exact inv.tAddDescendant h
  | tAddPrincipalWithRole c p r m =>
    obtain ⟨⟨x, w1⟩, h2, rfl⟩ := Out.map_eq_ok.1 h; exact inv.tAddPrincipalWithRole h2
  | tAddPrincipal c p m rs => obtain ⟨⟨x, w1⟩, h2, rfl⟩ := Out.map_eq_ok.1 h; exact inv.tAddPrincipal h2
  | tAddScopeToPrincipal c p s m =>
    obtain ⟨⟨x, w1⟩, h2, rfl⟩ := Out.map_eq_ok.1 h; exact inv.tAddScopeToPrincipal h2
  | tAssignScopes c p m ss => obtain ⟨⟨x, w1⟩, h2, rfl⟩ := Out.map_eq_ok.1 h; exact inv.tAssignScopes h2
  | addPermissionsToRole r g as =>
    obtain ⟨⟨e, h1⟩, h2, rfl⟩ := Out.map_eq_ok.1 h
    exact inv.setHeap (ok_addPermissionsToRole inv.heap h2) (.addPermissionsToRole h2)
  | tenantChildren o fuel site id =>
    obtain ⟨⟨x, w1⟩, h2, rfl⟩ := Out.map_eq_ok.1 h; exact (Mgr.tenantChildren_spec inv h2).1
  | implicitTenants o fuel site p =>
    obtain ⟨⟨x, w1⟩, h2, rfl⟩ := Out.map_eq_ok.1 h; exact (Mgr.implicitTenants_inv inv h2).1
  | authorize o fuel site p opts =>
    obtain ⟨⟨x, w1⟩, h2, rfl⟩ := Out.map_eq_ok.1 h
    rcases Mgr.authorize_inv h2 with ⟨rfl, _⟩ | ⟨_, I, hI⟩
    · exact inv
    · exact (Mgr.implicitTenants_inv inv hI).1

theorem MOp.run_inv {w w' : Mgr} {ops : List MOp} (inv : w.Inv) (h : MOp.run w ops = .ok w') : w'.Inv := by
  induction ops generalizing w with
  | nil => cases h; exact inv
  | cons op ops ih =>
    rw [MOp.run, Out.bind_eq_ok] at h
    obtain ⟨w1, h1, h2⟩ := h
    exact ih (MOp.apply_inv inv h1) h2

/-- Every manager state produced by any history of calls satisfies the invariant that the theorems
about the manager assume. -/
theorem MOp.reachable_inv {w : Mgr} {ops : List MOp} (h : MOp.run {} ops = .ok w) : w.Inv :=
  MOp.run_inv Mgr.Inv.empty h

end Verif
