import Verif.Lemmas.V1

namespace Verif
open Spec
namespace V1
variable {w w' : V1} {o : Ord}

/-- Invariant and growth of one step, packaged for loops. -/
def Good (w w' : V1) : Prop := Inv w → Inv w' ∧ Ext w w'

theorem Good.refl (w : V1) : Good w w := fun i => ⟨i, .refl _⟩

theorem Good.trans {a b c : V1} (h1 : Good a b) (h2 : Good b c) : Good a c := fun i =>
  let ⟨i1, e1⟩ := h1 i
  let ⟨i2, e2⟩ := h2 i1
  ⟨i2, e1.trans e2⟩

theorem Good.loop {α : Type} {f : V1 → α → Out V1} {xs : List α}
    (hf : ∀ w w', ∀ x ∈ xs, f w x = .ok w' → Good w w') (h : Out.loop f w xs = .ok w') : Good w w' :=
  Out.loop_inv (P := fun s => Good w s) (fun s s' x hx p h => p.trans (hf s s' x hx h)) (.refl _) h

theorem Good.store (w : V1) (x : TP) : Good w (w.store x) := fun i => ⟨i.store x, .store w x⟩

theorem Good.addPrincipalRole {p r : Str} {c : Nat} {ns : Option Nat} {sc : Option Str} {m : List Bool}
    (h : w.addPrincipalRole p r c ns sc m = .ok w') : Good w w' := by
  unfold V1.addPrincipalRole at h
  split at h
  · cases h
  · obtain ⟨n, _, rfl⟩ := Out.map_eq_ok.1 h
    exact .store _ _

theorem Good.tAddPrincipalRole {c d : Nat} {p r : Str} {ns : Option Nat} {sc : Option Str} {m : List Bool}
    (h : w.tAddPrincipalRole c p r d ns sc m = .ok w') : Good w w' := by
  obtain ⟨t, _, h⟩ := withT_eq_ok.1 h
  split at h
  · exact .addPrincipalRole h
  · cases h

theorem Good.setT {c : Nat} {t t' : T1Obj} (hc : w.tobjs[c]? = some t) (he : TExt t t')
    (hok : Inv w → TOK w t → TOK w t') : Good w (w.setT c t') :=
  fun i => ⟨i.setT hc he (hok i (i.tobjs t (mem_of_get hc))), .setT hc he⟩

theorem Good.setNs {a : Nat} {no no' : NsObj} (ha : w.nsobjs[a]? = some no) (hid : no'.id = no.id)
    (hok : Inv w → NOK w no → NOK w no') : Good w (w.setNs a no') :=
  fun i => ⟨i.setNs ha hid (hok i (i.nsobjs no (mem_of_get ha))), .setNs ha hid⟩

/-- Everything but the registries of tenants, roles and groups and the assignments may be replaced freely. -/
theorem Inv.same (i : Inv w) (h1 : w'.heap = w.heap) (h2 : w'.tobjs = w.tobjs) (h3 : w'.nsobjs = w.nsobjs)
    (h4 : w'.tps = w.tps) (h5 : w'.log = w.log)
    (t1 : GoMap.WF w'.tenants) (t2 : ∀ k a, w'.tenants.get k = some a → ∃ t, w.tobjs[a]? = some t ∧ t.id = k)
    (r1 : GoMap.WF w'.roles) (r2 : ∀ k a, w'.roles.get k = some a → ∃ ro, w.heap.roles[a]? = some ro ∧ ro.id = k)
    (g2 : ∀ k a, w'.attrGroups.get k = some a → ∃ g, w.heap.groups[a]? = some g ∧ g.id = k) :
    Inv w' ∧ Ext w w' := by
  have e : Ext w w' := ⟨⟨[], by simp [h5]⟩, h1 ▸ .refl _, fun _ x h => ⟨x, h3 ▸ h, rfl⟩, fun _ x h => ⟨x, h2 ▸ h, .refl _⟩⟩
  exact ⟨⟨h1 ▸ i.heap, t1, r1, h2 ▸ t2, h1 ▸ r2, h1 ▸ g2, fun t h => (i.tobjs t (h2 ▸ h)).ext e,
    fun n h => (i.nsobjs n (h3 ▸ h)).ext e, by rw [h4, h5]; exact i.tps, h4 ▸ i.tpsNodup⟩, e⟩

theorem Good.addAttribute {a : Attr} {obj : Nat} : Good w (w.addAttribute a obj).2 := by
  unfold V1.addAttribute
  split
  · exact .refl _
  · exact fun i => i.same rfl rfl rfl rfl rfl i.tenantsWF i.tenants i.rolesWF i.roles i.groups

theorem Good.addPrincipal {id : Str} {obj : Nat} : Good w (w.addPrincipal id obj).2 := by
  unfold V1.addPrincipal
  split
  · exact .refl _
  · exact fun i => i.same rfl rfl rfl rfl rfl i.tenantsWF i.tenants i.rolesWF i.roles i.groups

theorem Good.addScope {id : Str} {obj : Nat} : Good w (w.addScope id obj).2 := by
  unfold V1.addScope
  split
  · exact .refl _
  · exact fun i => i.same rfl rfl rfl rfl rfl i.tenantsWF i.tenants i.rolesWF i.roles i.groups

theorem Good.addNamespace {a x : Nat} (h : w.addNamespace a = .ok (x, w')) : Good w w' := by
  unfold V1.addNamespace at h
  split at h
  · cases h
  · split at h
    · cases h; exact .refl _
    · cases h
      exact fun i => i.same rfl rfl rfl rfl rfl i.tenantsWF i.tenants i.rolesWF i.roles i.groups

theorem get_set_keyed {P : Str → Nat → Prop} {m : GoMap Str Nat} {k0 : Str} {a0 : Nat}
    (hm : ∀ k a, m.get k = some a → P k a) (h0 : P k0 a0) : ∀ k a, (m.set k0 a0).get k = some a → P k a := by
  intro k a h
  rw [GoMap.get_set] at h
  split at h
  · rename_i e; subst e; cases h; exact h0
  · exact hm k a h

theorem Good.addAttributeGroup {a x : Nat} (h : w.addAttributeGroup a = .ok (x, w')) : Good w w' := by
  unfold V1.addAttributeGroup at h
  split at h
  · cases h
  · rename_i g hg
    split at h
    · cases h; exact .refl _
    · cases h
      exact fun i => i.same rfl rfl rfl rfl rfl i.tenantsWF i.tenants i.rolesWF i.roles
        (get_set_keyed i.groups ⟨g, hg, rfl⟩)

theorem Good.addRole {a x : Nat} (h : w.addRole a = .ok (x, w')) : Good w w' := by
  unfold V1.addRole at h
  split at h
  · cases h
  · rename_i g hg
    split at h
    · cases h; exact .refl _
    · cases h
      exact fun i => i.same rfl rfl rfl rfl rfl i.tenantsWF i.tenants (GoMap.wf_set i.rolesWF _ _)
        (get_set_keyed i.roles ⟨g, hg, rfl⟩) i.groups

theorem Good.addTenant {a x : Nat} (h : w.addTenant a = .ok (x, w')) : Good w w' := by
  unfold V1.addTenant at h
  split at h
  · cases h
  · rename_i t ht
    have g1 : Good w (w.setT a { t with managed := true }) :=
      .setT ht ⟨rfl, fun _ => rfl, fun _ h => h, fun _ h => h, fun _ h => h⟩ (fun _ k => ⟨k.nsWF, k.rolesWF, k.scopesWF, k.descWF, k.namespaces, k.roles, k.desc, k.defNs⟩)
    have hself : (w.setT a { t with managed := true }).tobjs[a]? = some { t with managed := true } :=
      List.getElem?_set_self (RHeap.lt_of_get ht)
    simp only at h
    split at h
    · cases h; exact g1
    · cases h
      refine g1.trans fun i => i.same rfl rfl rfl rfl rfl (GoMap.wf_set i.tenantsWF _ _)
        (get_set_keyed i.tenants ?_) i.rolesWF i.roles i.groups
      exact ⟨_, hself, rfl⟩

theorem mem_setAbsent_keyed {P : Str × Nat → Prop} {m : GoMap Str Nat} {k : Str} {v : Nat} (wf : GoMap.WF m)
    (hm : ∀ e ∈ m, P e) (h0 : P (k, v)) : ∀ e ∈ setAbsent m k v, P e := by
  intro e he
  rcases (mem_setAbsent wf).1 he with h | ⟨_, h⟩
  · exact hm e h
  · exact h ▸ h0

theorem Good.tAddDescendent {c : Nat} {ds : List Nat} (h : w.tAddDescendent c ds = .ok w') : Good w w' := by
  refine Good.loop (fun w w' d _ h => ?_) h
  obtain ⟨t, ht, h⟩ := withT_eq_ok.1 h
  obtain ⟨dt, hd, h⟩ := withT_eq_ok.1 h
  cases h
  exact .setT ht ⟨rfl, fun h => h, fun _ h => h, fun _ h => h, fun _ h => h⟩
      (fun _ k => ⟨k.nsWF, k.rolesWF, k.scopesWF, setAbsent_wf k.descWF, k.namespaces, k.roles,
    mem_setAbsent_keyed k.descWF k.desc ⟨dt, hd, rfl⟩, k.defNs⟩)

theorem Good.tSetDefaultNamespace {c : Nat} {n : Str} (h : w.tSetDefaultNamespace c n = .ok w') : Good w w' := by
  obtain ⟨t, ht, h⟩ := withT_eq_ok.1 h
  split at h
  · rename_i a ha
    cases h
    exact .setT ht ⟨rfl, fun h => h, fun _ h => h, fun _ h => h, fun _ h => h⟩
      (fun _ k => ⟨k.nsWF, k.rolesWF, k.scopesWF, k.descWF, k.namespaces, k.roles, k.desc,
      fun b hb => by cases hb; exact ⟨n, GoMap.get_some_mem ha⟩⟩)
  · cases h; exact .refl _

theorem Good.tAddNamespace {c : Nat} {ns : List Nat} (h : w.tAddNamespace c ns = .ok w') : Good w w' := by
  refine Good.loop (fun w w' d _ h => ?_) h
  obtain ⟨t, ht, h⟩ := withT_eq_ok.1 h
  split at h
  · cases h
  · rename_i no hn
    cases h
    exact .setT ht ⟨rfl, fun h => h, fun _ h => h, fun _ h => in_setAbsent h, fun _ h => h⟩
      (fun _ k => ⟨setAbsent_wf k.nsWF, k.rolesWF, k.scopesWF, k.descWF,
      mem_setAbsent_keyed k.nsWF k.namespaces ⟨no, hn, rfl⟩, k.roles, k.desc,
      fun b hb => (k.defNs b hb).imp fun x hx => (mem_setAbsent k.nsWF).2 (.inl hx)⟩)

theorem Good.tAddRole {c : Nat} {rs : List Nat} (h : w.tAddRole c rs = .ok w') : Good w w' := by
  refine Good.loop (fun w w' d _ h => ?_) h
  obtain ⟨t, ht, h⟩ := withT_eq_ok.1 h
  split at h
  · cases h
  · rename_i no hn
    cases h
    exact .setT ht ⟨rfl, fun h => h, fun _ h => in_setAbsent h, fun _ h => h, fun _ h => h⟩
      (fun _ k => ⟨k.nsWF, setAbsent_wf k.rolesWF, k.scopesWF, k.descWF, k.namespaces,
      mem_setAbsent_keyed k.rolesWF k.roles ⟨no, hn, rfl⟩, k.desc, k.defNs⟩)

theorem Good.tAddScopes {c : Nat} {ss : List (Str × Nat)} (h : w.tAddScopes c ss = .ok w') : Good w w' := by
  refine Good.loop (fun w w' d _ h => ?_) h
  obtain ⟨t, ht, h⟩ := withT_eq_ok.1 h
  have g1 : Good w (w.setT c { t with scopes := setAbsent t.scopes d.1 d.2 }) :=
    .setT ht ⟨rfl, fun h => h, fun _ h => h, fun _ h => h, fun _ h => in_setAbsent h⟩
      (fun _ k => ⟨k.nsWF, k.rolesWF, setAbsent_wf k.scopesWF, k.descWF, k.namespaces, k.roles, k.desc, k.defNs⟩)
  simp only at h
  split at h
  · cases h; exact g1
  · split at h
    · cases h
    · rename_i no hn
      cases h
      exact g1.trans (.setNs hn rfl (fun _ k => ⟨k.rolesWF, setAbsent_wf k.scopesWF, k.roles⟩))

theorem Good.tAddScopesToNamespace {c : Nat} {n : Str} {ss : List Str}
    (h : w.tAddScopesToNamespace c n ss = .ok w') : Good w w' := by
  induction ss generalizing w with
  | nil => cases h; exact .refl _
  | cons s ss ih =>
    obtain ⟨t, ht, h⟩ := withT_eq_ok.1 h
    split at h
    · cases h; exact .refl _
    · split at h
      · exact ih h
      · split at h
        · cases h
        · rename_i obj _ _ a _ _ no hn
          obtain ⟨w1, h1, h2⟩ := Out.bind_eq_ok.1 h
          exact ((Good.setNs (no' := { no with scopes := setAbsent no.scopes s obj }) hn rfl
            (fun _ k => ⟨k.rolesWF, setAbsent_wf k.scopesWF, k.roles⟩)).trans
            (.tAddPrincipalRole h1)).trans (ih h2)

theorem Good.tAddRolesToNamespace {c : Nat} {n : Str} {rs : List Str}
    (h : w.tAddRolesToNamespace c n rs = .ok w') : Good w w' := by
  induction rs generalizing w with
  | nil => cases h; exact .refl _
  | cons s ss ih =>
    obtain ⟨t, ht, h⟩ := withT_eq_ok.1 h
    split at h
    · cases h; exact .refl _
    · rename_i obj hobj
      split at h
      · cases h; exact .refl _
      · split at h
        · cases h
        · rename_i no hn
          refine (Good.setNs (no' := { no with roles := setAbsent no.roles s obj }) hn rfl
            (fun i k => ⟨setAbsent_wf k.rolesWF, k.scopesWF, ?_⟩)).trans (ih h)
          exact mem_setAbsent_keyed k.rolesWF k.roles ((i.tobjs t (mem_of_get ht)).roles _ (GoMap.get_some_mem hobj))

theorem Good.nsAddRoles {n : Nat} {rs : List Nat} (h : w.nsAddRoles n rs = .ok w') : Good w w' := by
  refine Good.loop (fun w w' d _ h => ?_) h
  split at h
  · rename_i no ro hn hr
    cases h
    refine .setNs hn rfl (fun _ k => ⟨GoMap.wf_set k.rolesWF _ _, k.scopesWF, fun e he => ?_⟩)
    rcases (GoMap.mem_set_iff k.rolesWF).1 he with rfl | ⟨_, he⟩
    · exact ⟨ro, hr, rfl⟩
    · exact k.roles e he
  · cases h

theorem Good.nsAddScopes {n : Nat} {ss : List (Str × Nat)} (h : w.nsAddScopes n ss = .ok w') : Good w w' := by
  refine Good.loop (fun w w' d _ h => ?_) h
  split at h
  · rename_i no hn
    cases h
    exact .setNs hn rfl (fun _ k => ⟨k.rolesWF, GoMap.wf_set k.scopesWF _ _, k.roles⟩)
  · cases h

/-! ### The assigning calls only store assignments -/

/-- Store a list of assignments, in order. -/
def stores (w : V1) (L : List TP) : V1 := L.foldl V1.store w

theorem stores_append (w : V1) (L M : List TP) : w.stores (L ++ M) = (w.stores L).stores M := List.foldl_append ..

theorem Good.stores (w : V1) (L : List TP) : Good w (w.stores L) := by
  induction L generalizing w with
  | nil => exact .refl _
  | cons x L ih => exact (Good.store w x).trans (ih _)

theorem stores_frame (w : V1) (L : List TP) : w.stores L = { w with tps := (w.stores L).tps, log := w.log ++ L } := by
  induction L generalizing w with
  | nil => simp [stores]
  | cons x L ih =>
    show (w.store x).stores L = _
    rw [ih]
    simp [V1.store, List.append_assoc, stores]

theorem mem_stores {L : List TP} {h : Str} : h ∈ (w.stores L).tps ↔ h ∈ w.tps ∨ ∃ x ∈ L, encode x = h := by
  induction L generalizing w with
  | nil => simp [stores]
  | cons x L ih =>
    show h ∈ ((w.store x).stores L).tps ↔ _
    rw [ih, mem_store, or_assoc]
    simp

theorem stores_added {L : List TP} {P : TP → Prop} (h : ∀ x, x ∈ L ↔ P x) : Added w (w.stores L) P := by
  refine ⟨⟨L, ?_, h⟩, fun k => ?_, ?_⟩
  · rw [stores_frame]
  · rw [mem_stores]; simp [h]
  · have := stores_frame w L
    rw [this]

/-- The assignment that `c.AddPrincipalRole(p, r, c, ns, sc)` stores. -/
def tp (t : T1Obj) (p r n : Str) (sc : Option Str) : TP :=
  { tenant := t.id, principal := p, role := r, namespace_ := n, scope := sc.getD [], manage := true }

theorem tAddPrincipalRole_eq {c : Nat} {t : T1Obj} (ht : w.tobjs[c]? = some t) {p r : Str} {ns : Option Nat}
    {sc : Option Str} (h : w.tAddPrincipalRole c p r c ns sc [] = .ok w') :
    t.managed = true ∧ ∃ n, w.nsID ns = .ok n ∧ w' = w.stores [tp t p r n sc] := by
  obtain ⟨t1, ht1, h⟩ := withT_eq_ok.1 h
  rw [ht] at ht1; cases ht1
  split at h
  · rename_i hm
    unfold V1.addPrincipalRole at h
    rw [ht] at h
    obtain ⟨n, hn, rfl⟩ := Out.map_eq_ok.1 h
    exact ⟨hm, n, hn, rfl⟩
  · cases h

/-- Loops that store assignments computed from the loop variable. -/
theorem loop_stores {α : Type} {f : V1 → α → Out V1} {g : α → List TP} {xs : List α}
    (hf : ∀ L w', ∀ x ∈ xs, f (w.stores L) x = .ok w' → w' = (w.stores L).stores (g x)) {L : List TP}
    (h : Out.loop f (w.stores L) xs = .ok w') : w' = w.stores (L ++ xs.flatMap g) := by
  induction xs generalizing L with
  | nil => cases h; simp
  | cons x xs ih =>
    obtain ⟨w1, h1, h2⟩ := Out.bind_eq_ok.1 h
    have e := hf L w1 x (List.mem_cons_self ..) h1
    rw [← stores_append] at e
    subst e
    have := ih (fun L w' y hy => hf L w' y (List.mem_cons_of_mem _ hy)) h2
    rw [this, List.flatMap_cons, List.append_assoc]

@[simp] theorem stores_tobjs (w : V1) (L : List TP) : (w.stores L).tobjs = w.tobjs := by rw [stores_frame]
@[simp] theorem stores_nsobjs (w : V1) (L : List TP) : (w.stores L).nsobjs = w.nsobjs := by rw [stores_frame]
@[simp] theorem stores_heap (w : V1) (L : List TP) : (w.stores L).heap = w.heap := by rw [stores_frame]

@[simp] theorem stores_nsID (w : V1) (L : List TP) (a : Option Nat) : (w.stores L).nsID a = w.nsID a := by
  unfold nsID; simp

/-- What `addWithDefault` stores: tenant-wide, and in the default namespace if there is one. -/
def withDefault (t : T1Obj) (d : Option Str) (p r : Str) (sc : Option Str) : List TP :=
  tp t p r [] sc :: (match d with
    | none => []
    | some n => [tp t p r n sc])

/-- The id of the default namespace. -/
def defId (w : V1) (t : T1Obj) : Option Str :=
  match t.defNs with
  | none => none
  | some a => (w.nsobjs[a]?).map (·.id)

@[simp] theorem stores_defId (w : V1) (L : List TP) (t : T1Obj) : (w.stores L).defId t = w.defId t := by
  unfold defId; simp

theorem addWithDefault_eq {c : Nat} {t : T1Obj} (ht : w.tobjs[c]? = some t) {p r : Str} {sc : Option Str}
    (h : w.addWithDefault c t p r sc = .ok w') :
    t.managed = true ∧ w' = w.stores (withDefault t (w.defId t) p r sc) := by
  obtain ⟨w1, h1, h2⟩ := Out.bind_eq_ok.1 h
  obtain ⟨hm, n, hn, rfl⟩ := tAddPrincipalRole_eq ht h1
  cases hn
  refine ⟨hm, ?_⟩
  split at h2
  · rename_i e
    cases h2
    simp [withDefault, defId, e]
  · rename_i a e
    obtain ⟨_, n, hn, rfl⟩ := tAddPrincipalRole_eq (w := w.stores _) (by simpa using ht) h2
    rw [← stores_append]
    rw [stores_nsID, nsID] at hn
    split at hn
    · cases hn
    · rename_i no hno
      cases hn
      simp [withDefault, defId, e, hno]

theorem tAddPrincipal_eq {c : Nat} {t : T1Obj} (ht : w.tobjs[c]? = some t) {p : Str} {rs : List Str}
    (h : w.tAddPrincipal c p rs = .ok w') :
    w' = w.stores (rs.flatMap fun r => if (t.roles.get r).isSome then withDefault t (w.defId t) p r none else []) := by
  obtain ⟨t1, ht1, h⟩ := withT_eq_ok.1 h
  rw [ht] at ht1; cases ht1
  refine loop_stores (L := []) (fun L w' r _ h => ?_) h
  split at h
  · rename_i e
    have := (addWithDefault_eq (by simpa using ht) h).2
    simpa [e] using this
  · rename_i e
    cases h; simp [e, stores]

theorem tAddPrincipalInNamespace_eq {c : Nat} {t : T1Obj} (inv : Inv w) (ht : w.tobjs[c]? = some t) {site : List Val}
    {p n : Str} {rs : List Str} (h : w.tAddPrincipalInNamespace o site c p n rs = .ok w') :
    (t.namespaces.get n = none ∧ w' = w) ∨
    ((t.namespaces.get n).isSome ∧ rs ≠ [] ∧
      w' = w.stores (rs.flatMap fun r => if (t.roles.get r).isSome then [tp t p r n none] else [])) ∨
    ((t.namespaces.get n).isSome ∧ rs = [] ∧ ∃ l, w.tenantRoles o site t.id = .ok l ∧
      w' = w.stores ((l.flatMap fun x => if x.principal = p ∧ x.namespace_ ≠ [] ∧ x.namespace_ ≠ n then
        [tp t p x.role n none] else []) ++ [tp t p [] n none])) := by
  obtain ⟨t1, ht1, h⟩ := withT_eq_ok.1 h
  rw [ht] at ht1; cases ht1
  have tok := inv.tobjs t (mem_of_get ht)
  split at h
  · rename_i e
    cases h; exact .inl ⟨e, rfl⟩
  · rename_i a ha
    obtain ⟨no, hno, hid⟩ := tok.namespaces _ (GoMap.get_some_mem ha)
    have hns : w.nsID (some a) = .ok n := by simp only [nsID, hno]; rw [hid]
    refine .inr ?_
    split at h
    · rename_i hlen
      refine .inl ⟨by simp [ha], by intro e; simp [e] at hlen, ?_⟩
      refine loop_stores (L := []) (fun L w' r _ h => ?_) h
      split at h
      · rename_i e
        cases h; simp [e, stores]
      · rename_i ra hra
        obtain ⟨ro, hro, hrid⟩ := tok.roles _ (GoMap.get_some_mem hra)
        simp only [stores_heap, hro] at h
        obtain ⟨_, n', hn', e⟩ := tAddPrincipalRole_eq (by simpa using ht) h
        rw [stores_nsID, hns] at hn'
        cases hn'
        rw [e, hra, hrid]; simp
    · rename_i hlen
      refine .inr ⟨by simp [ha], by simpa using hlen, ?_⟩
      split at h
      · obtain ⟨l, hl, h⟩ := Out.bind_eq_ok.1 h
        obtain ⟨w1, h1, h2⟩ := Out.bind_eq_ok.1 h
        have e1 := loop_stores (w := w) (L := []) (g := fun x : TP => if x.principal = p ∧ x.namespace_ ≠ [] ∧ x.namespace_ ≠ n then
            [tp t p x.role n none] else []) (fun L w' x _ h => by
          split at h
          · rename_i e
            obtain ⟨_, n', hn', e'⟩ := tAddPrincipalRole_eq (by simpa using ht) h
            rw [stores_nsID, hns] at hn'
            cases hn'
            rw [e', if_pos e]
          · rename_i e
            cases h; rw [if_neg e]; rfl) h1
        subst e1
        obtain ⟨_, n', hn', e'⟩ := tAddPrincipalRole_eq (by simpa using ht) h2
        rw [stores_nsID, hns] at hn'
        cases hn'
        rw [← stores_append, List.nil_append] at e'
        exact ⟨l, hl, e'⟩
      · cases h

theorem tAssignScopesToPrincipal_eq {c : Nat} {t : T1Obj} (ht : w.tobjs[c]? = some t) {site : List Val}
    {p : Str} {ss : List Str} (h : w.tAssignScopesToPrincipal o site c p ss = .ok w') :
    ∃ l, w.principalRoles o site t.id p = .ok l ∧
      w' = w.stores (if l = [] then [] else ss.flatMap fun s => if (t.scopes.get s).isSome then
        (l.flatMap fun x => withDefault t (w.defId t) p x.role (some s)) ++ [tp t p [] [] (some s)] else []) := by
  obtain ⟨t1, ht1, h⟩ := withT_eq_ok.1 h
  rw [ht] at ht1; cases ht1
  split at h
  · obtain ⟨l, hl, h⟩ := Out.bind_eq_ok.1 h
    refine ⟨l, hl, ?_⟩
    split at h
    · rename_i e
      cases h; simp [e, stores]
    · rename_i e
      rw [if_neg e]
      refine loop_stores (L := []) (fun L w' s _ h => ?_) h
      split at h
      · rename_i e
        obtain ⟨w1, h1, h2⟩ := Out.bind_eq_ok.1 h
        have e1 := loop_stores (L := L) (g := fun x : TP => withDefault t (w.defId t) p x.role (some s)) (fun L' w' x _ h => by
          have := (addWithDefault_eq (by simpa using ht) h).2
          simpa using this) h1
        subst e1
        obtain ⟨_, n', hn', e'⟩ := tAddPrincipalRole_eq (by simpa using ht) h2
        cases hn'
        rw [e', if_pos e, ← stores_append, ← stores_append, List.append_assoc]
      · rename_i e
        cases h; simp [e, stores]
  · cases h

theorem tAssignScopesWithRole_eq {c : Nat} {t : T1Obj} (ht : w.tobjs[c]? = some t) {site : List Val}
    {p r : Str} {ss : List Str} (h : w.tAssignScopesWithRole o site c p r ss = .ok w') :
    ∃ L, w' = w.stores L ∧ (ss = [] ∧ L = [] ∨ ∃ l, w.principalRoles o site t.id p = .ok l ∧
      L = if l ≠ [] ∧ (t.roles.get r).isSome then ss.flatMap fun s => if (t.scopes.get s).isSome then
        withDefault t (w.defId t) p r (some s) else [] else []) := by
  unfold tAssignScopesWithRole at h
  split at h
  · rename_i e
    cases h; exact ⟨[], rfl, .inl ⟨by simpa using e, rfl⟩⟩
  · obtain ⟨t1, ht1, h⟩ := withT_eq_ok.1 h
    rw [ht] at ht1; cases ht1
    split at h
    · obtain ⟨l, hl, h⟩ := Out.bind_eq_ok.1 h
      split at h
      · rename_i e
        cases h; exact ⟨[], rfl, .inr ⟨l, hl, by simp [e]⟩⟩
      · rename_i e
        split at h
        · rename_i e2
          refine ⟨_, ?_, .inr ⟨l, hl, rfl⟩⟩
          rw [if_pos ⟨e, e2⟩]
          refine loop_stores (L := []) (fun L w' s _ h => ?_) h
          split at h
          · rename_i e
            have := (addWithDefault_eq (by simpa using ht) h).2
            simpa [e] using this
          · rename_i e
            cases h; simp [e, stores]
        · rename_i e2
          cases h; exact ⟨[], rfl, .inr ⟨l, hl, by simp [e2]⟩⟩
    · cases h

end V1

/-! ### Histories -/

/-- The exported state-changing calls of package `v1`. -/
inductive V1Op where
  | role (op : RoleOp)
  | newTenant (id : Str)
  | newNamespace (id : Str)
  | addTenant (a : Nat)
  | addNamespace (a : Nat)
  | addScope (id : Str) (obj : Nat)
  | addPrincipal (id : Str) (obj : Nat)
  | addRole (r : Nat)
  | addAttribute (a : Attr) (obj : Nat)
  | addAttributeGroup (ga : Nat)
  | addPermissionsToRole (r g : Str) (attrs : List Attr)
  | addPrincipalRole (p r : Str) (c : Nat) (ns : Option Nat) (sc : Option Str) (manage : List Bool)
  | tAddDescendent (c : Nat) (ds : List Nat)
  | tSetDefaultNamespace (c : Nat) (n : Str)
  | tAddNamespace (c : Nat) (ns : List Nat)
  | tAddRole (c : Nat) (rs : List Nat)
  | tAddScopes (c : Nat) (ss : List (Str × Nat))
  | tAddScopesToNamespace (c : Nat) (n : Str) (ss : List Str)
  | tAddRolesToNamespace (c : Nat) (n : Str) (rs : List Str)
  | tAddPrincipalRole (c : Nat) (p r : Str) (d : Nat) (ns : Option Nat) (sc : Option Str) (manage : List Bool)
  | tAddPrincipal (c : Nat) (p : Str) (rs : List Str)
  | tAddPrincipalInNamespace (o : Ord) (site : List Val) (c : Nat) (p n : Str) (rs : List Str)
  | tAssignScopesToPrincipal (o : Ord) (site : List Val) (c : Nat) (p : Str) (ss : List Str)
  | tAssignScopesWithRole (o : Ord) (site : List Val) (c : Nat) (p r : Str) (ss : List Str)
  | nsAddRoles (n : Nat) (rs : List Nat)
  | nsAddScopes (n : Nat) (ss : List (Str × Nat))

/-- Effect of a call on the state (results and errors are dropped). -/
def V1Op.apply (w : V1) : V1Op → Out V1
  | .role op => (op.apply w.heap).map fun h => { w with heap := h }
  | .newTenant id => .ok (w.newTenant id)
  | .newNamespace id => .ok (w.newNamespace id)
  | .addTenant a => (w.addTenant a).map (·.2)
  | .addNamespace a => (w.addNamespace a).map (·.2)
  | .addScope id obj => .ok (w.addScope id obj).2
  | .addPrincipal id obj => .ok (w.addPrincipal id obj).2
  | .addRole r => (w.addRole r).map (·.2)
  | .addAttribute a obj => .ok (w.addAttribute a obj).2
  | .addAttributeGroup ga => (w.addAttributeGroup ga).map (·.2)
  | .addPermissionsToRole r g as =>
    (w.heap.addPermissionsToRole w.roles w.attrGroups r g as).map fun x => { w with heap := x.2 }
  | .addPrincipalRole p r c ns sc m => w.addPrincipalRole p r c ns sc m
  | .tAddDescendent c ds => w.tAddDescendent c ds
  | .tSetDefaultNamespace c n => w.tSetDefaultNamespace c n
  | .tAddNamespace c ns => w.tAddNamespace c ns
  | .tAddRole c rs => w.tAddRole c rs
  | .tAddScopes c ss => w.tAddScopes c ss
  | .tAddScopesToNamespace c n ss => w.tAddScopesToNamespace c n ss
  | .tAddRolesToNamespace c n rs => w.tAddRolesToNamespace c n rs
  | .tAddPrincipalRole c p r d ns sc m => w.tAddPrincipalRole c p r d ns sc m
  | .tAddPrincipal c p rs => w.tAddPrincipal c p rs
  | .tAddPrincipalInNamespace o site c p n rs => w.tAddPrincipalInNamespace o site c p n rs
  | .tAssignScopesToPrincipal o site c p ss => w.tAssignScopesToPrincipal o site c p ss
  | .tAssignScopesWithRole o site c p r ss => w.tAssignScopesWithRole o site c p r ss
  | .nsAddRoles n rs => w.nsAddRoles n rs
  | .nsAddScopes n ss => w.nsAddScopes n ss

/-- Run a history of calls. -/
def V1Op.run (w : V1) : List V1Op → Out V1
  | [] => .ok w
  | op :: ops => (op.apply w).bind fun w' => V1Op.run w' ops

theorem V1.tobj_of_withT {w : V1} {c : Nat} {α : Type} {f : T1Obj → Out α} {x : α} (h : w.withT c f = .ok x) :
    ∃ t, w.tobjs[c]? = some t := let ⟨t, h, _⟩ := V1.withT_eq_ok.1 h; ⟨t, h⟩

theorem V1Op.good {w w' : V1} {op : V1Op} (h : op.apply w = .ok w') : V1.Good w w' := by
  cases op with
  | role op =>
    obtain ⟨h', h1, rfl⟩ := Out.map_eq_ok.1 h
    exact fun i => ⟨i.setHeap (.apply h1) (RoleOp.apply_ok i.heap h1), .ofHeap (.apply h1)⟩
  | newTenant id => cases h; exact fun i => ⟨i.newTenant id, .newTenant w id⟩
  | newNamespace id => cases h; exact fun i => ⟨i.newNamespace id, .newNamespace w id⟩
  | addTenant a => obtain ⟨⟨x, w1⟩, h1, rfl⟩ := Out.map_eq_ok.1 h; exact .addTenant h1
  | addNamespace a => obtain ⟨⟨x, w1⟩, h1, rfl⟩ := Out.map_eq_ok.1 h; exact .addNamespace h1
  | addScope id obj => cases h; exact .addScope
  | addPrincipal id obj => cases h; exact .addPrincipal
  | addRole r => obtain ⟨⟨x, w1⟩, h1, rfl⟩ := Out.map_eq_ok.1 h; exact .addRole h1
  | addAttribute a obj => cases h; exact .addAttribute
  | addAttributeGroup ga => obtain ⟨⟨x, w1⟩, h1, rfl⟩ := Out.map_eq_ok.1 h; exact .addAttributeGroup h1
  | addPermissionsToRole r g as =>
    obtain ⟨⟨e, h'⟩, h1, rfl⟩ := Out.map_eq_ok.1 h
    exact fun i => ⟨i.setHeap (.addPermissionsToRole h1) (ok_addPermissionsToRole i.heap h1), .ofHeap (.addPermissionsToRole h1)⟩
  | addPrincipalRole p r c ns sc m => exact .addPrincipalRole h
  | tAddDescendent c ds => exact .tAddDescendent h
  | tSetDefaultNamespace c n => exact .tSetDefaultNamespace h
  | tAddNamespace c ns => exact .tAddNamespace h
  | tAddRole c rs => exact .tAddRole h
  | tAddScopes c ss => exact .tAddScopes h
  | tAddScopesToNamespace c n ss => exact .tAddScopesToNamespace h
  | tAddRolesToNamespace c n rs => exact .tAddRolesToNamespace h
  | tAddPrincipalRole c p r d ns sc m => exact .tAddPrincipalRole h
  | tAddPrincipal c p rs =>
    obtain ⟨t, ht⟩ := V1.tobj_of_withT h
    rw [V1.tAddPrincipal_eq ht h]; exact .stores _ _
  | tAddPrincipalInNamespace o site c p n rs =>
    intro i
    obtain ⟨t, ht⟩ := V1.tobj_of_withT h
    rcases V1.tAddPrincipalInNamespace_eq i ht h with ⟨_, rfl⟩ | ⟨_, _, rfl⟩ | ⟨_, _, l, _, rfl⟩
    · exact V1.Good.refl _ i
    · exact V1.Good.stores _ _ i
    · exact V1.Good.stores _ _ i
  | tAssignScopesToPrincipal o site c p ss =>
    obtain ⟨t, ht⟩ := V1.tobj_of_withT h
    obtain ⟨l, _, rfl⟩ := V1.tAssignScopesToPrincipal_eq ht h
    exact .stores _ _
  | tAssignScopesWithRole o site c p r ss =>
    by_cases hs : ss.length = 0
    · have h' : w.tAssignScopesWithRole o site c p r ss = .ok w' := h
      unfold V1.tAssignScopesWithRole at h'
      rw [if_pos hs] at h'
      cases h'; exact .refl _
    · have h' : w.tAssignScopesWithRole o site c p r ss = .ok w' := h
      unfold V1.tAssignScopesWithRole at h'
      rw [if_neg hs] at h'
      obtain ⟨t, ht⟩ := V1.tobj_of_withT h'
      obtain ⟨L, rfl, _⟩ := V1.tAssignScopesWithRole_eq ht h
      exact .stores _ _
  | nsAddRoles n rs => exact .nsAddRoles h
  | nsAddScopes n ss => exact .nsAddScopes h

theorem V1Op.run_good {w w' : V1} {ops : List V1Op} (h : V1Op.run w ops = .ok w') : V1.Good w w' := by
  induction ops generalizing w with
  | nil => cases h; exact .refl _
  | cons op ops ih =>
    obtain ⟨w1, h1, h2⟩ := Out.bind_eq_ok.1 h
    exact (V1Op.good h1).trans (ih h2)

/-- Every state produced by a history of calls on an empty manager satisfies the representation invariant
that the theorems assume. -/
theorem V1Op.reachable_inv {w : V1} {ops : List V1Op} (h : V1Op.run {} ops = .ok w) : V1.Inv w :=
  (V1Op.run_good h V1.Inv.empty).1

end Verif
