import Verif.Model.V1Managers
import Verif.Props.V1Origin
import Verif.Props.RoleFrame

/-!
# Package v1: several managers in one program (C125, C126)
-/

namespace Verif
open Spec
namespace VMM
variable {W W' : World} {w w' v u : V1} {k j : Nat} {q : Option Nat} {op : V1Op} {cs : List Call}

/-! ## What a call changes -/

/-- The call may change the roles, namespaces and scopes of tenant `c`. -/
def HitsT : V1Op → Nat → Prop
  | .tAddNamespace c _, d | .tAddRole c _, d | .tAddScopes c _, d => d = c
  | _, _ => False

/-- The call may change namespace `a`. -/
def HitsN (w : V1) : V1Op → Nat → Prop
  | .tAddScopes c _, a => ∃ t, w.tobjs[c]? = some t ∧ t.defNs = some a
  | .tAddScopesToNamespace c n _, a | .tAddRolesToNamespace c n _, a => ∃ t, w.tobjs[c]? = some t ∧ t.namespaces.get n = some a
  | .nsAddRoles n _, a | .nsAddScopes n _, a => a = n
  | _, _ => False

/-- The call makes no object, changes no role and adds no tenant. -/
def Plain : V1Op → Bool
  | .role _ | .newTenant _ | .newNamespace _ | .addTenant _ | .addPermissionsToRole .. => false
  | _ => true

/-- Only the tenants in `P` change more than default namespace and descendants, only the namespaces in `N` change. -/
structure Fr (P N : Nat → Prop) (w w' : V1) : Prop where
  heap : w'.heap = w.heap
  len : w'.tobjs.length = w.tobjs.length
  ts : ∀ (c : Nat) (t : T1Obj), w.tobjs[c]? = some t → ∃ t', w'.tobjs[c]? = some t' ∧ t'.managed = t.managed ∧ t'.id = t.id ∧
    (¬ P c → t'.roles = t.roles ∧ t'.namespaces = t.namespaces ∧ t'.scopes = t.scopes)
  ns : ∀ (a : Nat), ¬ N a → w'.nsobjs[a]? = w.nsobjs[a]?

variable {P N : Nat → Prop}

theorem Fr.same (h1 : w'.heap = w.heap) (h2 : w'.tobjs = w.tobjs) (h3 : w'.nsobjs = w.nsobjs) : Fr P N w w' :=
  ⟨h1, by rw [h2], fun _ t ht => ⟨t, by rw [h2, ht], rfl, rfl, fun _ => ⟨rfl, rfl, rfl⟩⟩, fun _ _ => by rw [h3]⟩

theorem Fr.refl (w : V1) : Fr P N w w := .same rfl rfl rfl

theorem Fr.trans (h : Fr P N w v) (g : Fr P N v w') : Fr P N w w' := by
  refine ⟨g.heap.trans h.heap, g.len.trans h.len, fun c t ht => ?_, fun a ha => (g.ns a ha).trans (h.ns a ha)⟩
  obtain ⟨t1, h1, h2, h3, h4⟩ := h.ts c t ht
  obtain ⟨t2, g1, g2, g3, g4⟩ := g.ts c t1 h1
  refine ⟨t2, g1, g2.trans h2, g3.trans h3, fun hc => ?_⟩
  exact ⟨(g4 hc).1.trans (h4 hc).1, (g4 hc).2.1.trans (h4 hc).2.1, (g4 hc).2.2.trans (h4 hc).2.2⟩

theorem Fr.loop {α : Type} {f : V1 → α → Out V1} {xs : List α} (hf : ∀ w w' x, f w x = .ok w' → Fr P N w w')
    (h : Out.loop f w xs = .ok w') : Fr P N w w' :=
  Out.loop_inv (P := fun s => Fr P N w s) (fun s s' x _ p h => p.trans (hf s s' x h)) (.refl _) h

theorem Fr.setT {c : Nat} {t t' : T1Obj} (ht : w.tobjs[c]? = some t) (h1 : t'.managed = t.managed) (h2 : t'.id = t.id)
    (h3 : ¬ P c → t'.roles = t.roles ∧ t'.namespaces = t.namespaces ∧ t'.scopes = t.scopes) : Fr P N w (w.setT c t') := by
  refine ⟨rfl, List.length_set .., fun d s hs => ?_, fun _ _ => rfl⟩
  by_cases e : c = d
  · subst e
    rw [ht] at hs; cases hs
    exact ⟨t', List.getElem?_set_self (RHeap.lt_of_get ht), h1, h2, h3⟩
  · exact ⟨s, (List.getElem?_set_ne e).trans hs, rfl, rfl, fun _ => ⟨rfl, rfl, rfl⟩⟩

theorem Fr.setNs {a : Nat} {no : NsObj} (h : N a) : Fr P N w (w.setNs a no) :=
  ⟨rfl, rfl, fun _ t ht => ⟨t, ht, rfl, rfl, fun _ => ⟨rfl, rfl, rfl⟩⟩, fun b hb =>
    List.getElem?_set_ne fun e : a = b => hb (e ▸ h)⟩

theorem Fr.stores (w : V1) (L : List TP) : Fr P N w (w.stores L) := .same (by simp) (by simp) (by simp)

theorem Fr.addPrincipalRole {p r : Str} {c : Nat} {ns : Option Nat} {sc : Option Str} {m : List Bool}
    (h : w.addPrincipalRole p r c ns sc m = .ok w') : Fr P N w w' := by
  unfold V1.addPrincipalRole at h
  split at h
  · cases h
  · obtain ⟨n, _, rfl⟩ := Out.map_eq_ok.1 h
    exact .same rfl rfl rfl

theorem Fr.tAddPrincipalRole {c d : Nat} {p r : Str} {ns : Option Nat} {sc : Option Str} {m : List Bool}
    (h : w.tAddPrincipalRole c p r d ns sc m = .ok w') : Fr P N w w' := by
  obtain ⟨t, _, h⟩ := V1.withT_eq_ok.1 h
  split at h
  · exact .addPrincipalRole h
  · cases h

theorem Fr.tAddScopes {c : Nat} {ss : List (Str × Nat)} (h : w.tAddScopes c ss = .ok w') (hc : P c)
    (hN : ∀ t a, w.tobjs[c]? = some t → t.defNs = some a → N a) : Fr P N w w' := by
  refine (Out.loop_inv (P := fun s => Fr P N w s ∧ ∀ t a, s.tobjs[c]? = some t → t.defNs = some a → N a)
    (fun s s' x _ p h => ?_) ⟨.refl _, hN⟩ h).1
  obtain ⟨t, ht, h⟩ := V1.withT_eq_ok.1 h
  have g : Fr P N s (s.setT c { t with scopes := V1.setAbsent t.scopes x.1 x.2 }) := .setT ht rfl rfl (absurd hc)
  have e : ∀ t' a, (s.setT c { t with scopes := V1.setAbsent t.scopes x.1 x.2 }).tobjs[c]? = some t' → t'.defNs = some a → N a := by
    intro t' a h1 h2
    rw [V1.setT, List.getElem?_set_self (RHeap.lt_of_get ht)] at h1
    cases h1
    exact p.2 t a ht h2
  simp only at h
  split at h
  · cases h; exact ⟨p.1.trans g, e⟩
  · rename_i a ha
    split at h
    · cases h
    · cases h
      exact ⟨p.1.trans (g.trans (.setNs (p.2 t a ht ha))), e⟩

theorem Fr.tAddScopesToNamespace {c : Nat} {n : Str} {ss : List Str} (h : w.tAddScopesToNamespace c n ss = .ok w')
    (hN : ∀ t a, w.tobjs[c]? = some t → t.namespaces.get n = some a → N a) : Fr P N w w' := by
  induction ss generalizing w with
  | nil => cases h; exact .refl _
  | cons s ss ih =>
    obtain ⟨t, ht, h⟩ := V1.withT_eq_ok.1 h
    split at h
    · cases h; exact .refl _
    · split at h
      · exact ih h hN
      · rename_i a ha
        split at h
        · cases h
        · obtain ⟨w1, h1, h2⟩ := Out.bind_eq_ok.1 h
          obtain ⟨_, _, _, e⟩ := V1.tAddPrincipalRole_eq (w := w.setNs a _) (t := t) ht h1
          refine ((Fr.setNs (hN t a ht ha)).trans (.tAddPrincipalRole h1)).trans (ih h2 fun t' a' h3 => hN t' a' ?_)
          rw [e, V1.stores_tobjs] at h3
          exact h3

theorem Fr.tAddRolesToNamespace {c : Nat} {n : Str} {ss : List Str} (h : w.tAddRolesToNamespace c n ss = .ok w')
    (hN : ∀ t a, w.tobjs[c]? = some t → t.namespaces.get n = some a → N a) : Fr P N w w' := by
  induction ss generalizing w with
  | nil => cases h; exact .refl _
  | cons s ss ih =>
    obtain ⟨t, ht, h⟩ := V1.withT_eq_ok.1 h
    split at h
    · cases h; exact .refl _
    · split at h
      · cases h; exact .refl _
      · rename_i a ha
        split at h
        · cases h
        · exact (Fr.setNs (hN t a ht ha)).trans (ih h hN)

theorem frame (inv : w.Inv) (h : op.apply w = .ok w') (hp : Plain op = true) : Fr (HitsT op) (HitsN w op) w w' := by
  cases op with
  | role | newTenant | newNamespace | addTenant | addPermissionsToRole => cases hp
  | addNamespace a =>
    obtain ⟨⟨x, w1⟩, h1, rfl⟩ := Out.map_eq_ok.1 h
    unfold V1.addNamespace at h1
    split at h1
    · cases h1
    · split at h1 <;> cases h1 <;> exact .same rfl rfl rfl
  | addScope id obj => cases h; unfold V1.addScope; split <;> exact .same rfl rfl rfl
  | addPrincipal id obj => cases h; unfold V1.addPrincipal; split <;> exact .same rfl rfl rfl
  | addRole r =>
    obtain ⟨⟨x, w1⟩, h1, rfl⟩ := Out.map_eq_ok.1 h
    unfold V1.addRole at h1
    split at h1
    · cases h1
    · split at h1 <;> cases h1 <;> exact .same rfl rfl rfl
  | addAttribute a obj => cases h; unfold V1.addAttribute; split <;> exact .same rfl rfl rfl
  | addAttributeGroup ga =>
    obtain ⟨⟨x, w1⟩, h1, rfl⟩ := Out.map_eq_ok.1 h
    unfold V1.addAttributeGroup at h1
    split at h1
    · cases h1
    · split at h1 <;> cases h1 <;> exact .same rfl rfl rfl
  | addPrincipalRole p r c ns sc m => exact .addPrincipalRole h
  | tAddDescendent c ds =>
    refine .loop (fun w w' x h => ?_) h
    obtain ⟨t, ht, h⟩ := V1.withT_eq_ok.1 h
    obtain ⟨d, _, h⟩ := V1.withT_eq_ok.1 h
    cases h
    exact .setT ht rfl rfl fun _ => ⟨rfl, rfl, rfl⟩
  | tSetDefaultNamespace c n =>
    obtain ⟨t, ht, h⟩ := V1.withT_eq_ok.1 h
    split at h <;> cases h
    · exact .setT ht rfl rfl fun _ => ⟨rfl, rfl, rfl⟩
    · exact .refl _
  | tAddNamespace c ns =>
    refine .loop (fun w w' x h => ?_) h
    obtain ⟨t, ht, h⟩ := V1.withT_eq_ok.1 h
    split at h
    · cases h
    · cases h; exact .setT ht rfl rfl (absurd rfl)
  | tAddRole c rs =>
    refine .loop (fun w w' x h => ?_) h
    obtain ⟨t, ht, h⟩ := V1.withT_eq_ok.1 h
    split at h
    · cases h
    · cases h; exact .setT ht rfl rfl (absurd rfl)
  | tAddScopes c ss => exact .tAddScopes h rfl fun t a h1 h2 => ⟨t, h1, h2⟩
  | tAddScopesToNamespace c n ss => exact .tAddScopesToNamespace h fun t a h1 h2 => ⟨t, h1, h2⟩
  | tAddRolesToNamespace c n rs => exact .tAddRolesToNamespace h fun t a h1 h2 => ⟨t, h1, h2⟩
  | tAddPrincipalRole c p r d ns sc m => exact .tAddPrincipalRole h
  | tAddPrincipal c p rs =>
    obtain ⟨t, ht⟩ := V1.tobj_of_withT h
    rw [V1.tAddPrincipal_eq ht h]
    exact .stores _ _
  | tAddPrincipalInNamespace o site c p n rs =>
    obtain ⟨t, ht⟩ := V1.tobj_of_withT h
    rcases V1.tAddPrincipalInNamespace_eq inv ht h with ⟨_, e⟩ | ⟨_, _, e⟩ | ⟨_, _, l, _, e⟩
    · rw [e]; exact .refl _
    · rw [e]; exact .stores _ _
    · rw [e]; exact .stores _ _
  | tAssignScopesToPrincipal o site c p ss =>
    obtain ⟨t, ht⟩ := V1.tobj_of_withT h
    obtain ⟨l, _, e⟩ := V1.tAssignScopesToPrincipal_eq ht h
    rw [e]; exact .stores _ _
  | tAssignScopesWithRole o site c p r ss =>
    by_cases hs : ss.length = 0
    · have h : w.tAssignScopesWithRole o site c p r ss = .ok w' := h
      rw [V1.tAssignScopesWithRole, if_pos hs] at h
      cases h; exact .refl _
    · have h0 : w.tAssignScopesWithRole o site c p r ss = .ok w' := h
      have h1 := h0
      rw [V1.tAssignScopesWithRole, if_neg hs] at h1
      obtain ⟨t, ht⟩ := V1.tobj_of_withT h1
      obtain ⟨L, e, _⟩ := V1.tAssignScopesWithRole_eq ht h0
      rw [e]; exact .stores _ _
  | nsAddRoles n rs =>
    refine .loop (fun w w' x h => ?_) h
    split at h
    · cases h; exact .setNs rfl
    · cases h
  | nsAddScopes n ss =>
    refine .loop (fun w w' x h => ?_) h
    split at h
    · cases h; exact .setNs rfl
    · cases h

/-- Which tenants have the manager after a call. -/
theorem marks (inv : w.Inv) (h : op.apply w = .ok w') {i : Nat} {t' : T1Obj} (ht : w'.tobjs[i]? = some t') :
    t'.managed = true ↔ op = .addTenant i ∨ ∃ t, w.tobjs[i]? = some t ∧ t.managed = true := by
  have keep : w'.tobjs = w.tobjs → op ≠ .addTenant i →
      (t'.managed = true ↔ op = .addTenant i ∨ ∃ t, w.tobjs[i]? = some t ∧ t.managed = true) := by
    intro e hne
    rw [e] at ht
    simp [hne, ht]
  by_cases hp : Plain op = true
  · have f := frame inv h hp
    have hi : i < w.tobjs.length := f.len ▸ RHeap.lt_of_get ht
    obtain ⟨t1, h1, h2, _⟩ := f.ts i _ (List.getElem?_eq_getElem hi)
    rw [ht] at h1; cases h1
    have hne : op ≠ .addTenant i := by rintro rfl; cases hp
    simp [hne, List.getElem?_eq_getElem hi, h2]
  · cases op with
    | role op => obtain ⟨h1, _, rfl⟩ := Out.map_eq_ok.1 h; exact keep rfl (by simp)
    | newNamespace id => cases h; exact keep rfl (by simp)
    | addPermissionsToRole r g as => obtain ⟨h1, _, rfl⟩ := Out.map_eq_ok.1 h; exact keep rfl (by simp)
    | newTenant id =>
      cases h
      simp only [V1.newTenant, List.getElem?_append] at ht
      split at ht
      · simp [ht]
      · rename_i hlt
        have : w.tobjs[i]? = none := List.getElem?_eq_none (Nat.not_lt.1 hlt)
        simp only [List.getElem?_singleton] at ht
        split at ht <;> cases ht
        simp [this]
    | addTenant a =>
      obtain ⟨⟨x, w1⟩, h1, rfl⟩ := Out.map_eq_ok.1 h
      cases ha : w.tobjs[a]? with
      | none => simp [V1.addTenant, ha] at h1
      | some t =>
        have e : w1.tobjs = w.tobjs.set a { t with managed := true } := by
          simp only [V1.addTenant, ha] at h1
          split at h1 <;> cases h1 <;> rfl
        rw [show (x, w1).2 = w1 from rfl, e] at ht
        by_cases ea : a = i
        · subst ea
          rw [List.getElem?_set_self (RHeap.lt_of_get ha)] at ht
          cases ht; simp
        · rw [List.getElem?_set_ne ea] at ht
          simp [ht, ea]
    | _ => exact absurd rfl hp

/-! ## Managers and objects -/

theorem view_tobjs (W : World) (q : Option Nat) (i : Nat) : (W.view q).tobjs[i]? = W.objs[i]?.map (TObj.seen q) := by
  simp [World.view]

/-- The registries and assignments of a state, without the objects. -/
def own (w : V1) : V1 := { w with tobjs := [], nsobjs := [], heap := {} }

theorem put_tobjs (W : World) (q q' : Option Nat) (w : V1) (i : Nat) : ((W.put q w).view q').tobjs[i]? =
    w.tobjs[i]?.map fun t => { t with managed := q'.isSome && decide ((if t.managed then q else W.objs[i]?.bind TObj.manager) = q') } := by
  rw [view_tobjs]
  simp only [World.put, List.getElem?_mapIdx, Option.map_map]
  rfl

theorem put_own_ne (W : World) {q q' : Option Nat} (w : V1) (h : q' ≠ q ∨ q' = none) : own ((W.put q w).view q') = own (W.view q') := by
  cases q' with
  | none => rfl
  | some j =>
    cases q with
    | none => rfl
    | some k =>
      have : k ≠ j := fun e => h.elim (fun h => h (by rw [e])) (by simp)
      simp only [World.put, World.view, own, Option.bind_some, List.getElem?_set_ne this]

theorem put_own (W : World) {k : Nat} (w : V1) (h : k < W.mgrs.length) : own ((W.put (some k) w).view (some k)) = own w := by
  simp only [World.put, World.view, own, Option.bind_some, List.getElem?_set_self h, Option.getD_some]

/-- The state of the program makes sense for every manager, and tenants point to managers. -/
structure Inv (W : World) : Prop where
  view : ∀ q, (W.view q).Inv
  ptr : ∀ o ∈ W.objs, ∀ k, o.manager = some k → k < W.mgrs.length

theorem Inv.empty : Inv {} := by
  refine ⟨fun q => ?_, by simp⟩
  have : ({} : World).view q = {} := by cases q <;> rfl
  rw [this]; exact V1.Inv.empty

/-- The invariant of a manager after a call that reached another. -/
theorem other_inv (iu : u.Inv) (i' : w'.Inv) (e : V1.Ext w w') (h1 : u.heap = w.heap) (h3 : ∀ i : Nat, (u.tobjs[i]?).map T1Obj.id = (w.tobjs[i]?).map T1Obj.id)
    (g1 : v.heap = w'.heap) (g2 : v.nsobjs = w'.nsobjs)
    (g3 : ∃ f : Nat → T1Obj → Bool, ∀ i : Nat, v.tobjs[i]? = w'.tobjs[i]?.map fun t : T1Obj => { t with managed := f i t }) (ho : own v = own u) : v.Inv := by
  obtain ⟨f, hf⟩ := g3
  have r1 : v.tenants = u.tenants := (congrArg V1.tenants ho : (own v).tenants = (own u).tenants)
  have r2 : v.roles = u.roles := (congrArg V1.roles ho : (own v).roles = (own u).roles)
  have r3 : v.attrGroups = u.attrGroups := (congrArg V1.attrGroups ho : (own v).attrGroups = (own u).attrGroups)
  have r4 : v.tps = u.tps := (congrArg V1.tps ho : (own v).tps = (own u).tps)
  have r5 : v.log = u.log := (congrArg V1.log ho : (own v).log = (own u).log)
  refine ⟨g1 ▸ i'.heap, r1 ▸ iu.tenantsWF, r2 ▸ iu.rolesWF, fun k a h => ?_, fun k a h => ?_, fun k a h => ?_, fun t ht => ?_, fun no hn => ?_,
    fun h => by rw [r4, r5]; exact iu.tps h, r4 ▸ iu.tpsNodup⟩
  · rw [r1] at h
    obtain ⟨t, ht, hid⟩ := iu.tenants k a h
    have h4 := h3 a
    rw [ht] at h4
    cases hw : w.tobjs[a]? with
    | none => rw [hw] at h4; cases h4
    | some s =>
      rw [hw] at h4
      obtain ⟨s', h5, h6⟩ := e.ts a s hw
      refine ⟨_, by rw [hf a, h5]; rfl, ?_⟩
      rw [← hid]
      exact h6.id.trans (Option.some.inj h4).symm
  · rw [r2] at h
    obtain ⟨ro, h4, h5⟩ := iu.roles k a h
    rw [h1] at h4
    obtain ⟨z, h6, h7⟩ := e.heap.ext.roles _ ro h4
    exact ⟨z, by rw [g1]; exact h6, h7.trans h5⟩
  · rw [r3] at h
    obtain ⟨g, h4, h5⟩ := iu.groups k a h
    rw [h1] at h4
    obtain ⟨z, h6, h7⟩ := e.heap.ext.groups _ g h4
    exact ⟨z, by rw [g1]; exact h6, h7.trans h5⟩
  · obtain ⟨i, hi⟩ := List.getElem?_of_mem ht
    rw [hf i] at hi
    cases hw : w'.tobjs[i]? with
    | none => rw [hw] at hi; cases hi
    | some s =>
      rw [hw] at hi
      cases hi
      have k := i'.tobjs s (List.mem_of_getElem? hw)
      refine ⟨k.nsWF, k.rolesWF, k.scopesWF, k.descWF, fun x hx => ?_, fun x hx => ?_, fun x hx => ?_, k.defNs⟩
      · rw [g2]; exact k.namespaces x hx
      · rw [g1]; exact k.roles x hx
      · obtain ⟨d, h4, h5⟩ := k.desc x hx
        exact ⟨{ d with managed := f x.2 d }, by rw [hf, h4]; rfl, h5⟩
  · rw [g2] at hn
    have k := i'.nsobjs no hn
    exact ⟨k.rolesWF, k.scopesWF, fun x hx => by rw [g1]; exact k.roles x hx⟩

/-- What a call that returns does. -/
theorem call_ok (h : W.call k op = .ok W') : ¬ (ofManager op = true ∧ W.mgrs.length ≤ k) ∧
    ∃ w', op.apply (W.view (W.reached k op)) = .ok w' ∧ W' = W.put (W.reached k op) w' := by
  unfold World.call at h
  split at h
  · cases h
  · rename_i hn
    obtain ⟨w', h1, h2⟩ := Out.map_eq_ok.1 h
    exact ⟨hn, w', h1, h2.symm⟩

theorem reached_lt (inv : Inv W) (h : W.call k op = .ok W') (hq : W.reached k op = some j) : j < W.mgrs.length := by
  have hn := (call_ok h).1
  unfold World.reached at hq
  split at hq
  · rename_i c hc
    cases ho : W.objs[c]? with
    | none => rw [ho] at hq; cases hq
    | some o => rw [ho] at hq; exact inv.ptr o (List.mem_of_getElem? ho) j hq
  · split at hq
    · rename_i hm
      cases hq
      exact Nat.lt_of_not_le fun hle => hn ⟨hm, hle⟩
    · cases hq

/-- The tenant flags a manager sees are those its call left. -/
theorem put_seen (inv : Inv W) (h : op.apply (W.view (some j)) = .ok w') : ((W.put (some j) w').view (some j)).tobjs = w'.tobjs := by
  refine List.ext_getElem? fun i => ?_
  rw [put_tobjs]
  cases ht : w'.tobjs[i]? with
  | none => rfl
  | some t =>
    have m := marks (inv.view _) h ht
    simp only [Option.map_some, Option.isSome_some, Bool.true_and, Option.some.injEq]
    cases hm : t.managed with
    | true => cases t; simp_all
    | false =>
      rw [hm] at m
      have : W.objs[i]?.bind TObj.manager ≠ some j := by
        intro e
        cases ho : W.objs[i]? with
        | none => rw [ho] at e; cases e
        | some o =>
          rw [ho] at e
          refine absurd (m.2 (.inr ⟨_, by rw [view_tobjs, ho]; rfl, ?_⟩)) (by simp)
          have e : o.manager = some j := e
          simp [TObj.seen, e]
      cases t; simp_all

theorem view_ids (W : World) (q q' : Option Nat) (i : Nat) : ((W.view q).tobjs[i]?).map T1Obj.id = ((W.view q').tobjs[i]?).map T1Obj.id := by
  rw [view_tobjs, view_tobjs, Option.map_map, Option.map_map]; rfl

theorem eq_of_own (h : own v = own w) (h1 : v.tobjs = w.tobjs) (h2 : v.nsobjs = w.nsobjs) (h3 : v.heap = w.heap) : v = w := by
  cases v; cases w
  simp only [own, V1.mk.injEq, true_and] at h h1 h2 h3 ⊢
  simp_all

theorem call_view (inv : Inv W) (h : W.call k op = .ok W') (hq : W.reached k op = some j) :
    op.apply (W.view (some j)) = .ok (W'.view (some j)) := by
  have hlt := reached_lt inv h hq
  obtain ⟨_, w', h1, rfl⟩ := call_ok h
  rw [hq] at h1 ⊢
  rw [h1, eq_of_own (put_own W w' hlt) (put_seen inv h1) rfl rfl]

theorem Inv.call (inv : Inv W) (h : W.call k op = .ok W') : Inv W' := by
  have h0 := h
  obtain ⟨_, w', h1, rfl⟩ := call_ok h
  have g := V1Op.good h1 (inv.view _)
  refine ⟨fun q' => ?_, fun o ho j hj => ?_⟩
  · by_cases e : q' ≠ W.reached k op ∨ q' = none
    · exact other_inv (inv.view q') g.1 g.2 rfl (view_ids W _ _) rfl rfl ⟨_, put_tobjs W _ _ w'⟩ (put_own_ne W w' e)
    · cases q' with
      | none => exact absurd (.inr rfl) e
      | some j =>
        have e : W.reached k op = some j := by
          by_cases h : some j = W.reached k op
          · exact h.symm
          · exact absurd (.inl h) e
        have := call_view inv h0 e
        exact (V1Op.good this (inv.view _)).1
  · have hl : (W.put (W.reached k op) w').mgrs.length = W.mgrs.length := by
      simp only [World.put]; split <;> simp
    rw [hl]
    simp only [World.put, List.mem_mapIdx] at ho
    obtain ⟨i, hi, rfl⟩ := ho
    simp only [TObj.back] at hj
    split at hj
    · exact reached_lt inv h0 hj
    · cases ho : W.objs[i]? with
      | none => rw [ho] at hj; cases hj
      | some o => rw [ho] at hj; exact inv.ptr o (List.mem_of_getElem? ho) j hj

theorem Inv.new (inv : Inv W) : Inv { W with mgrs := W.mgrs ++ [{}] } := by
  refine ⟨fun q => ?_, fun o ho k hk => ?_⟩
  · by_cases hq : q = some W.mgrs.length
    · subst hq
      exact other_inv (u := W.view none) (inv.view none) (inv.view none) (.refl _) rfl (fun _ => rfl) rfl rfl
        ⟨fun i _ => decide ((W.objs[i]?.bind TObj.manager) = some W.mgrs.length), fun i => by
          rw [view_tobjs, view_tobjs]
          cases h : W.objs[i]? <;> simp [TObj.seen, h]⟩ (by simp [World.view, own])
    · have : World.view { W with mgrs := W.mgrs ++ [{}] } q = W.view q := by
        cases q with
        | none => rfl
        | some k =>
          have hk : k ≠ W.mgrs.length := fun e => hq (by rw [e])
          simp only [World.view, Option.bind_some, List.getElem?_append]
          split
          · rfl
          · rename_i hlt
            have h1 : W.mgrs[k]? = none := List.getElem?_eq_none (Nat.not_lt.1 hlt)
            have h2 : ([{}] : List V1)[k - W.mgrs.length]? = none := List.getElem?_eq_none (by simp; omega)
            rw [h1, h2]
      rw [this]; exact inv.view q
  · have := inv.ptr o ho k hk
    simp only [List.length_append]
    omega

theorem Inv.run (inv : Inv W) (h : W.run cs = .ok W') : Inv W' := by
  induction cs generalizing W with
  | nil => cases h; exact inv
  | cons c cs ih =>
    obtain ⟨W1, h1, h2⟩ := Out.bind_eq_ok.1 h
    refine ih ?_ h2
    cases c with
    | new => cases h1; exact inv.new
    | on k op => exact inv.call h1

theorem reachable (h : World.run {} cs = .ok W) : Inv W := Inv.empty.run h

theorem run_append {a b : List Call} : W.run (a ++ b) = (W.run a).bind fun U => U.run b := by
  induction a generalizing W with
  | nil => rfl
  | cons c a ih =>
    rw [List.cons_append, World.run, World.run]
    cases W.step c with
    | ok x => simp only [Out.bind_ok]; exact ih
    | panic => rfl
    | diverge => rfl

theorem run_snoc {c : Call} : W.run (cs ++ [c]) = .ok W' ↔ ∃ U, W.run cs = .ok U ∧ U.step c = .ok W' := by
  rw [run_append, Out.bind_eq_ok]
  constructor
  · rintro ⟨U, h1, h2⟩
    obtain ⟨V, h3, h4⟩ := Out.bind_eq_ok.1 h2
    cases h4; exact ⟨U, h1, h3⟩
  · rintro ⟨U, h1, h2⟩; exact ⟨U, h1, by rw [World.run, h2]; rfl⟩

/-! ## C125: where calls take effect -/

/-- The manager a tenant points to, if there is such a tenant. -/
def World.managerOf (W : World) (a : Nat) : Option Nat := W.objs[a]?.bind TObj.manager

/-- `AddTenant` is the only call that changes the manager of a tenant. -/
theorem call_managerOf (inv : Inv W) (h : W.call k op = .ok W') (a : Nat) :
    (op = .addTenant a → W'.managerOf a = some k) ∧ (op ≠ .addTenant a → W'.managerOf a = W.managerOf a) := by
  obtain ⟨_, w', h1, rfl⟩ := call_ok h
  have g := V1Op.good h1 (inv.view _)
  have hget : (W.put (W.reached k op) w').objs[a]? = w'.tobjs[a]?.map (TObj.back (W.reached k op) W.objs[a]?) := by
    simp [World.put, List.getElem?_mapIdx]
  cases ht : w'.tobjs[a]? with
  | none =>
    have hn : W.objs[a]? = none := by
      cases ho : W.objs[a]? with
      | none => rfl
      | some o =>
        obtain ⟨y, hy, _⟩ := g.2.ts a _ (by rw [view_tobjs, ho]; rfl)
        rw [ht] at hy; cases hy
    refine ⟨?_, fun _ => by rw [World.managerOf, World.managerOf, hget, ht, hn]; rfl⟩
    rintro rfl
    exfalso
    have : (W.view (W.reached k (.addTenant a))).tobjs[a]? = none := by rw [view_tobjs, hn]; rfl
    obtain ⟨x, h2, _⟩ := Out.map_eq_ok.1 h1
    simp [V1.addTenant, this] at h2
  | some t =>
    have m := marks (inv.view _) h1 ht
    rw [World.managerOf, hget, ht]
    simp only [Option.map_some, Option.bind_some, TObj.back]
    refine ⟨?_, fun hne => ?_⟩
    · rintro rfl
      rw [if_pos (m.2 (.inl rfl))]
      rfl
    · split
      · rename_i hm
        obtain ⟨s, h2, h3⟩ := (m.1 hm).resolve_left hne
        rw [view_tobjs] at h2
        cases ho : W.objs[a]? with
        | none => rw [ho] at h2; cases h2
        | some o =>
          rw [ho] at h2
          cases h2
          simp only [TObj.seen, Bool.and_eq_true, decide_eq_true_eq] at h3
          rw [World.managerOf, ho]
          exact h3.2.symm
      · rfl

/-- The tenant was added last to manager `k`. -/
def AddedLast (cs : List Call) (a k : Nat) : Prop :=
  ∃ pre post, cs = pre ++ .on k (.addTenant a) :: post ∧ ∀ j, Call.on j (.addTenant a) ∉ post

theorem addedLast_snoc {c : Call} {a : Nat} : AddedLast (cs ++ [c]) a k ↔
    c = .on k (.addTenant a) ∨ (∀ j, c ≠ .on j (.addTenant a)) ∧ AddedLast cs a k := by
  constructor
  · rintro ⟨pre, post, h1, h2⟩
    rcases List.eq_nil_or_concat post with rfl | ⟨post, d, rfl⟩
    · left
      exact (List.cons.inj (List.append_inj_right' h1 rfl)).1
    · right
      rw [List.concat_eq_append, ← List.cons_append, ← List.append_assoc] at h1
      have e1 := List.append_inj_left' h1 rfl
      have e2 := (List.cons.inj (List.append_inj_right' h1 rfl)).1
      subst e2
      exact ⟨fun j hj => h2 j (by simp [hj]), pre, post, e1, fun j hj => h2 j (by simp [hj])⟩
  · rintro (rfl | ⟨h1, pre, post, rfl, h2⟩)
    · exact ⟨cs, [], rfl, by simp⟩
    · exact ⟨pre, post ++ [c], by simp, fun j hj => by
        rcases List.mem_append.1 hj with hj | hj
        · exact h2 j hj
        · exact h1 j (List.mem_singleton.1 hj).symm⟩

/-- C125. A tenant points to the manager it was added to last, and to none before. -/
theorem C125_points (h : World.run {} cs = .ok W) (a k : Nat) : W.managerOf a = some k ↔ AddedLast cs a k := by
  induction cs using List.reverseRecOn generalizing W k with
  | nil =>
    cases h
    refine ⟨fun h => (by cases h), fun ⟨pre, post, h, _⟩ => ?_⟩
    simp at h
  | append_singleton cs c ih =>
    obtain ⟨U, h1, h2⟩ := run_snoc.1 h
    rw [addedLast_snoc]
    cases c with
    | new =>
      cases h2
      simp only [reduceCtorEq, ne_eq, not_false_eq_true, implies_true, true_and, false_or]
      exact ih h1 k
    | on j op =>
      obtain ⟨g1, g2⟩ := call_managerOf (reachable h1) h2 a
      by_cases e : op = .addTenant a
      · subst e
        rw [g1 rfl]
        simp only [Option.some.injEq, Call.on.injEq, and_true, ne_eq]
        exact ⟨.inl, fun h => h.elim id fun h => absurd rfl (h.1 j)⟩
      · rw [g2 e, ih h1 k]
        simp [e]

/-- C125. A method of a tenant reaches the manager the tenant was added to last; a method of a manager that manager; the
other calls none. -/
theorem C125_reaches (h : World.run {} cs = .ok W) (op : V1Op) (k j : Nat) : W.reached k op = some j ↔
    (∃ c, receiver op = some c ∧ AddedLast cs c j) ∨ receiver op = none ∧ ofManager op = true ∧ j = k := by
  unfold World.reached
  cases hr : receiver op with
  | none => by_cases hm : ofManager op = true <;> simp [hm, eq_comm]
  | some c => simpa [World.managerOf] using C125_points h c j

/-- C125. A call takes effect in the manager it reaches as if there were no other one. -/
theorem C125_alone (h : World.run {} cs = .ok W) (hc : W.call k op = .ok W') (hq : W.reached k op = some j) :
    op.apply (W.view (some j)) = .ok (W'.view (some j)) := call_view (reachable h) hc hq

/-- C125. It changes no registry and no assignment of another manager. -/
theorem C125_others (hc : W.call k op = .ok W') (hq : W.reached k op ≠ some j) : own (W'.view (some j)) = own (W.view (some j)) := by
  obtain ⟨_, w', _, rfl⟩ := call_ok hc
  exact put_own_ne W w' (.inl fun e => hq e.symm)

/-- The history has a call that reached manager `k`, made in the state `u` of it. -/
def Happened (cs : List Call) (k : Nat) (P : V1 → V1Op → Prop) : Prop :=
  ∃ pre j op post U, cs = pre ++ .on j op :: post ∧ World.run {} pre = .ok U ∧ U.reached j op = some k ∧ P (U.view (some k)) op

theorem new_own (W : World) (q : Option Nat) : own (World.view { W with mgrs := W.mgrs ++ [{}] } q) = own (W.view q) := by
  cases q with
  | none => rfl
  | some k =>
    simp only [World.view, own, Option.bind_some, List.getElem?_append]
    split
    · rfl
    · rename_i hlt
      rw [List.getElem?_eq_none (Nat.not_lt.1 hlt), List.getElem?_singleton]
      split <;> rfl

theorem log_history (h : World.run {} cs = .ok W) {x : TP} (hx : x ∈ (W.view (some k)).log) : Happened cs k fun u op => op.Assigns u x := by
  induction cs using List.reverseRecOn generalizing W with
  | nil => cases h; simp [World.view] at hx
  | append_singleton cs c ih =>
    obtain ⟨U, h1, h2⟩ := run_snoc.1 h
    have old : own (W.view (some k)) = own (U.view (some k)) → Happened (cs ++ [c]) k fun u op => op.Assigns u x := by
      intro e
      have e : (W.view (some k)).log = (U.view (some k)).log := (congrArg V1.log e : _)
      obtain ⟨pre, j, op, post, V, rfl, h3⟩ := ih h1 (e ▸ hx)
      exact ⟨pre, j, op, post ++ [c], V, by simp, h3⟩
    cases c with
    | new => cases h2; exact old (new_own U _)
    | on j op =>
      by_cases hq : U.reached j op = some k
      · rcases V1.log_origin ((reachable h1).view _) (C125_alone h1 h2 hq) hx with h3 | h3
        · obtain ⟨pre, i, op', post, V, rfl, h4⟩ := ih h1 h3
          exact ⟨pre, i, op', post ++ [.on j op], V, by simp, h4⟩
        · exact ⟨cs, j, op, [], U, rfl, h1, hq, h3⟩
      · exact old (C125_others h2 hq)

/-- C125. What a manager has as an assignment was assigned by a call that reached it: on the manager, or on a tenant that
was added to it last (ids with `_` are read back otherwise, C36). -/
theorem C125_row (h : World.run {} cs = .ok W) {x : TP} (hx : Row (W.view (some k)) x) :
    ∃ y, (Happened cs k fun u op => op.Assigns u y) ∧ (x.principal = y.principal ∨ (x.principal ++ [95]) <+: y.principal) ∧
      (Clean y → x = y) := by
  obtain ⟨t, ht, hf⟩ := hx
  obtain ⟨y, hy, rfl⟩ := (((reachable h).view _).tps t).1 ht
  exact ⟨y, log_history h hy, V1.fields_principal hf, fun hc => V1.fields_unique hf (V1.fields_encode hc)⟩

/-- C125. So does access that manager `k` grants (except to the requests of C101_counterexample): a call that reached
`k` gave the principal a matching assignment. -/
theorem C125_access {o : Ord} {fuel : Nat} {site : List Val} {p : Str} {opts : List Opt} (h : World.run {} cs = .ok W)
    (h1 : ¬ V1.TenantOnly (requestOf opts)) (h2 : ¬ V1.TNS (requestOf opts)) (hg : W.authorize k o fuel site p opts = .ok true) :
    ∃ y, (Happened cs k fun u op => op.Assigns u y) ∧ (y.principal = p ∨ (p ++ [95]) <+: y.principal) ∧
      (Clean y → y.principal = p ∧ V1.Backs (requestOf opts) y) := by
  obtain ⟨x, hx, rfl, hb⟩ := V1.backed ((reachable h).view _) h1 h2 hg
  obtain ⟨y, k1, k2, k3⟩ := C125_row h hx
  exact ⟨y, k1, k2.imp_left Eq.symm, fun hc => k3 hc ▸ ⟨rfl, hb⟩⟩

/-- C125. Every manager decides exactly by its own registries and assignments and the objects as they are: requests
without group and activity. -/
theorem C125_exact {o : Ord} {fuel : Nat} {site : List Val} {p : Str} {opts : List Opt} {b : Bool} (h : World.run {} cs = .ok W)
    (hr : V1.ResourceRequest (requestOf opts)) (hb : W.authorize k o fuel site p opts = .ok b) :
    b = true ↔ In (W.view (some k)).principals p ∧ Grants1 (W.view (some k)) p (requestOf opts) :=
  V1.C37_exact ((reachable h).view _) hr hb

/-- C125. The other requests. -/
theorem C125_exact_activity {o : Ord} {fuel : Nat} {site : List Val} {p : Str} {opts : List Opt} {b : Bool} (h : World.run {} cs = .ok W)
    (hr : ¬ V1.ResourceRequest (requestOf opts)) (hb : W.authorize k o fuel site p opts = .ok b) :
    b = true ↔ In (W.view (some k)).principals p ∧
      ((Shape (requestOf opts) false false false false true ∧ ActivityGrant (W.view (some k)) p (toStr (requestOf opts).activity)) ∨
       (¬ Shape (requestOf opts) false false false false true ∧ ComplexGrant (W.view (some k)) p (requestOf opts))) :=
  V1.C41_exact ((reachable h).view _) hr hb

/-! ## C126: calls that do not reach a manager and its decisions -/

/-- What the decisions of a manager depend on is the same in both states. -/
structure Agree (w v : V1) : Prop where
  has : ∀ id a, w.roles.get id = some a → ∀ o group name allowed n site, v.heap.has o group name allowed n site a = w.heap.has o group name allowed n site a
  tenants : v.tenants = w.tenants
  principals : v.principals = w.principals
  roles : v.roles = w.roles
  tps : v.tps = w.tps
  held : ∀ id c, w.tenants.get id = some c → ∃ t t' : T1Obj, w.tobjs[c]? = some t ∧ v.tobjs[c]? = some t' ∧ t'.id = t.id ∧
    t'.roles = t.roles ∧ t'.namespaces = t.namespaces ∧ t'.scopes = t.scopes ∧
    (∀ e ∈ t.roles, (v.heap.roles[e.2]?).map RoleObj.id = (w.heap.roles[e.2]?).map RoleObj.id) ∧
    ∀ n a, t.namespaces.get n = some a → v.nsobjs[a]? = w.nsobjs[a]?

/-- The roles asked are registered ones. -/
theorem registered_get {ids : List Str} {e : Str × Nat} (he : e ∈ w.registeredRoles ids) : w.roles.get e.1 = some e.2 := by
  unfold V1.registeredRoles at he
  have : ∀ (l : List Str) (m : GoMap Str Nat), GoMap.WF m → (∀ e ∈ m, w.roles.get e.1 = some e.2) →
      ∀ e ∈ l.foldl (fun m r => match w.roles.get r with
        | some a => m.set r a
        | none => m) m, w.roles.get e.1 = some e.2 := by
    intro l
    induction l with
    | nil => intro m _ hm; exact hm
    | cons r l ih =>
      intro m wf hm
      rw [List.foldl_cons]
      cases hr : w.roles.get r with
      | none => exact ih m wf hm
      | some a =>
        refine ih _ (GoMap.wf_set wf r a) fun e he => ?_
        rcases (GoMap.mem_set_iff wf).1 he with h | h
        · subst h; exact hr
        · exact hm e h.2
  exact this ids [] GoMap.wf_nil (by simp) e he

namespace Agree
variable {o : Ord} {fuel : Nat} {site : List Val} (h : Agree w v)
include h

theorem withT {α : Type} {id : Str} {c : Nat} (hc : w.tenants.get id = some c) {f g : T1Obj → Out α}
    (hf : ∀ t t' : T1Obj, t'.id = t.id → t'.roles = t.roles → t'.namespaces = t.namespaces → t'.scopes = t.scopes →
      (∀ e ∈ t.roles, (v.heap.roles[e.2]?).map RoleObj.id = (w.heap.roles[e.2]?).map RoleObj.id) → (∀ n a, t.namespaces.get n = some a → v.nsobjs[a]? = w.nsobjs[a]?) → g t' = f t) : v.withT c g = w.withT c f := by
  obtain ⟨t, t', h1, h2, h3, h4, h5, h6, h7, h8⟩ := h.held id c hc
  rw [V1.withT, V1.withT, h1, h2]
  exact hf t t' h3 h4 h5 h6 h7 h8

theorem rows : v.rows o site = w.rows o site := by unfold V1.rows; rw [h.tps]

theorem principalRoles {t p : Str} : v.principalRoles o site t p = w.principalRoles o site t p := by
  unfold V1.principalRoles; rw [h.rows]

theorem tenantRoles {t : Str} : v.tenantRoles o site t = w.tenantRoles o site t := by
  unfold V1.tenantRoles; rw [h.rows]

theorem tenantsFor {p : Str} : v.tenantsForPrincipal o site p = w.tenantsForPrincipal o site p := by
  unfold V1.tenantsForPrincipal; rw [h.rows]

omit h in
theorem lists {t t' : T1Obj} {n : Str} (h1 : t'.namespaces = t.namespaces)
    (h2 : ∀ n a, t.namespaces.get n = some a → v.nsobjs[a]? = w.nsobjs[a]?) : v.namespaceLists o site t' n = w.namespaceLists o site t n := by
  unfold V1.namespaceLists
  rw [h1]
  cases e : t.namespaces.get n with
  | none => rfl
  | some a => simp only [h2 n a e]

theorem allowed {prs : Option (List TP)} {n s : Str} : v.getAllowedRoles o site prs n s = w.getAllowedRoles o site prs n s := by
  unfold V1.getAllowedRoles
  cases prs with
  | none => rfl
  | some l =>
    cases l with
    | nil => rfl
    | cons x xs =>
      simp only [h.tenants]
      cases e : w.tenants.get x.tenant with
      | none => rfl
      | some c =>
        refine h.withT e fun t t' h1 h2 h3 h4 h6 h5 => ?_
        rw [h3, h4, lists h3 h5]
        unfold V1.pickRoles
        rw [h2]

theorem anyRole {ids : List Str} {g act : Str} {l : List Str} :
    v.anyRole o fuel site (w.registeredRoles ids) g act l = w.anyRole o fuel site (w.registeredRoles ids) g act l := by
  unfold V1.anyRole
  refine anyI_congr 0 fun i e he => h.has e.1 e.2 ?_ _ _ _ _ _ _
  exact registered_get (Ord.mem_ord.1 he)

omit h in
theorem allowedIDs {t t' : T1Obj} {roles : List Str} (h1 : t'.roles = t.roles)
    (h2 : ∀ e ∈ t.roles, (v.heap.roles[e.2]?).map RoleObj.id = (w.heap.roles[e.2]?).map RoleObj.id) :
    v.allowedRoleIDs o site t' roles = w.allowedRoleIDs o site t roles := by
  unfold V1.allowedRoleIDs
  rw [h1]
  have : ∀ (l : List (Str × Nat)) (i : Nat), (∀ e ∈ l, (v.heap.roles[e.2]?).map RoleObj.id = (w.heap.roles[e.2]?).map RoleObj.id) →
      Out.collectI (fun _ (e : Str × Nat) => match v.heap.roles[e.2]? with
        | none => .panic
        | some ro => .ok ((roles.filter fun rt => ro.id = rt).map fun _ => ro.id)) i l =
      Out.collectI (fun _ (e : Str × Nat) => match w.heap.roles[e.2]? with
        | none => .panic
        | some ro => .ok ((roles.filter fun rt => ro.id = rt).map fun _ => ro.id)) i l := by
    intro l
    induction l with
    | nil => intro i _; rfl
    | cons e l ih =>
      intro i hl
      rw [Out.collectI, Out.collectI, ih (i + 1) fun x hx => hl x (by simp [hx])]
      have := hl e (by simp)
      cases e1 : v.heap.roles[e.2]? <;> cases e2 : w.heap.roles[e.2]? <;> rw [e1, e2] at this <;> simp at this
      dsimp only
      rw [this]
  exact this _ 0 fun e he => h2 e (Ord.mem_ord.1 he)

theorem registered {ids : List Str} : v.registeredRoles ids = w.registeredRoles ids := by
  unfold V1.registeredRoles; rw [h.roles]

/-- Every request gets the same answer, panic or endless loop. -/
theorem answer {p : Str} {r : Request} : v.answer o fuel site p r = w.answer o fuel site p r := by
  have e1 : v.authNamespace o site p (toStr r.namespace_) = w.authNamespace o site p (toStr r.namespace_) := by
    unfold V1.authNamespace
    rw [h.tenantsFor, h.tenants]
    congr 1
    funext ts
    congr 1
    funext i t
    cases e : w.tenants.get t with
    | none => rfl
    | some c => exact h.withT e fun t t' h1 h2 h3 h4 h6 h5 => by rw [h3]
  have e2 : v.authScope o site p (toStr r.scope) = w.authScope o site p (toStr r.scope) := by
    unfold V1.authScope
    rw [h.tenantsFor, h.tenants]
    congr 1
    funext ts
    congr 1
    funext i t
    cases e : w.tenants.get t with
    | none => rfl
    | some c => exact h.withT e fun t t' h1 h2 h3 h4 h6 h5 => by rw [h4, h1, h.principalRoles]
  have e3 : v.authActivity o fuel site p (toStr r.activity) = w.authActivity o fuel site p (toStr r.activity) := by
    unfold V1.authActivity
    simp only [h.tenantsFor, h.principalRoles, h.allowed, h.registered, h.anyRole]
  have e4 : v.authComplex o fuel site p r = w.authComplex o fuel site p r := by
    unfold V1.authComplex
    simp only [h.tenants]
    cases e : w.tenants.get (toStr r.tenant) with
    | none => rfl
    | some c =>
      refine h.withT e fun t t' h1 h2 h3 h4 h6 h5 => ?_
      simp only [h.principalRoles, h.allowed, h.registered, h.anyRole, allowedIDs h2 h6, h3, h4]
  unfold V1.answer
  simp only [h.principals, e1, e2, e3, e4, V1.authTenant, V1.authTN, V1.authTS, V1.authNS, V1.authTNS, h.tenants, h.principalRoles,
    h.tenantRoles, h.tenantsFor]

end Agree

/-- The call, on manager `i` or an object, may change something the decisions of manager `k` depend on: it concerns a role registered with `k`,
a tenant registered with `k`, or a namespace of such a tenant. -/
def Touches (W : World) (i k : Nat) (op : V1Op) : Prop :=
  (∃ rop id a, op = .role rop ∧ (W.view (some k)).roles.get id = some a ∧ rop.Concerns W.heap a) ∨
  (∃ r g as b id a, op = .addPermissionsToRole r g as ∧ (W.view (some i)).roles.get r = some b ∧
    (W.view (some k)).roles.get id = some a ∧ (RoleOp.addPerm b g as).Concerns W.heap a) ∨
  ∃ id c, (W.view (some k)).tenants.get id = some c ∧ (HitsT op c ∨
    ∃ t n a, (W.view (some k)).tobjs[c]? = some t ∧ t.namespaces.get n = some a ∧ HitsN (W.view (some k)) op a)

theorem hitsN_view (W : World) (q q' : Option Nat) {a : Nat} (h : HitsN (W.view q) op a) : HitsN (W.view q') op a := by
  have key : ∀ (c : Nat) (Q : T1Obj → Prop), (∀ o : TObj, Q (o.seen q) → Q (o.seen q')) → (∃ t, (W.view q).tobjs[c]? = some t ∧ Q t) →
      ∃ t, (W.view q').tobjs[c]? = some t ∧ Q t := by
    rintro c Q hQ ⟨t, h1, h2⟩
    rw [view_tobjs] at h1
    cases ho : W.objs[c]? with
    | none => rw [ho] at h1; cases h1
    | some o =>
      rw [ho] at h1
      cases h1
      exact ⟨_, by rw [view_tobjs, ho]; rfl, hQ o h2⟩
  cases op with
  | tAddScopes c ss => exact key c _ (fun _ h => h) h
  | tAddScopesToNamespace c n ss => exact key c (fun t => t.namespaces.get n = some a) (fun _ h => h) h
  | tAddRolesToNamespace c n ss => exact key c (fun t => t.namespaces.get n = some a) (fun _ h => h) h
  | nsAddRoles n rs => exact h
  | nsAddScopes n rs => exact h
  | _ => exact h.elim

theorem agree_call (inv : Inv W) (hc : W.call k op = .ok W') (hq : W.reached k op ≠ some j) (ht : ¬ Touches W k j op) :
    Agree (W.view (some j)) (W'.view (some j)) := by
  have ho := C125_others hc hq
  have inv' := inv.call hc
  obtain ⟨_, w', h1, rfl⟩ := call_ok hc
  generalize hr : W.reached k op = q at *
  have r1 := (congrArg V1.tenants ho : (own ((W.put q w').view (some j))).tenants = (own (W.view (some j))).tenants)
  have r2 := (congrArg V1.principals ho : (own ((W.put q w').view (some j))).principals = (own (W.view (some j))).principals)
  have r3 := (congrArg V1.roles ho : (own ((W.put q w').view (some j))).roles = (own (W.view (some j))).roles)
  have r4 := (congrArg V1.tps ho : (own ((W.put q w').view (some j))).tps = (own (W.view (some j))).tps)
  -- it is enough to compare the objects before and after the call
  have heq : w'.heap = W.heap → ∀ id a, (W.view (some j)).roles.get id = some a → ∀ o group name allowed n site,
      w'.heap.has o group name allowed n site a = W.heap.has o group name allowed n site a := fun e _ _ _ _ _ _ _ _ _ => by rw [e]
  suffices hs : (∀ id a, (W.view (some j)).roles.get id = some a → ∀ o group name allowed n site, w'.heap.has o group name allowed n site a = W.heap.has o group name allowed n site a) ∧ ∀ id c, (W.view (some j)).tenants.get id = some c → ∀ t, (W.view q).tobjs[c]? = some t →
      ∃ t' : T1Obj, w'.tobjs[c]? = some t' ∧ t'.id = t.id ∧ t'.roles = t.roles ∧ t'.namespaces = t.namespaces ∧ t'.scopes = t.scopes ∧
      ∀ n a, t.namespaces.get n = some a → w'.nsobjs[a]? = W.nsobjs[a]? by
    refine ⟨hs.1, r1, r2, r3, r4, fun id c hid => ?_⟩
    obtain ⟨t, h2, _⟩ := (inv.view (some j)).tenants id c hid
    have h2' := h2
    rw [view_tobjs] at h2'
    cases hO : W.objs[c]? with
    | none => rw [hO] at h2'; cases h2'
    | some O =>
      rw [hO] at h2'
      cases h2'
      obtain ⟨t', h3, h4⟩ := hs.2 id c hid (O.seen q) (by rw [view_tobjs, hO]; rfl)
      have h5 := put_tobjs W q (some j) w' c
      rw [h3] at h5
      refine ⟨_, _, h2, h5, h4.1, h4.2.1, h4.2.2.1, h4.2.2.2.1, fun e he => ?_, h4.2.2.2.2⟩
      obtain ⟨ro, k1, k2⟩ := ((inv.view (some j)).tobjs _ (List.mem_of_getElem? h2)).roles e he
      obtain ⟨ro', k3, k4⟩ := ((inv'.view (some j)).tobjs _ (List.mem_of_getElem? h5)).roles e (h4.2.1 ▸ he)
      rw [k1, k3, Option.map_some, Option.map_some, k2, k4]
  have same : (∀ id a, (W.view (some j)).roles.get id = some a → ∀ o group name allowed n site, w'.heap.has o group name allowed n site a = W.heap.has o group name allowed n site a) → w'.nsobjs = W.nsobjs → w'.tobjs = (W.view q).tobjs → (∀ id a, (W.view (some j)).roles.get id = some a → ∀ o group name allowed n site, w'.heap.has o group name allowed n site a = W.heap.has o group name allowed n site a) ∧ ∀ id c, (W.view (some j)).tenants.get id = some c →
      ∀ t, (W.view q).tobjs[c]? = some t → ∃ t' : T1Obj, w'.tobjs[c]? = some t' ∧ t'.id = t.id ∧ t'.roles = t.roles ∧
      t'.namespaces = t.namespaces ∧ t'.scopes = t.scopes ∧ ∀ n a, t.namespaces.get n = some a → w'.nsobjs[a]? = W.nsobjs[a]? :=
    fun e1 e2 e3 => ⟨e1, fun _ _ _ t h => ⟨t, by rw [e3]; exact h, rfl, rfl, rfl, rfl, fun _ _ _ => by rw [e2]⟩⟩
  by_cases hp : Plain op = true
  · have f := frame (inv.view _) h1 hp
    refine ⟨heq f.heap, fun id c hid t h2 => ?_⟩
    obtain ⟨t', h3, _, h4, h5⟩ := f.ts c t h2
    obtain ⟨h6, h7, h8⟩ := h5 fun hh => ht (.inr (.inr ⟨id, c, hid, .inl hh⟩))
    refine ⟨t', h3, h4, h6, h7, h8, fun n a hna => f.ns a fun hh => ht (.inr (.inr ⟨id, c, hid, .inr ?_⟩))⟩
    rw [view_tobjs] at h2
    cases hO : W.objs[c]? with
    | none => rw [hO] at h2; cases h2
    | some O =>
      rw [hO] at h2
      cases h2
      exact ⟨O.seen (some j), n, a, by rw [view_tobjs, hO]; rfl, hna, hitsN_view W _ _ hh⟩
  · cases op with
    | role rop =>
      obtain ⟨h2, h3, rfl⟩ := Out.map_eq_ok.1 h1
      refine same (fun id a ha o group name allowed n site => ?_) rfl rfl
      obtain ⟨ro, hro, _⟩ := (inv.view (some j)).roles id a ha
      have hlt := RHeap.lt_of_get hro
      exact Alike.has (closed_reach (inv.view none).heap hlt)
        (alike_step (inv.view none).heap hlt (fun hh => ht (.inl ⟨rop, id, a, rfl, ha, hh⟩)) h3) (.inl rfl)
    | addPermissionsToRole r g as =>
      obtain ⟨⟨x, h2⟩, h3, rfl⟩ := Out.map_eq_ok.1 h1
      refine same (fun id a ha o group name allowed n site => ?_) rfl rfl
      obtain ⟨ro, hro, _⟩ := (inv.view (some j)).roles id a ha
      have hlt := RHeap.lt_of_get hro
      have hq' : q = some k := by rw [← hr]; rfl
      subst hq'
      rw [RHeap.addPermissionsToRole] at h3
      split at h3
      · cases h3; rfl
      · rename_i b hb
        split at h3
        · cases h3; rfl
        · split at h3
          · cases h3
          · split at h3
            · refine Alike.has (closed_reach (inv.view none).heap hlt) (alike_step (op := .addPerm b g as) (inv.view none).heap hlt
                (fun hh => ht (.inr (.inl ⟨r, g, as, b, id, a, rfl, hb, ha, hh⟩))) ?_) (.inl rfl)
              exact Out.map_eq_ok.2 ⟨_, h3, rfl⟩
            · cases h3; rfl
    | newTenant id =>
      cases h1
      refine ⟨heq rfl, fun _ c _ t h => ⟨t, ?_, rfl, rfl, rfl, rfl, fun _ _ _ => rfl⟩⟩
      rw [V1.newTenant, List.getElem?_append_left (RHeap.lt_of_get h)]
      exact h
    | newNamespace id =>
      cases h1
      refine ⟨heq rfl, fun _ c _ t h => ⟨t, h, rfl, rfl, rfl, rfl, fun n a hna => ?_⟩⟩
      obtain ⟨no, h3, _⟩ := ((inv.view q).tobjs t (List.mem_of_getElem? h)).namespaces _ (GoMap.get_some_mem hna)
      have h3 : W.nsobjs[a]? = some no := h3
      rw [V1.newNamespace]
      exact List.getElem?_append_left (RHeap.lt_of_get h3)
    | addTenant a =>
      obtain ⟨⟨x, w1⟩, h2, rfl⟩ := Out.map_eq_ok.1 h1
      cases ha : (W.view q).tobjs[a]? with
      | none => simp [V1.addTenant, ha] at h2
      | some s =>
        have e : w1.tobjs = (W.view q).tobjs.set a { s with managed := true } ∧ w1.heap = W.heap ∧ w1.nsobjs = W.nsobjs := by
          simp only [V1.addTenant, ha] at h2
          split at h2 <;> cases h2 <;> exact ⟨rfl, rfl, rfl⟩
        refine ⟨heq e.2.1, fun _ c _ t h => ?_⟩
        by_cases ea : a = c
        · subst ea
          rw [ha] at h; cases h
          exact ⟨{ s with managed := true }, by rw [e.1]; exact List.getElem?_set_self (RHeap.lt_of_get ha), rfl, rfl, rfl, rfl, fun _ _ _ => by rw [e.2.2]⟩
        · exact ⟨t, by rw [e.1, List.getElem?_set_ne ea]; exact h, rfl, rfl, rfl, rfl, fun _ _ _ => by rw [e.2.2]⟩
    | _ => exact absurd rfl hp

/-- C126 as intended: a call that does not reach a manager changes none of its answers. -/
def C126_full : Prop := ∀ (cs : List Call) (W W' : World) (k j : Nat) (op : V1Op) (o : Ord) (fuel : Nat) (site : List Val) (p : Str) (opts : List Opt),
  World.run {} cs = .ok W → W.call k op = .ok W' → W.reached k op ≠ some j →
  W'.authorize j o fuel site p opts = W.authorize j o fuel site p opts

/-- C126. A call that does not reach a manager and touches no role (as in C131) or tenant registered with the manager and no
namespace of such a tenant changes none of its answers, and neither does making a manager. -/
theorem C126_partial {o : Ord} {fuel : Nat} {site : List Val} {p : Str} {opts : List Opt} (h : World.run {} cs = .ok W) :
    (∀ k op W', W.call k op = .ok W' → W.reached k op ≠ some j → ¬ Touches W k j op →
      W'.authorize j o fuel site p opts = W.authorize j o fuel site p opts) ∧
    (∀ W', W.step .new = .ok W' → j < W.mgrs.length → W'.authorize j o fuel site p opts = W.authorize j o fuel site p opts) := by
  refine ⟨fun k op W' hc hq ht => (agree_call (reachable h) hc hq ht).answer, fun W' hn hj => ?_⟩
  cases hn
  have : World.view { W with mgrs := W.mgrs ++ [{}] } (some j) = W.view (some j) := by
    simp only [World.view, Option.bind_some, List.getElem?_append_left hj]
  rw [World.authorize, World.authorize, this]

/-- C126. In particular none of the calls that register with another manager or assign there. -/
theorem C126_assignments {o : Ord} {fuel : Nat} {site : List Val} {p : Str} {opts : List Opt} (h : World.run {} cs = .ok W)
    (hc : W.call k op = .ok W') (hq : W.reached k op ≠ some j) (hop : (ofManager op = true ∧ ¬ ∃ r g as, op = .addPermissionsToRole r g as) ∨
      (∃ q, op.assignee = some q) ∨ (∃ c ds, op = .tAddDescendent c ds) ∨ (∃ c n, op = .tSetDefaultNamespace c n)) :
    W'.authorize j o fuel site p opts = W.authorize j o fuel site p opts := by
  refine (C126_partial h).1 k op W' hc hq ?_
  rintro (⟨rop, id, a, rfl, _⟩ | ⟨r, g, as, b, id, a, rfl, _⟩ | ⟨id, c, _, hh⟩)
  · simp [ofManager, V1Op.assignee] at hop
  · simp [V1Op.assignee] at hop
  · cases op <;> simp [ofManager, V1Op.assignee, HitsT, HitsN] at hop hh

/-! ## Examples -/

/-- Two managers: the first has the tenants, roles and assignments of `V1.exOps`; then tenant `t` is added to the second
one too, with role `r` and principal `x`, and `x` gets `r` through the tenant. -/
def exCalls : List Call :=
  [.new, .new] ++ V1.exOps.map (Call.on 0) ++
  [.on 1 (.addTenant 0), .on 1 (.addRole 0), .on 1 (.addPrincipal (str "x") 1), .on 0 (.tAddPrincipal 0 (str "x") [str "r"])]

/-- C125 in a concrete history: the tenant is registered with both managers and points to the second one; the assignment
went there, and the first manager refuses what the second one grants. -/
example : ∃ W, World.run {} exCalls = .ok W ∧ (W.managerOf 0 = some 1 ∧ W.managerOf 1 = some 0 ∧
    W.reached 0 (.tAddPrincipal 0 (str "x") [str "r"]) = some 1 ∧
    (W.view (some 0)).tenants.get (str "t") = some 0 ∧ (W.view (some 1)).tenants.get (str "t") = some 0 ∧
    W.authorize 0 .fwd 9 [] (str "x") [.tenant (.str (str "t")), .namespace_ (.str (str "n"))] = .ok false ∧
    W.authorize 1 .fwd 9 [] (str "x") [.tenant (.str (str "t")), .namespace_ (.str (str "n"))] = .ok true ∧
    W.authorize 0 .fwd 9 [] (str "p") [.tenant (.str (str "t")), .namespace_ (.str (str "n"))] = .ok true ∧
    W.authorize 1 .fwd 9 [] (str "p") [.tenant (.str (str "t")), .namespace_ (.str (str "n"))] = .ok false) :=
  Out.chk_ok (by decide +kernel)

/-- A call that does not reach manager 0 is not blocked there: the hypotheses of `C126_partial` and `C126_assignments`. -/
example : ∃ W, World.run {} exCalls = .ok W ∧ (W.reached 0 (.tAddPrincipal 0 (str "x") [str "r"]) ≠ some 0 ∧
    ∃ W', W.call 0 (.tAddPrincipal 0 (str "x") [str "r"]) = .ok W') := by
  obtain ⟨W, h, h1, h2⟩ : ∃ W, World.run {} exCalls = .ok W ∧ (W.reached 0 (.tAddPrincipal 0 (str "x") [str "r"]) = some 1 ∧
      ((W.call 0 (.tAddPrincipal 0 (str "x") [str "r"])).map fun _ => true) = .ok true) := Out.chk_ok (by decide +kernel)
  obtain ⟨W', h3, _⟩ := Out.map_eq_ok.1 h2
  exact ⟨W, h, by rw [h1]; decide, W', h3⟩

/-- C125: that an assignment made through a tenant is one in every manager that has the tenant. -/
def C125_everywhere : Prop := ∀ (cs : List Call) (W W' : World) (k j c : Nat) (id p r : Str), World.run {} cs = .ok W →
  (W.view (some k)).tenants.get id = some c → W.call j (.tAddPrincipalRole c p r c none none []) = .ok W' →
  ∃ x ∈ (W'.view (some k)).log, x.principal = p ∧ x.role = r

/-- C125. It is not: it goes to the manager the tenant was added to last. -/
theorem C125_everywhere_false : ¬ C125_everywhere := by
  intro hf
  obtain ⟨W, h, h1, h2⟩ : ∃ W, World.run {} exCalls = .ok W ∧ ((W.view (some 0)).tenants.get (str "t") = some 0 ∧
      ((W.call 0 (.tAddPrincipalRole 0 (str "new") (str "r") 0 none none [])).map fun W' =>
        (W'.view (some 0)).log.all fun x => decide (x.principal ≠ str "new")) = .ok true) := Out.chk_ok (by decide +kernel)
  obtain ⟨W', h3, h4⟩ := Out.map_eq_ok.1 h2
  obtain ⟨x, hx, hp, _⟩ := hf _ W W' 0 0 0 (str "t") (str "new") (str "r") h h1 h3
  have := List.all_eq_true.1 h4 x hx
  simp [hp] at this

/-- The second manager adds a permission to the role it shares with the first, which grants more from then on. -/
def exShared : List Call :=
  exCalls ++ [.on 0 (.role (.newGroup (str "g"))), .on 0 (.role (.addAttrs 3 [⟨str "/z", str "GET"⟩])), .on 1 (.addAttributeGroup 3)]

theorem C126_counterexample : ∃ W, World.run {} exShared = .ok W ∧
    (W.reached 1 (.addPermissionsToRole (str "r") (str "g") [⟨str "/z", str "GET"⟩]) = some 1 ∧
    W.authorize 0 .fwd 9 [] (str "p") [.tenant (.str (str "t")), .group (.str (str "g")), .activity (.str (str "/z GET"))] = .ok false ∧
    ((W.call 1 (.addPermissionsToRole (str "r") (str "g") [⟨str "/z", str "GET"⟩])).bind fun W' =>
      W'.authorize 0 .fwd 9 [] (str "p") [.tenant (.str (str "t")), .group (.str (str "g")), .activity (.str (str "/z GET"))]) = .ok true) :=
  Out.chk_ok (by decide +kernel)

theorem C126_full_false : ¬ C126_full := by
  intro hf
  obtain ⟨W, h, h1, h2, h3⟩ := C126_counterexample
  obtain ⟨W', h4, h5⟩ := Out.bind_eq_ok.1 h3
  have := h5.symm.trans ((hf _ W W' 1 0 _ .fwd 9 [] (str "p") _ h h4 (by rw [h1]; decide)).trans h2)
  cases this

end VMM
end Verif
