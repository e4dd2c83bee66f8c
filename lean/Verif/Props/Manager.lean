import Mathlib.Data.List.Dedup
import Verif.Lemmas.ManagerOps

/-!
# Root manager: C22 - C28
-/

namespace Verif
open Spec

/-- Run a computation and test its result. -/
def Out.Chk {α : Type} (x : Out α) (P : α → Prop) : Prop := match x with
  | .ok a => P a
  | _ => False

instance {α : Type} (x : Out α) (P : α → Prop) [DecidablePred P] : Decidable (x.Chk P) := by
  cases x <;> unfold Out.Chk <;> infer_instance

theorem Out.chk_ok {α : Type} {x : Out α} {P : α → Prop} (h : x.Chk P) : ∃ a, x = .ok a ∧ P a := by
  cases x with
  | ok a => exact ⟨a, rfl, h⟩
  | panic => exact h.elim
  | diverge => exact h.elim

/-! ## C22 -/

/-- The seven registries. -/
inductive Kind where
  | tenant | namespace_ | scope | principal | role | attribute | group
  deriving DecidableEq, Repr

/-- Content of a registry. -/
def Mgr.reg (w : Mgr) : Kind → GoMap Str Nat
  | .tenant => w.tenants
  | .namespace_ => w.namespaces
  | .scope => w.scopes
  | .principal => w.principals
  | .role => w.roles
  | .attribute => w.attributes
  | .group => w.attrGroups

/-- A registration attempt: registry, id and object. -/
def MOp.attempt (w : Mgr) : MOp → Option (Kind × Str × Nat)
  | .addTenant a => (w.tobjs[a]?).map fun t => (.tenant, t.id, a)
  | .addNamespace id obj => some (.namespace_, id, obj)
  | .addScope id obj => some (.scope, id, obj)
  | .addPrincipal id obj => some (.principal, id, obj)
  | .addRole r => (w.heap.roles[r]?).map fun ro => (.role, ro.id, r)
  | .addAttribute a obj => some (.attribute, a.resource ++ 32 :: a.action, obj)
  | .addAttributeGroup ga => (w.heap.groups[ga]?).map fun g => (.group, g.id, ga)
  | _ => none

/-- All registration attempts of a history, oldest first. -/
def MOp.attempts (w : Mgr) : List MOp → List (Kind × Str × Nat)
  | [] => []
  | op :: ops => (op.attempt w).toList ++
    match op.apply w with
    | .ok w' => MOp.attempts w' ops
    | _ => []

/-- Nothing but rows, tenant links, default namespaces, roles/groups and caches changed. -/
structure Frame (w w' : Mgr) : Prop where
  reg : ∀ k, w'.reg k = w.reg k
  managed : ∀ t' ∈ w'.tobjs, t'.managed = true → ∃ t ∈ w.tobjs, t.id = t'.id ∧ t.managed = true

namespace Frame

theorem of_eq {w w' : Mgr} (h1 : ∀ k, w'.reg k = w.reg k) (h2 : w'.tobjs = w.tobjs) : Frame w w' :=
  ⟨h1, fun t ht hm => ⟨t, h2 ▸ ht, rfl, hm⟩⟩

theorem refl (w : Mgr) : Frame w w := of_eq (fun _ => rfl) rfl

theorem trans {a b c : Mgr} (h1 : Frame a b) (h2 : Frame b c) : Frame a c := by
  refine ⟨fun k => (h2.reg k).trans (h1.reg k), fun t ht hm => ?_⟩
  obtain ⟨t1, a1, a2, a3⟩ := h2.managed t ht hm
  obtain ⟨t2, b1, b2, b3⟩ := h1.managed t1 a1 a3
  exact ⟨t2, b1, b2.trans a2, b3⟩

theorem setT {w : Mgr} {c : Nat} {t t' : TenantObj} (hc : w.tobjs[c]? = some t) (hid : t'.id = t.id)
    (hm : t'.managed = t.managed) : Frame w { w with tobjs := w.tobjs.set c t' } := by
  refine ⟨fun k => by cases k <;> rfl, fun x hx hmx => ?_⟩
  rcases List.mem_or_eq_of_mem_set hx with h | h
  · exact ⟨x, h, rfl, hmx⟩
  · subst h; exact ⟨t, List.mem_of_getElem? hc, hid.symm, hm ▸ hmx⟩

theorem addData {w w' : Mgr} {d : Data} (h : w.addData d = .ok w') : Frame w w' := by
  obtain ⟨t, _, rfl⟩ := Out.map_eq_ok.1 h
  exact of_eq (fun k => by cases k <;> rfl) rfl

theorem viaTenant {w w' : Mgr} {c : Nat} {f : TenantObj → Data}
    (h : w.withTenant c (fun t => w.addData (f t)) = .ok w') : Frame w w' := by
  obtain ⟨t, _, _, h3⟩ := Mgr.withTenant_ok h; exact addData h3

theorem setDefault {w w' : Mgr} {c : Nat} {n : Str} (h : w.tSetDefaultNamespace c n = .ok w') : Frame w w' := by
  obtain ⟨t, ht, _, h3⟩ := Mgr.withTenant_ok h
  split at h3
  · cases h3; exact setT ht rfl rfl
  · cases h3; exact refl _

theorem addDescendant {c : Nat} {ds : List Nat} {w w' : Mgr} (h : w.tAddDescendant c ds = .ok w') : Frame w w' := by
  induction ds generalizing w with
  | nil => cases h; exact refl _
  | cons d ds ih =>
    rw [Mgr.tAddDescendant] at h
    split at h
    · rename_i ct dt hc hd
      have i1 : Frame w (if (ct.desc.get dt.id).isSome then w
        else { w with tobjs := w.tobjs.set c { ct with desc := ct.desc.set dt.id d } }) := by
        split
        · exact refl _
        · exact setT hc rfl rfl
      simp only at h
      generalize (if (ct.desc.get dt.id).isSome then w
        else { w with tobjs := w.tobjs.set c { ct with desc := ct.desc.set dt.id d } }) = w1 at i1 h
      split at h
      · exact i1.trans (ih h)
      · rw [Out.bind_eq_ok] at h
        obtain ⟨w2, h2, h⟩ := h
        rw [Out.bind_eq_ok] at h
        obtain ⟨w3, h3, h⟩ := h
        exact ((i1.trans (viaTenant h2)).trans (setDefault h3)).trans (ih h)
    · cases h

theorem principalWithRole {w w' : Mgr} {c : Nat} {p r : Str} {m : Bool} {e : Option Err}
    (h : w.tAddPrincipalWithRole c p r m = .ok (e, w')) : Frame w w' := by
  obtain ⟨t, _, _, h⟩ := Mgr.withTenant_ok h
  split at h
  · cases h; exact refl _
  · split at h
    · cases h; exact refl _
    · rw [Out.bind_eq_ok] at h
      obtain ⟨w1, h1, h⟩ := h
      split at h
      · cases h; exact addData h1
      · obtain ⟨w2, h2, h3⟩ := Out.map_eq_ok.1 h
        cases h3; exact (addData h1).trans (addData h2)

theorem scopeToPrincipal {w w' : Mgr} {c : Nat} {p r : Str} {m : Bool} {e : Option Err}
    (h : w.tAddScopeToPrincipal c p r m = .ok (e, w')) : Frame w w' := by
  obtain ⟨t, _, _, h⟩ := Mgr.withTenant_ok h
  split at h
  · cases h; exact refl _
  · split at h
    · cases h; exact refl _
    · rw [Out.bind_eq_ok] at h
      obtain ⟨w1, h1, h⟩ := h
      split at h
      · cases h; exact addData h1
      · obtain ⟨w2, h2, h3⟩ := Out.map_eq_ok.1 h
        cases h3; exact (addData h1).trans (addData h2)

theorem principal {c : Nat} {p : Str} {m : Bool} {rs : List Str} {e : Option Err} {w w' : Mgr}
    (h : w.tAddPrincipal c p m rs = .ok (e, w')) : Frame w w' := by
  induction rs generalizing w with
  | nil => cases h; exact refl _
  | cons r rs ih =>
    rw [Mgr.tAddPrincipal, Out.bind_eq_ok] at h
    obtain ⟨⟨e1, w1⟩, h1, h⟩ := h
    split at h
    · cases h; exact principalWithRole h1
    · exact (principalWithRole h1).trans (ih h)

theorem assignScopes {c : Nat} {p : Str} {m : Bool} {rs : List Str} {e : Option Err} {w w' : Mgr}
    (h : w.tAssignScopes c p m rs = .ok (e, w')) : Frame w w' := by
  induction rs generalizing w with
  | nil => cases h; exact refl _
  | cons r rs ih =>
    rw [Mgr.tAssignScopes, Out.bind_eq_ok] at h
    obtain ⟨⟨e1, w1⟩, h1, h⟩ := h
    split at h
    · cases h; exact scopeToPrincipal h1
    · exact (scopeToPrincipal h1).trans (ih h)

theorem sameBut {w w' : Mgr} (h : Mgr.SameBut w w') : Frame w w' :=
  of_eq (fun k => by rw [h]; cases k <;> rfl) (by rw [h])

end Frame

theorem frame_of_noattempt {w w' : Mgr} {op : MOp} (inv : w.Inv) (h : op.apply w = .ok w')
    (hn : op.attempt w = none) (hnt : ∀ id, op ≠ .newTenant id) : Frame w w' := by
  cases op with
  | role op =>
    obtain ⟨h1, h2, rfl⟩ := Out.map_eq_ok.1 h
    exact .of_eq (fun k => by cases k <;> rfl) rfl
  | newTenant id => exact absurd rfl (hnt id)
  | addTenant a =>
    obtain ⟨⟨x, w1⟩, h2, rfl⟩ := Out.map_eq_ok.1 h
    unfold Mgr.addTenant at h2
    simp only [MOp.attempt, Option.map_eq_none_iff] at hn
    rw [hn] at h2; cases h2
  | addNamespace id obj => cases hn
  | addScope id obj => cases hn
  | addPrincipal id obj => cases hn
  | addRole r =>
    obtain ⟨⟨x, w1⟩, h2, rfl⟩ := Out.map_eq_ok.1 h
    unfold Mgr.addRole at h2
    simp only [MOp.attempt, Option.map_eq_none_iff] at hn
    rw [hn] at h2; cases h2
  | addAttribute a obj => cases hn
  | addAttributeGroup ga =>
    obtain ⟨⟨x, w1⟩, h2, rfl⟩ := Out.map_eq_ok.1 h
    unfold Mgr.addAttributeGroup at h2
    simp only [MOp.attempt, Option.map_eq_none_iff] at hn
    rw [hn] at h2; cases h2
  | addData d => exact .addData h
  | tAddNamespace c n => exact .viaTenant h
  | tAddScopesToNamespace c n s => exact .viaTenant h
  | tSetDefaultNamespace c n => exact .setDefault h
  | tAddPrincipalInNamespace c p n r => exact .viaTenant h
  | tAddRole c r => exact .viaTenant h
  | tAddScope c s => exact .viaTenant h
  | tAddDescendant c ds => exact .addDescendant h
  | tAddPrincipalWithRole c p r m =>
    obtain ⟨⟨x, w1⟩, h2, rfl⟩ := Out.map_eq_ok.1 h; exact .principalWithRole h2
  | tAddPrincipal c p m rs => obtain ⟨⟨x, w1⟩, h2, rfl⟩ := Out.map_eq_ok.1 h; exact .principal h2
  | tAddScopeToPrincipal c p s m =>
    obtain ⟨⟨x, w1⟩, h2, rfl⟩ := Out.map_eq_ok.1 h; exact .scopeToPrincipal h2
  | tAssignScopes c p m ss => obtain ⟨⟨x, w1⟩, h2, rfl⟩ := Out.map_eq_ok.1 h; exact .assignScopes h2
  | addPermissionsToRole r g as =>
    obtain ⟨⟨e, h1⟩, h2, rfl⟩ := Out.map_eq_ok.1 h
    exact .of_eq (fun k => by cases k <;> rfl) rfl
  | tenantChildren o fuel site id =>
    obtain ⟨⟨x, w1⟩, h2, rfl⟩ := Out.map_eq_ok.1 h
    have := (Mgr.tenantChildren_spec inv h2).2.1
    exact .of_eq (fun k => by simp only; rw [this]; cases k <;> rfl) (by simp only; rw [this])
  | implicitTenants o fuel site p =>
    obtain ⟨⟨x, w1⟩, h2, rfl⟩ := Out.map_eq_ok.1 h; exact .sameBut (Mgr.implicitTenants_inv inv h2).2.1
  | authorize o fuel site p opts =>
    obtain ⟨⟨x, w1⟩, h2, rfl⟩ := Out.map_eq_ok.1 h
    rcases Mgr.authorize_inv h2 with ⟨rfl, _⟩ | ⟨_, I, hI⟩
    · exact .refl _
    · exact .sameBut (Mgr.implicitTenants_inv inv hI).2.1

/-- Effect of one call on one registry. -/
theorem reg_step {w w' : Mgr} {op : MOp} (inv : w.Inv) (h : op.apply w = .ok w') (k : Kind) :
    w'.reg k = match op.attempt w with
      | some (k', id, obj) => if k' = k then (register (w.reg k) id obj).2 else w.reg k
      | none => w.reg k := by
  cases hn : op.attempt w with
  | none =>
    by_cases hnt : ∃ id, op = .newTenant id
    · obtain ⟨id, rfl⟩ := hnt; cases h; cases k <;> rfl
    · exact (frame_of_noattempt inv h hn (fun id e => hnt ⟨id, e⟩)).reg k
  | some a =>
    cases op with
    | addTenant a =>
      obtain ⟨⟨x, w1⟩, h2, rfl⟩ := Out.map_eq_ok.1 h
      unfold Mgr.addTenant at h2
      simp only [MOp.attempt] at hn
      cases ht : w.tobjs[a]? with
      | none => rw [ht] at hn; cases hn
      | some t => rw [ht] at hn h2; cases hn; cases h2; cases k <;> rfl
    | addNamespace id obj => cases hn; cases h; cases k <;> rfl
    | addScope id obj => cases hn; cases h; cases k <;> rfl
    | addPrincipal id obj => cases hn; cases h; cases k <;> rfl
    | addRole a =>
      obtain ⟨⟨x, w1⟩, h2, rfl⟩ := Out.map_eq_ok.1 h
      unfold Mgr.addRole at h2
      simp only [MOp.attempt] at hn
      cases ht : w.heap.roles[a]? with
      | none => rw [ht] at hn; cases hn
      | some t => rw [ht] at hn h2; cases hn; cases h2; cases k <;> rfl
    | addAttribute a obj =>
      cases hn; cases h
      cases k <;> simp [Mgr.reg, Mgr.addAttribute, RHeap.toStr_eq]
    | addAttributeGroup a =>
      obtain ⟨⟨x, w1⟩, h2, rfl⟩ := Out.map_eq_ok.1 h
      unfold Mgr.addAttributeGroup at h2
      simp only [MOp.attempt] at hn
      cases ht : w.heap.groups[a]? with
      | none => rw [ht] at hn; cases hn
      | some t => rw [ht] at hn h2; cases hn; cases h2; cases k <;> rfl
    | _ => cases hn

theorem Mgr.Inv.reg {w : Mgr} (inv : w.Inv) (k : Kind) : GoMap.WF (w.reg k) := by
  cases k
  · exact inv.regT
  · exact inv.regN
  · exact inv.regS
  · exact inv.regP
  · exact inv.regR
  · exact inv.regA
  · exact inv.regG

/-- The object first registered under `id` in registry `k`. -/
def firstObj (k : Kind) (id : Str) (l : List (Kind × Str × Nat)) : Option Nat :=
  (l.find? fun e => decide (e.1 = k) && decide (e.2.1 = id)).map (·.2.2)

theorem C22_run {ops : List MOp} {w w' : Mgr} (inv : w.Inv) (h : MOp.run w ops = .ok w') (k : Kind) (id : Str) :
    (w'.reg k).get id = match (w.reg k).get id with
      | some x => some x
      | none => firstObj k id (MOp.attempts w ops) := by
  induction ops generalizing w with
  | nil => cases h; cases (w'.reg k).get id <;> rfl
  | cons op ops ih =>
    rw [MOp.run, Out.bind_eq_ok] at h
    obtain ⟨w1, h1, h2⟩ := h
    rw [ih (MOp.apply_inv inv h1) h2, reg_step inv h1 k, MOp.attempts, h1]
    cases ha : op.attempt w with
    | none => simp
    | some a =>
      obtain ⟨k', id', obj⟩ := a
      simp only [Option.toList_some, List.singleton_append]
      by_cases hk : k' = k
      · subst hk
        simp only [if_true, Mgr.register_get]
        cases (w.reg k').get id with
        | some x => rfl
        | none =>
          simp only [firstObj, List.find?_cons, decide_true, Bool.true_and]
          by_cases hid : id' = id
          · subst hid; simp
          · have hid' : id ≠ id' := fun e => hid e.symm
            simp [hid, hid']
      · simp [hk, firstObj]

/-- C22. After any history of calls, looking an id up in any of the seven registries gives the object
of the first registration of that id (and nothing if there was none). -/
theorem C22_first_wins {ops : List MOp} {w : Mgr} (h : MOp.run {} ops = .ok w) (k : Kind) (id : Str) :
    (w.reg k).get id = firstObj k id (MOp.attempts {} ops) := by
  have e : ({} : Mgr).reg k = [] := by cases k <;> rfl
  rw [C22_run Mgr.Inv.empty h k id, e]; rfl

/-- C22. Every count equals the number of distinct ids registered. -/
theorem C22_count {ops : List MOp} {w : Mgr} (h : MOp.run {} ops = .ok w) (k : Kind) :
    (w.reg k).length = (((MOp.attempts {} ops).filter (fun e => e.1 = k)).map (fun e => e.2.1)).dedup.length := by
  have hwf := (MOp.reachable_inv h).reg k
  rw [← List.length_map (f := Prod.fst)]
  apply List.Perm.length_eq
  rw [List.perm_ext_iff_of_nodup hwf (List.nodup_dedup _)]
  intro id
  rw [← GoMap.get_isSome_iff, C22_first_wins h, List.mem_dedup, firstObj]
  simp only [Option.isSome_map, List.find?_isSome, List.mem_map, List.mem_filter, Bool.and_eq_true,
    decide_eq_true_eq]
  constructor
  · rintro ⟨e, he, rfl, rfl⟩; exact ⟨e, ⟨he, rfl⟩, rfl⟩
  · rintro ⟨e, ⟨he, rfl⟩, rfl⟩; exact ⟨e, he, rfl, rfl⟩

/-- C22. `Summary` reports those counts. -/
theorem C22_summary (w : Mgr) : w.summary = [(w.reg .tenant).length, (w.reg .namespace_).length,
    (w.reg .scope).length, (w.reg .principal).length, (w.reg .role).length, (w.reg .group).length,
    (w.reg .attribute).length] := rfl

/-- C22. A listing of a registry names every registered id exactly once, and nothing else. -/
theorem C22_lists {ops : List MOp} {w : Mgr} (h : MOp.run {} ops = .ok w) (k : Kind) (o : Ord) (site : List Val) :
    (Mgr.listIds o site (w.reg k)).Nodup ∧
    ∀ id, id ∈ Mgr.listIds o site (w.reg k) ↔ ∃ obj, (k, id, obj) ∈ MOp.attempts {} ops := by
  have hwf := (MOp.reachable_inv h).reg k
  have e : ∀ (l : List (Str × Nat)) (d : List Str), l.foldl (fun data e => data ++ [e.1]) d = d ++ l.map (·.1) := by
    intro l
    induction l with
    | nil => simp
    | cons e l ih => intro d; simp [ih]
  rw [show Mgr.listIds o site (w.reg k) = (o.ord site _ (w.reg k)).map (·.1) from e _ []]
  refine ⟨((o.perm site _ (w.reg k)).map _).nodup_iff.2 hwf, fun id => ?_⟩
  rw [((o.perm site _ (w.reg k)).map _).mem_iff, ← GoMap.get_isSome_iff, C22_first_wins h, firstObj]
  simp only [Option.isSome_map, List.find?_isSome, Bool.and_eq_true, decide_eq_true_eq]
  constructor
  · rintro ⟨⟨k', id', obj⟩, he, rfl, rfl⟩; exact ⟨obj, he⟩
  · rintro ⟨obj, he⟩; exact ⟨_, he, rfl, rfl⟩

/-- C22. The seven calls return the object that is stored after the call. -/
theorem C22_returns (w : Mgr) :
    (∀ a t x w', w.tobjs[a]? = some t → w.addTenant a = .ok (x, w') → w'.tenants.get t.id = some x) ∧
    (∀ id obj, (w.addNamespace id obj).2.namespaces.get id = some (w.addNamespace id obj).1) ∧
    (∀ id obj, (w.addScope id obj).2.scopes.get id = some (w.addScope id obj).1) ∧
    (∀ id obj, (w.addPrincipal id obj).2.principals.get id = some (w.addPrincipal id obj).1) ∧
    (∀ a r x w', w.heap.roles[a]? = some r → w.addRole a = .ok (x, w') → w'.roles.get r.id = some x) ∧
    (∀ (a : Attr) obj, (w.addAttribute a obj).2.attributes.get (a.resource ++ 32 :: a.action) = some (w.addAttribute a obj).1) ∧
    (∀ a g x w', w.heap.groups[a]? = some g → w.addAttributeGroup a = .ok (x, w') → w'.attrGroups.get g.id = some x) := by
  have key : ∀ (m : GoMap Str Nat) id obj, (register m id obj).2.get id = some (register m id obj).1 := by
    intro m id obj; unfold register; split
    · rename_i h; exact h
    · simp
  refine ⟨?_, fun id obj => key _ _ _, fun id obj => key _ _ _, fun id obj => key _ _ _, ?_, ?_, ?_⟩
  · intro a t x w' ha h
    unfold Mgr.addTenant at h; rw [ha] at h; cases h; exact key _ _ _
  · intro a t x w' ha h
    unfold Mgr.addRole at h; rw [ha] at h; cases h; exact key _ _ _
  · intro a obj; rw [← RHeap.toStr_eq]; exact key _ _ _
  · intro a t x w' ha h
    unfold Mgr.addAttributeGroup at h; rw [ha] at h; cases h; exact key _ _ _

/-- C22. No call forgets or replaces a registered id. -/
theorem C22_never_forgets {ops : List MOp} {w w' : Mgr} (inv : w.Inv) (h : MOp.run w ops = .ok w') {k : Kind}
    {id : Str} {x : Nat} (hx : (w.reg k).get id = some x) : (w'.reg k).get id = some x := by
  rw [C22_run inv h, hx]

/-- Two objects under one id: the first one wins, the count is one. -/
example : ∃ w, MOp.run {} [.addPrincipal (str "p") 1, .newTenant (str "t"), .newTenant (str "t"),
      .addPrincipal (str "p") 2, .addTenant 1, .addTenant 0] = .ok w ∧
    (w.principals.get (str "p") = some 1 ∧ w.tenants.get (str "t") = some 1 ∧
    w.summary = [1, 0, 0, 1, 0, 0, 0]) := Out.chk_ok (by decide +kernel)

/-! ## C23 -/

/-- C23. `Tenant.GetDescendants` lists exactly the ids reachable through one or more links. -/
theorem C23_descendants {w : Mgr} (inv : w.Inv) {o : Ord} {n : Nat} {site : List Val} {c : Nat} {ds : List Str}
    (h : w.descendants o n site c = .ok ds) (x : Str) : x ∈ ds ↔ BelowObj w.tobjs c x :=
  Mgr.descendants_mem inv h x

/-- C23. It returns (for every iteration order, given stack enough) iff no infinite chain of links
starts at the tenant; otherwise it returns for no order and no stack size. -/
theorem C23_returns_iff {w : Mgr} (inv : w.Inv) {c : Nat} (hlt : c < w.tobjs.length) :
    ((∃ n, ∀ m ≥ n, ∀ o site, ∃ ds, w.descendants o m site c = .ok ds) ↔ Acc (fun d c => TChild w.tobjs c d) c) ∧
    ((∃ o m site ds, w.descendants o m site c = .ok ds) ↔ Acc (fun d c => TChild w.tobjs c d) c) := by
  have fwd : ∀ {o m site ds}, w.descendants o m site c = .ok ds → Acc (fun d c => TChild w.tobjs c d) c :=
    fun h => Mgr.descendants_acc h
  refine ⟨⟨?_, fun h => Mgr.descendants_total inv h hlt⟩, ⟨?_, ?_⟩⟩
  · rintro ⟨n, hn⟩
    obtain ⟨ds, hd⟩ := hn n (Nat.le_refl n) .fwd []
    exact fwd hd
  · rintro ⟨o, m, site, ds, hd⟩; exact fwd hd
  · intro h
    obtain ⟨n, hn⟩ := Mgr.descendants_total inv h hlt
    obtain ⟨ds, hd⟩ := hn n (Nat.le_refl n) .fwd []
    exact ⟨_, _, _, _, hd⟩

theorem not_acc_tenant_cycle {ts : List TenantObj} {c : Nat} (hd : TDesc ts c c) :
    ¬ Acc (fun d c => TChild ts c d) c := by
  have trans : ∀ {a b c}, TDesc ts a b → TDesc ts b c → TDesc ts a c := by
    intro a b c h1 h2
    induction h1 with
    | child x => exact .step x h2
    | step x _ ih => exact .step x (ih h2)
  have key : ∀ a, Acc (fun d c => TChild ts c d) a → ∀ b, TDesc ts a b → TDesc ts b a → False := by
    intro a hacc
    induction hacc with
    | intro a _ ih =>
      intro b hab hba
      cases hab with
      | child hc => exact ih b hc a hba (.child hc)
      | step hc hcb => exact ih _ hc a (trans hcb hba) (.child hc)
  exact fun hacc => key c hacc c hd hd

/-- C23. A tenant below itself: `GetDescendants` never returns. -/
theorem C23_cycle {w : Mgr} {c : Nat} (hd : TDesc w.tobjs c c) (o : Ord) (n : Nat) (site : List Val) (ds : List Str) :
    w.descendants o n site c ≠ .ok ds := fun h => not_acc_tenant_cycle hd (Mgr.descendants_acc h)

/-- `AddDescendant` accepts such a cycle. -/
theorem C23_cycle_accepted : ∃ w, MOp.run {} [.newTenant (str "a"), .newTenant (str "b"),
      .tAddDescendant 0 [1], .tAddDescendant 1 [0]] = .ok w ∧ TDesc w.tobjs 0 0 := by
  obtain ⟨w, h, h0, h1⟩ := Out.chk_ok (x := MOp.run {} [.newTenant (str "a"), .newTenant (str "b"),
      .tAddDescendant 0 [1], .tAddDescendant 1 [0]])
    (P := fun w => (w.tobjs[0]?).map (·.desc) = some [(str "b", 1)] ∧ (w.tobjs[1]?).map (·.desc) = some [(str "a", 0)])
    (by decide +kernel)
  obtain ⟨t0, e0, h0⟩ := Option.map_eq_some_iff.1 h0
  obtain ⟨t1, e1, h1⟩ := Option.map_eq_some_iff.1 h1
  exact ⟨w, h, .step (m := 1) ⟨t0, str "b", e0, by rw [h0]; simp⟩ (.child ⟨t1, str "a", e1, by rw [h1]; simp⟩)⟩

/-- a > b > c, a > c. -/
example : ∃ w, MOp.run {} [.newTenant (str "a"), .newTenant (str "b"), .newTenant (str "c"),
      .tAddDescendant 0 [1, 2], .tAddDescendant 1 [2]] = .ok w ∧
    w.descendants .fwd 4 [] 0 = .ok [str "b", str "c", str "c"] := Out.chk_ok (by decide +kernel)

/-! ## C24 -/

/-- C24. A freshly computed `GetImplicitTenants(p)` contains every tenant in which `p` has a row, and
nothing but those tenants and the descendants of tenants that `p` manages. -/
theorem C24_implicit_sound {w w' : Mgr} (inv : w.Inv) {o : Ord} {fuel : Nat} {site : List Val} {p : Str} {I : List Str}
    (hfresh : w.pcache.get p = none) (h : w.implicitTenants o fuel site p = .ok (I, w')) :
    (∀ t, Member w p t → t ∈ I) ∧
    (∀ x ∈ I, Member w p x ∨ ∃ a, Manages w p a ∧ Under w a x) := by
  unfold Mgr.implicitTenants at h
  rw [hfresh] at h
  obtain ⟨⟨E, w1⟩, h1, h2⟩ := Out.map_eq_ok.1 h
  cases h2
  obtain ⟨_, _, _, a4, a5, _⟩ := Mgr.implicitLoop_spec inv h1
  constructor
  · rintro t ⟨row, r1, r2, r3⟩
    obtain ⟨t', e, ht'⟩ := a4 row ((Mgr.mem_rowsOf inv).2 ⟨r1, r2, by rw [r3]; simp⟩)
    rw [r3] at e; cases e; exact ht'
  · intro x hx
    rcases a5 x hx with hx | ⟨row, hr, t, ht, hor⟩
    · cases hx
    · obtain ⟨s1, s2, _⟩ := (Mgr.mem_rowsOf inv).1 hr
      rcases hor with rfl | ⟨hm, hu⟩
      · exact .inl ⟨row, s1, s2, ht⟩
      · exact .inr ⟨t, ⟨row, s1, s2, ht, hm⟩, hu⟩

/-- C24 for a cached answer: every tenant in it was granted by a row inserted at some time. -/
theorem C24_cached {w w' : Mgr} (inv : w.Inv) {o : Ord} {fuel : Nat} {site : List Val} {p : Str} {I : List Str}
    (h : w.implicitTenants o fuel site p = .ok (I, w')) :
    ∀ x ∈ I, ∃ row ∈ w.log, row.principal = .str p ∧
      ∃ t, row.tenant = .str t ∧ (x = t ∨ (row.manage = .bool true ∧ Under w t x)) := by
  obtain ⟨i, s, c, _⟩ := Mgr.implicitTenants_inv inv h
  intro x hx
  have := i.pc p I c x hx
  rw [s] at this
  obtain ⟨row, h1, h2, t, h3, h4⟩ := this
  exact ⟨row, h1, h2, t, h3, h4⟩

/-! ## C25 -/

/-- Tenant a with child b; principal p is in a twice, with and without ManageDescendants; namespace n
in b. -/
def exOrder : List MOp := [
  .newTenant (str "a"), .newTenant (str "b"), .addTenant 0, .addTenant 1, .tAddDescendant 0 [1],
  .addPrincipal (str "p") 0, .addNamespace (str "n") 0,
  .role (.newRole (str "r")), .role (.newRole (str "s")), .addRole 0, .addRole 1,
  .tAddPrincipalWithRole 0 (str "p") (str "r") false,
  .tAddPrincipalWithRole 0 (str "p") (str "s") true,
  .tAddNamespace 1 (str "n")]

/-- C25 as claimed: the descendants of a tenant that `p` manages are always included. -/
def C25_full : Prop := ∀ (ops : List MOp) (w w' : Mgr) (o : Ord) (fuel : Nat) (site : List Val) (p : Str) (I : List Str),
  MOp.run {} ops = .ok w → w.pcache.get p = none → w.implicitTenants o fuel site p = .ok (I, w') →
  ∀ a x, Manages w p a → Under w a x → x ∈ I

/-- C25 is violated: two iteration orders give different implicit tenants, and different answers of
`Authorize`, in the same state. -/
theorem C25_counterexample : ∃ w, MOp.run {} exOrder = .ok w ∧ w.pcache.get (str "p") = none ∧
    (w.implicitTenants .fwd 9 [] (str "p")).map (·.1) = .ok [str "a"] ∧
    (w.implicitTenants .rev 9 [] (str "p")).map (·.1) = .ok [str "a", str "b"] ∧
    (w.authorize .fwd 9 [] (str "p") [.tenant (.str (str "a")), .namespace_ (.str (str "n"))]).map (·.1) = .ok false ∧
    (w.authorize .rev 9 [] (str "p") [.tenant (.str (str "a")), .namespace_ (.str (str "n"))]).map (·.1) = .ok true := by
  exact Out.chk_ok (by decide +kernel)

theorem C25_full_false : ¬ C25_full := by
  intro hf
  obtain ⟨w, h1, h2, h3, _⟩ := C25_counterexample
  obtain ⟨⟨I, w'⟩, h4, h5⟩ := Out.map_eq_ok.1 h3
  have inv := MOp.reachable_inv h1
  have := hf exOrder w w' .fwd 9 [] (str "p") I h1 h2 h4 (str "a") (str "b") ?_ ?_
  · rw [show I = [str "a"] from h5] at this; revert this; decide
  · have hw : ∃ w, MOp.run {} exOrder = .ok w ∧ (⟨.str (str "a"), .nil, .nil, .str (str "p"), .str (str "s"), .bool true⟩ : Data)
        ∈ survivors (rowKey dataKeys) w.log := Out.chk_ok (by decide +kernel)
    obtain ⟨w2, e, hm⟩ := hw
    rw [h1] at e; cases e
    exact ⟨_, hm, rfl, rfl, rfl⟩
  · obtain ⟨w2, e, e1, e2, e3⟩ := Out.chk_ok (x := MOp.run {} exOrder)
      (P := fun w => w.tenants.get (str "a") = some 0 ∧ (w.tobjs[0]?).map (·.desc) = some [(str "b", 1)] ∧
        (w.tobjs[1]?).map (·.id) = some (str "b")) (by decide +kernel)
    rw [h1] at e; cases e
    obtain ⟨t0, a0, a1⟩ := Option.map_eq_some_iff.1 e2
    obtain ⟨t1, b0, b1⟩ := Option.map_eq_some_iff.1 e3
    exact ⟨0, e1, 1, t1, .child ⟨t0, str "b", a0, by rw [a1]; simp⟩, b0, b1⟩

/-- The rows of `p` agree on ManageDescendants within each tenant. -/
def Uniform (w : Mgr) (p : Str) : Prop :=
  ∀ t, Manages w p t → ∀ row, Stored w row → row.principal = .str p → row.tenant = .str t → row.manage = .bool true

/-- Every linked tenant object is the registered one. -/
def LinksRegistered (w : Mgr) : Prop := ∀ t ∈ w.tobjs, ∀ e ∈ t.desc, w.tenants.get e.1 = some e.2

theorem under_trans {w : Mgr} (inv : w.Inv) (hl : LinksRegistered w) {a b x : Str} (h1 : Under w a b)
    (h2 : Under w b x) : Under w a x := by
  obtain ⟨c, hc, d, t, hd, ht, hid⟩ := h1
  obtain ⟨c2, hc2, d2, t2, hd2, ht2, hid2⟩ := h2
  have last : ∀ {c d}, TDesc w.tobjs c d → ∀ t, w.tobjs[d]? = some t → w.tenants.get t.id = some d := by
    intro c d h
    induction h with
    | child hc =>
      obtain ⟨t', k, h1, h2⟩ := hc
      intro t ht
      have hr := hl t' (List.mem_of_getElem? h1) _ h2
      obtain ⟨t3, h3, h4⟩ := inv.desc t' (List.mem_of_getElem? h1) _ h2
      simp only at h3 h4 hr
      rw [ht] at h3; cases h3
      rw [h4]; exact hr
    | step _ _ ih => exact ih
  have := last hd t ht
  rw [hid, hc2] at this
  cases this
  exact ⟨c, hc, d2, t2, Mgr.tdesc_trans (w := w) hd hd2, ht2, hid2⟩

/-- Every member of `E` is either a fully expanded managed tenant's subtree member or an unmanaged own
tenant. -/
def Closed (w : Mgr) (p : Str) (E : List Str) : Prop :=
  ∀ y ∈ E, (∃ a, Manages w p a ∧ (y = a ∨ Under w a y) ∧ ∀ x, Under w a x → x ∈ E) ∨
    ∃ row, Stored w row ∧ row.principal = .str p ∧ row.tenant = .str y ∧ row.manage ≠ .bool true

theorem implicitLoop_complete {o : Ord} {fuel : Nat} {site : List Val} {p : Str} {w0 : Mgr} (inv0 : w0.Inv)
    (hu : Uniform w0 p) (hl : LinksRegistered w0) {rows : List Data}
    (hrows : ∀ row ∈ rows, Stored w0 row ∧ row.principal = .str p)
    {i : Nat} {E E' : List Str} {w w' : Mgr} (hw : w = { w0 with hierarchy := w.hierarchy }) (inv : w.Inv)
    (hf : Mgr.HierFresh w) (hE : Closed w0 p E)
    (h : Mgr.implicitLoop o fuel site i rows E w = .ok (E', w')) :
    ∀ row ∈ rows, row.manage = .bool true → ∀ t, row.tenant = .str t → ∀ x, Under w0 t x → x ∈ E' := by
  have hund : ∀ {w : Mgr}, w = { w0 with hierarchy := w.hierarchy } → ∀ {a x}, Under w a x ↔ Under w0 a x := by
    intro w hw a x; rw [hw]; exact Mgr.under_hier
  induction rows generalizing i E w with
  | nil => simp
  | cons row rows ih =>
    obtain ⟨s1, s2⟩ := hrows row (by simp)
    have hrows' : ∀ r ∈ rows, Stored w0 r ∧ r.principal = .str p := fun r hr => hrows r (by simp [hr])
    have hh := h
    rw [Mgr.implicitLoop] at h
    split at h
    · rename_i t ht
      split at h
      · rename_i hEt
        have mono := (Mgr.implicitLoop_spec inv h).2.2.1
        intro r hr hm t' ht' x hx
        rcases List.mem_cons.1 hr with rfl | hr
        · rw [ht] at ht'; cases ht'
          rcases hE t hEt with ⟨a, ha, hy, hall⟩ | ⟨r2, b1, b2, b3, b4⟩
          · rcases hy with rfl | hy
            · exact mono x (hall x hx)
            · exact mono x (hall x (under_trans inv0 hl hy hx))
          · exact absurd (hu t ⟨_, s1, s2, ht, hm⟩ r2 b1 b2 b3) b4
        · exact ih hrows' hw inv hf hE h r hr hm t' ht' x hx
      · split at h
        · rename_i hEt hm
          rw [Out.bind_eq_ok] at h
          obtain ⟨⟨l, w1⟩, h1, h⟩ := h
          rw [Out.bind_eq_ok] at h
          obtain ⟨E1, h2, h⟩ := h
          obtain ⟨c1, c2, c3, c4, c5, c6, c7⟩ := Mgr.tenantChildren_spec inv h1
          have hstr : ∀ v ∈ l, ∃ x, v = .str x := fun v hv => (c3 v hv).imp fun x h => h.1
          have d := Mgr.addDescs_spec hstr h2
          have hcomp : ∀ x, Under w t x → .str x ∈ l := by
            intro x hx
            cases hg : w.hierarchy.get t with
            | none => exact c4 hg x hx
            | some l2 => obtain ⟨e, _⟩ := c7 l2 hg; rw [e]; exact hf t l2 hg x hx
          have hw1 : w1 = { w0 with hierarchy := w1.hierarchy } := by rw [c2]; rw [hw]
          have hf1 : Mgr.HierFresh w1 := by
            intro a l' hl' x hx
            have hx : Under w a x := (hund hw).2 ((hund hw1).1 hx)
            by_cases ha : a = t
            · subst ha; rw [c6 l' hl']; exact hcomp x hx
            · rw [c5 a ha] at hl'; exact hf a l' hl' x hx
          have hman : Manages w0 p t := ⟨row, s1, s2, ht, hm⟩
          have hall : ∀ x, Under w0 t x → x ∈ E1 := fun x hx => (d x).2 (.inr (hcomp x ((hund hw).2 hx)))
          have hE1 : Closed w0 p E1 := by
            intro y hy
            rcases (d y).1 hy with hy | hy
            · rcases List.mem_append.1 hy with hy | hy
              · refine (hE y hy).imp ?_ id
                rintro ⟨a, b1, b2, b3⟩
                exact ⟨a, b1, b2, fun x hx => (d x).2 (.inl (by simp [b3 x hx]))⟩
              · exact .inl ⟨t, hman, .inl (List.mem_singleton.1 hy), hall⟩
            · obtain ⟨z, e, hz⟩ := c3 _ hy
              cases e
              exact .inl ⟨t, hman, .inr ((hund hw).1 hz), hall⟩
          have mono := (Mgr.implicitLoop_spec c1 h).2.2.1
          intro r hr hm' t' ht' x hx
          rcases List.mem_cons.1 hr with rfl | hr
          · rw [ht] at ht'; cases ht'; exact mono x (hall x hx)
          · exact ih hrows' hw1 c1 hf1 hE1 h r hr hm' t' ht' x hx
        · rename_i hEt hm
          have hE1 : Closed w0 p (E ++ [t]) := by
            intro y hy
            rcases List.mem_append.1 hy with hy | hy
            · refine (hE y hy).imp ?_ id
              rintro ⟨a, b1, b2, b3⟩
              exact ⟨a, b1, b2, fun x hx => by simp [b3 x hx]⟩
            · rw [List.mem_singleton.1 hy]; exact .inr ⟨row, s1, s2, ht, hm⟩
          intro r hr hm' t' ht' x hx
          rcases List.mem_cons.1 hr with rfl | hr
          · exact absurd hm' hm
          · exact ih hrows' hw inv hf hE1 h r hr hm' t' ht' x hx
    · cases h

/-- C25, partial: when the rows of `p` agree on ManageDescendants within each tenant, every linked
tenant object is the registered one and no cached list is stale, the answer is exactly: own tenants
and the descendants of managed ones, whatever the iteration order.
Missing: mixed flags (false, see `C25_counterexample`), stale caches, duplicate tenant objects. -/
theorem C25_implicit_exact_partial {w w' : Mgr} (inv : w.Inv) {o : Ord} {fuel : Nat} {site : List Val} {p : Str}
    {I : List Str} (hu : Uniform w p) (hl : LinksRegistered w) (hf : Mgr.HierFresh w)
    (hfresh : w.pcache.get p = none) (h : w.implicitTenants o fuel site p = .ok (I, w')) (x : Str) :
    x ∈ I ↔ Member w p x ∨ ∃ a, Manages w p a ∧ Under w a x := by
  obtain ⟨h1, h2⟩ := C24_implicit_sound inv hfresh h
  refine ⟨h2 x, ?_⟩
  rintro (hm | ⟨a, ⟨row, r1, r2, r3, r4⟩, hx⟩)
  · exact h1 x hm
  · unfold Mgr.implicitTenants at h
    rw [hfresh] at h
    obtain ⟨⟨E, w1⟩, h3, h4⟩ := Out.map_eq_ok.1 h
    cases h4
    exact implicitLoop_complete inv hu hl
      (fun r hr => ⟨((Mgr.mem_rowsOf inv).1 hr).1, ((Mgr.mem_rowsOf inv).1 hr).2.1⟩)
      rfl inv hf (by intro y hy; cases hy) h3 row ((Mgr.mem_rowsOf inv).2 ⟨r1, r2, by rw [r3]; simp⟩) r4 a r3 x hx

/-! ## C26 - C28: decisions -/

/-- `Stored`, registries and roles are not touched by the caches. -/
theorem decides_same {w w' : Mgr} (h : Mgr.SameBut w w') {p : Str} {c : Val} {r : Request} :
    Decides w' p c r ↔ Decides w p c r := by rw [h]; exact Iff.rfl

theorem resources_same {w w' : Mgr} (h : Mgr.SameBut w w') {r : Request} : Resources w' r ↔ Resources w r := by
  rw [h]; exact Iff.rfl

/-- The request built from the options: the last option of each kind counts. -/
def requestOf (opts : List Opt) : Request := opts.foldl Opt.apply {}

/-- C26, C27, C28. The exact decision of `Authorize`, whenever it returns. `I` is the set of implicit
tenants that `GetImplicitTenants(p)` returns before, during and after the call (it is cached). -/
theorem authorize_exact {w w' : Mgr} (inv : w.Inv) {o : Ord} {fuel : Nat} {site : List Val} {p : Str}
    {opts : List Opt} {b : Bool} (h : w.authorize o fuel site p opts = .ok (b, w')) :
    b = true ↔ (∃ x, (p, x) ∈ w.principals) ∧ ∃ I, w'.pcache.get p = some I ∧ I ≠ [] ∧
      Resources w (requestOf opts) ∧
      ∃ c, (c = (requestOf opts).tenant ∨ ∃ t ∈ I, c = .str t) ∧ Decides w p c (requestOf opts) := by
  unfold Mgr.authorize at h
  split at h
  · rename_i hn
    cases h
    simp only [Bool.false_eq_true, false_iff, not_and]
    rintro ⟨x, hx⟩
    rw [(GoMap.mem_iff_get inv.regP).1 hx] at hn; cases hn
  · rename_i hn
    simp only [Out.bind_eq_ok] at h
    obtain ⟨⟨I, w1⟩, h1, h⟩ := h
    obtain ⟨i1, s1, c1, _, _⟩ := Mgr.implicitTenants_inv inv h1
    have hp : ∃ x, (p, x) ∈ w.principals := by
      cases hg : w.principals.get p with
      | none => rw [hg] at hn; simp at hn
      | some x => exact ⟨x, GoMap.get_some_mem hg⟩
    have hw : w' = w1 := by
      rcases Mgr.authorize_inv (w := w) (o := o) (fuel := fuel) (site := site) (p := p) (opts := opts)
        (b := b) (w' := w') (by unfold Mgr.authorize; rw [if_neg hn]; simp only [Out.bind_eq_ok]; exact ⟨_, h1, h⟩)
        with ⟨_, _, e⟩ | ⟨_, J, hJ⟩
      · rw [e] at hn; simp at hn
      · rw [h1] at hJ; cases hJ; rfl
    rw [hw, c1]
    simp only [hp, true_and, Option.some.injEq, exists_eq_left']
    change _ ↔ I ≠ [] ∧ Resources w (List.foldl Opt.apply {} opts) ∧
      ∃ c, (c = (List.foldl Opt.apply {} opts).tenant ∨ ∃ t ∈ I, c = .str t) ∧ Decides w p c (List.foldl Opt.apply {} opts)
    generalize List.foldl Opt.apply {} opts = r at h ⊢
    split at h
    · rename_i hl
      cases h
      have hl' : I = [] := List.length_eq_zero_iff.1 hl
      simp [hl']
    · rename_i hl
      have hI : I ≠ [] := fun e => hl (by rw [e]; rfl)
      rw [Out.bind_eq_ok] at h
      obtain ⟨v, hv, h⟩ := h
      have sv := Mgr.validateResources_spec i1 hv
      rw [resources_same s1] at sv
      cases v with
      | false =>
        cases h
        simp only [Bool.false_eq_true, false_iff] at sv ⊢
        exact fun hx => sv hx.2.1
      | true =>
        have hres := sv.1 rfl
        simp only [Bool.not_true, Bool.false_eq_true, if_false, Out.bind_eq_ok] at h
        obtain ⟨b1, hb1, h⟩ := h
        have hc1 : r.tenant ≠ .nil ∨ r.tenant = .nil := (Classical.em _).symm
        have sb := Mgr.check_spec i1 (r := r) (c := r.tenant) hc1 hb1
        rw [decides_same s1] at sb
        cases b1 with
        | true =>
          cases h
          simp only [true_iff]
          exact ⟨hI, hres, r.tenant, .inl rfl, sb.1 rfl⟩
        | false =>
          simp only [Bool.false_eq_true, if_false] at h
          obtain ⟨b2, hb2, h⟩ := Out.map_eq_ok.1 h
          cases h
          have hno : ¬ Decides w p r.tenant r := fun hx => absurd (sb.2 hx) (by simp)
          have sf := Mgr.fallback_spec i1 (r := r) (c := r.tenant) (fun t ht hx => hno ((decides_same s1).1 hx)) hb2
          rw [sf]
          simp only [Ord.mem_ord]
          constructor
          · rintro ⟨t, ht, hd⟩; exact ⟨hI, hres, .str t, .inr ⟨t, ht, rfl⟩, (decides_same s1).1 hd⟩
          · rintro ⟨_, _, c, hc | ⟨t, ht, rfl⟩, hd⟩
            · exact absurd (hc ▸ hd) hno
            · exact ⟨t, ht, (decides_same s1).2 hd⟩

/-- C26. An unregistered principal is denied (and the call returns). -/
theorem C26_unknown_principal {w : Mgr} {p : Str} (hp : ∀ x, (p, x) ∉ w.principals) (o : Ord) (fuel : Nat)
    (site : List Val) (opts : List Opt) : w.authorize o fuel site p opts = .ok (false, w) := by
  have : w.principals.get p = none := by
    cases h : w.principals.get p with
    | none => rfl
    | some x => exact absurd (GoMap.get_some_mem h) (hp x)
  unfold Mgr.authorize; rw [this]; rfl

/-- C26. A granted request names registered resources only, and the principal is registered and has
been given a tenant at some time. -/
theorem C26_denies_unknown {w w' : Mgr} (inv : w.Inv) {o : Ord} {fuel : Nat} {site : List Val} {p : Str}
    {opts : List Opt} (h : w.authorize o fuel site p opts = .ok (true, w')) :
    (∃ x, (p, x) ∈ w.principals) ∧ Resources w (requestOf opts) ∧
    (∃ row ∈ w.log, row.principal = .str p ∧ ∃ t, row.tenant = .str t) := by
  obtain ⟨hp, I, hI, hne, hres, _⟩ := (authorize_exact inv h).1 rfl
  refine ⟨hp, hres, ?_⟩
  rcases Mgr.authorize_inv h with ⟨_, e, _⟩ | ⟨_, J, hJ⟩
  · cases e
  · obtain ⟨_, _, c, _⟩ := Mgr.implicitTenants_inv inv hJ
    rw [hI] at c; cases c
    obtain ⟨x, hx⟩ := List.exists_mem_of_ne_nil I hne
    obtain ⟨row, h1, h2, t, h3, _⟩ := C24_cached inv hJ x hx
    exact ⟨row, h1, h2, t, h3⟩

/-- C26. If nothing is cached for the principal, a granted request implies a row stored now. -/
theorem C26_no_tenant {w w' : Mgr} (inv : w.Inv) {o : Ord} {fuel : Nat} {site : List Val} {p : Str}
    {opts : List Opt} (hfresh : w.pcache.get p = none) (h : w.authorize o fuel site p opts = .ok (true, w')) :
    ∃ t, Member w p t := by
  obtain ⟨hp, I, hI, hne, hres, _⟩ := (authorize_exact inv h).1 rfl
  rcases Mgr.authorize_inv h with ⟨_, e, _⟩ | ⟨_, J, hJ⟩
  · cases e
  · obtain ⟨_, _, c, _⟩ := Mgr.implicitTenants_inv inv hJ
    rw [hI] at c; cases c
    obtain ⟨x, hx⟩ := List.exists_mem_of_ne_nil I hne
    rcases (C24_implicit_sound inv hfresh hJ).2 x hx with h | ⟨a, ⟨row, h1, h2, h3, _⟩, _⟩
    · exact ⟨x, h⟩
    · exact ⟨a, row, h1, h2, h3⟩

/-- C27. Exact decision of a request without a complete (group, activity) pair. -/
theorem C27_no_activity {w w' : Mgr} (inv : w.Inv) {o : Ord} {fuel : Nat} {site : List Val} {p : Str}
    {opts : List Opt} {b : Bool} (hact : (requestOf opts).group = .nil ∨ (requestOf opts).activity = .nil)
    (h : w.authorize o fuel site p opts = .ok (b, w')) :
    b = true ↔ (∃ x, (p, x) ∈ w.principals) ∧ ∃ I, w'.pcache.get p = some I ∧ I ≠ [] ∧
      Resources w (requestOf opts) ∧
      ∃ c, (c = (requestOf opts).tenant ∨ ∃ t ∈ I, c = .str t) ∧ Grants w p c (requestOf opts) := by
  rw [authorize_exact inv h]
  have : ∀ c, Decides w p c (requestOf opts) ↔ Grants w p c (requestOf opts) := by
    intro c
    unfold Decides HasActivity
    constructor
    · rintro (⟨_, h⟩ | ⟨g, a, h1, h2, _⟩)
      · exact h
      · rw [h1, h2] at hact; simp at hact
    · intro h
      refine .inl ⟨?_, h⟩
      rintro ⟨h1, h2⟩
      rcases hact with h | h
      · exact h1 h
      · exact h2 h
  simp only [this]

/-- C28. Exact decision of a request with group and activity. -/
theorem C28_activity {w w' : Mgr} (inv : w.Inv) {o : Ord} {fuel : Nat} {site : List Val} {p : Str}
    {opts : List Opt} {b : Bool} (hact : HasActivity (requestOf opts))
    (h : w.authorize o fuel site p opts = .ok (b, w')) :
    b = true ↔ (∃ x, (p, x) ∈ w.principals) ∧ ∃ I, w'.pcache.get p = some I ∧ I ≠ [] ∧
      Resources w (requestOf opts) ∧
      ∃ c, (c = (requestOf opts).tenant ∨ ∃ t ∈ I, c = .str t) ∧
        ∃ g act, (requestOf opts).group = .str g ∧ (requestOf opts).activity = .str act ∧
          ActGrants w p c (requestOf opts) g act := by
  rw [authorize_exact inv h]
  have : ∀ c, Decides w p c (requestOf opts) ↔ ∃ g act, (requestOf opts).group = .str g ∧
      (requestOf opts).activity = .str act ∧ ActGrants w p c (requestOf opts) g act := by
    intro c
    unfold Decides
    constructor
    · rintro (⟨h, _⟩ | h)
      · exact absurd hact h
      · exact h
    · exact .inr
  simp only [this]

/-! ### Concrete cases -/

/-- Tenant a > b; p has role r in a with ManageDescendants; q is registered without a row; namespace n
and scope s in b; role r grants "GET /x" in group g. -/
def exWorld : List MOp := [
  .newTenant (str "a"), .newTenant (str "b"), .newTenant (str "z"), .addTenant 0, .addTenant 1, .addTenant 2,
  .tAddDescendant 0 [1], .addPrincipal (str "p") 0, .addPrincipal (str "q") 1,
  .addNamespace (str "n") 0, .addScope (str "s") 0,
  .role (.newRole (str "r")), .addRole 0,
  .role (.addPerm 0 (str "g") [⟨str "/x", str "GET"⟩]),
  .tAddPrincipalWithRole 0 (str "p") (str "r") true,
  .tAddScopesToNamespace 1 (str "n") (str "s")]

/-- C24: own tenant and managed descendant, not the unrelated tenant z. -/
example : ∃ w, MOp.run {} exWorld = .ok w ∧ (w.pcache.get (str "p") = none ∧
    (w.implicitTenants .fwd 9 [] (str "p")).map (·.1) = .ok [str "a", str "b"]) :=
  Out.chk_ok (by decide +kernel)

/-- C26 - C28: granted and denied requests in that state. -/
example : ∃ w, MOp.run {} exWorld = .ok w ∧
    ((w.authorize .fwd 9 [] (str "p") [.tenant (.str (str "a"))]).map (·.1) = .ok true ∧
     (w.authorize .fwd 9 [] (str "p") [.tenant (.str (str "b")), .namespace_ (.str (str "n")), .scope (.str (str "s"))]).map (·.1) = .ok true ∧
     (w.authorize .fwd 9 [] (str "p") [.tenant (.str (str "b")), .namespace_ (.str (str "n"))]).map (·.1) = .ok true ∧
     (w.authorize .fwd 9 [] (str "p") [.namespace_ (.str (str "n")), .scope (.str (str "s"))]).map (·.1) = .ok false ∧
     (w.authorize .fwd 9 [] (str "q") [.tenant (.str (str "a"))]).map (·.1) = .ok false ∧
     (w.authorize .fwd 9 [] (str "x") [.tenant (.str (str "a"))]).map (·.1) = .ok false ∧
     (w.authorize .fwd 9 [] (str "p") [.tenant (.str (str "y"))]).map (·.1) = .ok false ∧
     (w.authorize .fwd 9 [] (str "p") [.tenant (.str (str "a")), .namespace_ (.str (str "n")),
        .group (.str (str "g")), .activity (.str (str "/x GET"))]).map (·.1) = .ok true ∧
     (w.authorize .fwd 9 [] (str "p") [.tenant (.str (str "a")), .namespace_ (.str (str "n")),
        .group (.str (str "g")), .activity (.str (str "/x PUT"))]).map (·.1) = .ok false) :=
  Out.chk_ok (by decide +kernel)

/-- C25: the hypotheses of the partial theorem hold in that state. -/
example : ∃ w, MOp.run {} exWorld = .ok w ∧ Uniform w (str "p") ∧ LinksRegistered w ∧ Mgr.HierFresh w ∧
    w.pcache.get (str "p") = none ∧ Manages w (str "p") (str "a") := by
  obtain ⟨w, h, h1, h2, h3, h4, h5⟩ := Out.chk_ok (x := MOp.run {} exWorld)
    (P := fun w => (∀ row ∈ survivors (rowKey dataKeys) w.log, row.principal = .str (str "p") → row.manage = .bool true) ∧
      (∀ t ∈ w.tobjs, ∀ e ∈ t.desc, w.tenants.get e.1 = some e.2) ∧ w.hierarchy = [] ∧
      w.pcache.get (str "p") = none ∧
      (⟨.str (str "a"), .nil, .nil, .str (str "p"), .str (str "r"), .bool true⟩ : Data) ∈ survivors (rowKey dataKeys) w.log)
    (by decide +kernel)
  refine ⟨w, h, fun t _ row a b _ => h1 row a b, h2, ?_, h4, _, h5, rfl, rfl, rfl⟩
  intro a l hl
  rw [h3] at hl; cases hl

end Verif
