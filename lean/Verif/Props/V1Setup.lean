import Verif.Props.V1Assign
import Verif.Props.RoleOps

/-!
# C70, C71: setting up package v1 (v1/role_manager.go:57-258, v1/tenant.go:32-105, 195-205)
-/

namespace Verif
open Spec

/-! ## C70: registries -/

/-- Content of a registry. -/
def V1.reg (w : V1) : Kind → GoMap Str Nat
  | .tenant => w.tenants
  | .namespace_ => w.namespaces
  | .scope => w.scopes
  | .principal => w.principals
  | .role => w.roles
  | .attribute => w.attrs
  | .group => w.attrGroups

/-- A registration attempt: registry, id and object. -/
def V1Op.attempt (w : V1) : V1Op → Option (Kind × Str × Nat)
  | .addTenant a => (w.tobjs[a]?).map fun t => (.tenant, t.id, a)
  | .addNamespace a => (w.nsobjs[a]?).map fun n => (.namespace_, n.id, a)
  | .addScope id obj => some (.scope, id, obj)
  | .addPrincipal id obj => some (.principal, id, obj)
  | .addRole r => (w.heap.roles[r]?).map fun ro => (.role, ro.id, r)
  | .addAttribute a obj => some (.attribute, a.resource ++ 32 :: a.action, obj)
  | .addAttributeGroup ga => (w.heap.groups[ga]?).map fun g => (.group, g.id, ga)
  | _ => none

/-- All registration attempts of a history, oldest first. -/
def V1Op.attempts (w : V1) : List V1Op → List (Kind × Str × Nat)
  | [] => []
  | op :: ops => (op.attempt w).toList ++
    match op.apply w with
    | .ok w' => V1Op.attempts w' ops
    | _ => []

namespace V1
variable {w w' : V1} {o : Ord}

/-- No registry changed. -/
def SameReg (w w' : V1) : Prop := ∀ k, w'.reg k = w.reg k

theorem SameReg.refl (w : V1) : SameReg w w := fun _ => rfl

theorem SameReg.trans {a b c : V1} (h1 : SameReg a b) (h2 : SameReg b c) : SameReg a c :=
  fun k => (h2 k).trans (h1 k)

theorem SameReg.loop {α : Type} {f : V1 → α → Out V1} {xs : List α}
    (hf : ∀ w w' x, f w x = .ok w' → SameReg w w') (h : Out.loop f w xs = .ok w') : SameReg w w' :=
  Out.loop_inv (P := fun s => SameReg w s) (fun s s' x _ p h => p.trans (hf s s' x h)) (.refl _) h

theorem SameReg.setT (w : V1) (c : Nat) (t : T1Obj) : SameReg w (w.setT c t) := fun k => by cases k <;> rfl

theorem SameReg.setNs (w : V1) (c : Nat) (n : NsObj) : SameReg w (w.setNs c n) := fun k => by cases k <;> rfl

theorem SameReg.stores (w : V1) (L : List TP) : SameReg w (w.stores L) := fun k => by
  rw [stores_frame]; cases k <;> rfl

theorem SameReg.addPrincipalRole {p r : Str} {c : Nat} {ns : Option Nat} {sc : Option Str} {m : List Bool}
    (h : w.addPrincipalRole p r c ns sc m = .ok w') : SameReg w w' := by
  unfold V1.addPrincipalRole at h
  split at h
  · cases h
  · obtain ⟨n, _, rfl⟩ := Out.map_eq_ok.1 h
    exact fun k => by cases k <;> rfl

theorem SameReg.tAddPrincipalRole {c d : Nat} {p r : Str} {ns : Option Nat} {sc : Option Str} {m : List Bool}
    (h : w.tAddPrincipalRole c p r d ns sc m = .ok w') : SameReg w w' := by
  obtain ⟨t, _, h⟩ := withT_eq_ok.1 h
  split at h
  · exact .addPrincipalRole h
  · cases h

theorem SameReg.tAddScopesToNamespace {c : Nat} {n : Str} {ss : List Str}
    (h : w.tAddScopesToNamespace c n ss = .ok w') : SameReg w w' := by
  induction ss generalizing w with
  | nil => cases h; exact .refl _
  | cons s ss ih =>
    obtain ⟨t, ht, h⟩ := withT_eq_ok.1 h
    split at h
    · cases h; exact .refl _
    · split at h
      · exact ih h
      · split at h
        · cases h
        · obtain ⟨w1, h1, h2⟩ := Out.bind_eq_ok.1 h
          exact ((SameReg.setNs _ _ _).trans (.tAddPrincipalRole h1)).trans (ih h2)

theorem SameReg.tAddRolesToNamespace {c : Nat} {n : Str} {ss : List Str}
    (h : w.tAddRolesToNamespace c n ss = .ok w') : SameReg w w' := by
  induction ss generalizing w with
  | nil => cases h; exact .refl _
  | cons s ss ih =>
    obtain ⟨t, ht, h⟩ := withT_eq_ok.1 h
    split at h
    · cases h; exact .refl _
    · split at h
      · cases h; exact .refl _
      · split at h
        · cases h
        · exact (SameReg.setNs _ _ _).trans (ih h)

theorem sameReg_of_noattempt {op : V1Op} (inv : Inv w) (h : op.apply w = .ok w')
    (hn : op.attempt w = none) : SameReg w w' := by
  cases op with
  | role op => obtain ⟨h1, h2, rfl⟩ := Out.map_eq_ok.1 h; exact fun k => by cases k <;> rfl
  | newTenant id => cases h; exact fun k => by cases k <;> rfl
  | newNamespace id => cases h; exact fun k => by cases k <;> rfl
  | addTenant a =>
    obtain ⟨⟨x, w1⟩, h2, rfl⟩ := Out.map_eq_ok.1 h
    unfold V1.addTenant at h2
    simp only [V1Op.attempt, Option.map_eq_none_iff] at hn
    rw [hn] at h2; cases h2
  | addNamespace a =>
    obtain ⟨⟨x, w1⟩, h2, rfl⟩ := Out.map_eq_ok.1 h
    unfold V1.addNamespace at h2
    simp only [V1Op.attempt, Option.map_eq_none_iff] at hn
    rw [hn] at h2; cases h2
  | addScope id obj => cases hn
  | addPrincipal id obj => cases hn
  | addRole r =>
    obtain ⟨⟨x, w1⟩, h2, rfl⟩ := Out.map_eq_ok.1 h
    unfold V1.addRole at h2
    simp only [V1Op.attempt, Option.map_eq_none_iff] at hn
    rw [hn] at h2; cases h2
  | addAttribute a obj => cases hn
  | addAttributeGroup ga =>
    obtain ⟨⟨x, w1⟩, h2, rfl⟩ := Out.map_eq_ok.1 h
    unfold V1.addAttributeGroup at h2
    simp only [V1Op.attempt, Option.map_eq_none_iff] at hn
    rw [hn] at h2; cases h2
  | addPermissionsToRole r g as => obtain ⟨⟨e, h1⟩, h2, rfl⟩ := Out.map_eq_ok.1 h; exact fun k => by cases k <;> rfl
  | addPrincipalRole p r c ns sc m => exact .addPrincipalRole h
  | tAddDescendent c ds =>
    refine .loop (fun w w' d h => ?_) h
    obtain ⟨t, _, h⟩ := withT_eq_ok.1 h
    obtain ⟨dt, _, h⟩ := withT_eq_ok.1 h
    cases h; exact .setT _ _ _
  | tSetDefaultNamespace c n =>
    obtain ⟨t, _, h⟩ := withT_eq_ok.1 h
    split at h
    · cases h; exact .setT _ _ _
    · cases h; exact .refl _
  | tAddNamespace c ns =>
    refine .loop (fun w w' d h => ?_) h
    obtain ⟨t, _, h⟩ := withT_eq_ok.1 h
    split at h
    · cases h
    · cases h; exact .setT _ _ _
  | tAddRole c rs =>
    refine .loop (fun w w' d h => ?_) h
    obtain ⟨t, _, h⟩ := withT_eq_ok.1 h
    split at h
    · cases h
    · cases h; exact .setT _ _ _
  | tAddScopes c ss =>
    refine .loop (fun w w' d h => ?_) h
    obtain ⟨t, _, h⟩ := withT_eq_ok.1 h
    simp only at h
    split at h
    · cases h; exact .setT _ _ _
    · split at h
      · cases h
      · cases h; exact (SameReg.setT _ _ _).trans (.setNs _ _ _)
  | tAddScopesToNamespace c n ss => exact .tAddScopesToNamespace h
  | tAddRolesToNamespace c n rs => exact .tAddRolesToNamespace h
  | tAddPrincipalRole c p r d ns sc m => exact .tAddPrincipalRole h
  | tAddPrincipal c p rs =>
    obtain ⟨t, ht⟩ := tobj_of_withT h
    rw [tAddPrincipal_eq ht h]; exact .stores _ _
  | tAddPrincipalInNamespace o site c p n rs =>
    obtain ⟨t, ht⟩ := tobj_of_withT h
    rcases tAddPrincipalInNamespace_eq inv ht h with ⟨_, rfl⟩ | ⟨_, _, rfl⟩ | ⟨_, _, l, _, rfl⟩
    · exact .refl _
    · exact .stores _ _
    · exact .stores _ _
  | tAssignScopesToPrincipal o site c p ss =>
    obtain ⟨t, ht⟩ := tobj_of_withT h
    obtain ⟨l, _, rfl⟩ := tAssignScopesToPrincipal_eq ht h
    exact .stores _ _
  | tAssignScopesWithRole o site c p r ss =>
    have h' : w.tAssignScopesWithRole o site c p r ss = .ok w' := h
    unfold V1.tAssignScopesWithRole at h'
    split at h'
    · cases h'; exact .refl _
    · obtain ⟨t, ht⟩ := tobj_of_withT h'
      obtain ⟨L, rfl, _⟩ := tAssignScopesWithRole_eq ht h
      exact .stores _ _
  | nsAddRoles n rs =>
    refine .loop (fun w w' d h => ?_) h
    split at h
    · cases h; exact .setNs _ _ _
    · cases h
  | nsAddScopes n ss =>
    refine .loop (fun w w' d h => ?_) h
    split at h
    · cases h; exact .setNs _ _ _
    · cases h

/-- Effect of one call on one registry. -/
theorem reg_step {op : V1Op} (inv : Inv w) (h : op.apply w = .ok w') (k : Kind) :
    w'.reg k = match op.attempt w with
      | some (k', id, obj) => if k' = k then (register (w.reg k) id obj).2 else w.reg k
      | none => w.reg k := by
  cases hn : op.attempt w with
  | none => exact sameReg_of_noattempt inv h hn k
  | some a =>
    cases op with
    | addTenant a =>
      obtain ⟨⟨x, w1⟩, h2, rfl⟩ := Out.map_eq_ok.1 h
      unfold V1.addTenant at h2
      simp only [V1Op.attempt] at hn
      cases ht : w.tobjs[a]? with
      | none => rw [ht] at hn; cases hn
      | some t =>
        rw [ht] at hn h2; cases hn
        simp only at h2
        split at h2 <;> rename_i hg <;> cases h2 <;> cases k <;> simp [V1.reg, register, hg]
    | addNamespace a =>
      obtain ⟨⟨x, w1⟩, h2, rfl⟩ := Out.map_eq_ok.1 h
      unfold V1.addNamespace at h2
      simp only [V1Op.attempt] at hn
      cases ht : w.nsobjs[a]? with
      | none => rw [ht] at hn; cases hn
      | some t =>
        rw [ht] at hn h2; cases hn
        simp only at h2
        split at h2 <;> rename_i hg <;> cases h2 <;> cases k <;> simp [V1.reg, register, hg]
    | addScope id obj =>
      cases hn; cases h
      unfold V1.addScope
      split <;> rename_i hg <;> cases k <;> simp [V1.reg, register, hg]
    | addPrincipal id obj =>
      cases hn; cases h
      unfold V1.addPrincipal
      split <;> rename_i hg <;> cases k <;> simp [V1.reg, register, hg]
    | addRole a =>
      obtain ⟨⟨x, w1⟩, h2, rfl⟩ := Out.map_eq_ok.1 h
      unfold V1.addRole at h2
      simp only [V1Op.attempt] at hn
      cases ht : w.heap.roles[a]? with
      | none => rw [ht] at hn; cases hn
      | some t =>
        rw [ht] at hn h2; cases hn
        simp only at h2
        split at h2 <;> rename_i hg <;> cases h2 <;> cases k <;> simp [V1.reg, register, hg]
    | addAttribute a obj =>
      cases hn; cases h
      unfold V1.addAttribute
      split <;> rename_i hg <;> rw [RHeap.toStr_eq] at hg <;> cases k <;> simp [V1.reg, register, hg, RHeap.toStr_eq]
    | addAttributeGroup a =>
      obtain ⟨⟨x, w1⟩, h2, rfl⟩ := Out.map_eq_ok.1 h
      unfold V1.addAttributeGroup at h2
      simp only [V1Op.attempt] at hn
      cases ht : w.heap.groups[a]? with
      | none => rw [ht] at hn; cases hn
      | some t =>
        rw [ht] at hn h2; cases hn
        simp only at h2
        split at h2 <;> rename_i hg <;> cases h2 <;> cases k <;> simp [V1.reg, register, hg]
    | _ => cases hn

theorem C70_run {ops : List V1Op} (inv : Inv w) (h : V1Op.run w ops = .ok w') (k : Kind) (id : Str) :
    (w'.reg k).get id = match (w.reg k).get id with
      | some x => some x
      | none => firstObj k id (V1Op.attempts w ops) := by
  induction ops generalizing w with
  | nil => cases h; cases (w'.reg k).get id <;> rfl
  | cons op ops ih =>
    rw [V1Op.run, Out.bind_eq_ok] at h
    obtain ⟨w1, h1, h2⟩ := h
    rw [ih (V1Op.good h1 inv).1 h2, reg_step inv h1 k, V1Op.attempts, h1]
    cases ha : op.attempt w with
    | none => simp
    | some a =>
      obtain ⟨k', id', obj⟩ := a
      simp only [Option.toList_some, List.singleton_append]
      by_cases hk : k' = k
      · subst hk
        simp only [if_true, Mgr.register_get]
        cases (w.reg k').get id with
        | some x => rfl
        | none =>
          simp only [firstObj, List.find?_cons, decide_true, Bool.true_and]
          by_cases hid : id' = id
          · subst hid; simp
          · have hid' : id ≠ id' := fun e => hid e.symm
            simp [hid, hid']
      · simp [hk, firstObj]

theorem reg_wf {ops : List V1Op} (inv : Inv w) (hw : ∀ k, GoMap.WF (w.reg k)) (h : V1Op.run w ops = .ok w') (k : Kind) :
    GoMap.WF (w'.reg k) := by
  induction ops generalizing w with
  | nil => cases h; exact hw k
  | cons op ops ih =>
    rw [V1Op.run, Out.bind_eq_ok] at h
    obtain ⟨w1, h1, h2⟩ := h
    refine ih (V1Op.good h1 inv).1 (fun k => ?_) h2
    rw [reg_step inv h1 k]
    split
    · split
      · unfold register
        split
        · exact hw k
        · exact GoMap.wf_set (hw k) _ _
      · exact hw k
    · exact hw k

/-- C70. After any history of v1 calls, looking an id up in any of the seven registries gives the object of the first
registration of that id, and nothing if there was none. -/
theorem C70_first_wins {ops : List V1Op} (h : V1Op.run {} ops = .ok w) (k : Kind) (id : Str) :
    (w.reg k).get id = firstObj k id (V1Op.attempts {} ops) := by
  have e : ({} : V1).reg k = [] := by cases k <;> rfl
  rw [C70_run (V1Op.reachable_inv (ops := []) rfl) h k id, e]; rfl

/-- C70. Every registry has one entry per distinct id registered. -/
theorem C70_count {ops : List V1Op} (h : V1Op.run {} ops = .ok w) (k : Kind) :
    (w.reg k).length = (((V1Op.attempts {} ops).filter (fun e => e.1 = k)).map (fun e => e.2.1)).dedup.length := by
  have hwf : GoMap.WF (w.reg k) := reg_wf (V1Op.reachable_inv (ops := []) rfl)
    (fun k => by cases k <;> exact List.nodup_nil) h k
  rw [← List.length_map (f := Prod.fst)]
  apply List.Perm.length_eq
  rw [List.perm_ext_iff_of_nodup hwf (List.nodup_dedup _)]
  intro id
  rw [← GoMap.get_isSome_iff, C70_first_wins h, List.mem_dedup, firstObj]
  simp only [Option.isSome_map, List.find?_isSome, List.mem_map, List.mem_filter, Bool.and_eq_true,
    decide_eq_true_eq]
  constructor
  · rintro ⟨e, he, rfl, rfl⟩; exact ⟨e, ⟨he, rfl⟩, rfl⟩
  · rintro ⟨e, ⟨he, rfl⟩, rfl⟩; exact ⟨e, he, rfl, rfl⟩

/-- C70. The `Total*` calls report those counts. -/
theorem C70_totals (w : V1) : w.totals = [(w.reg .tenant).length, (w.reg .namespace_).length,
    (w.reg .scope).length, (w.reg .principal).length, (w.reg .role).length, (w.reg .group).length,
    (w.reg .attribute).length] := rfl

theorem listIds_eq (o : Ord) (site : List Val) (m : GoMap Str Nat) :
    listIds o site m = (o.ord site _ m).map (·.1) := by
  have : ∀ (l : List (Str × Nat)) (d : List Str), l.foldl (fun data e => data ++ [e.1]) d = d ++ l.map (·.1) := by
    intro l
    induction l with
    | nil => simp
    | cons e l ih => intro d; simp [ih]
  exact this (o.ord site _ m) []

/-- C70. A listing of a registry names every registered id exactly once, and nothing else. -/
theorem C70_lists {ops : List V1Op} (h : V1Op.run {} ops = .ok w) (k : Kind) (o : Ord) (site : List Val) :
    (listIds o site (w.reg k)).Nodup ∧
    ∀ id, id ∈ listIds o site (w.reg k) ↔ ∃ obj, (k, id, obj) ∈ V1Op.attempts {} ops := by
  have hwf : GoMap.WF (w.reg k) := reg_wf (V1Op.reachable_inv (ops := []) rfl)
    (fun k => by cases k <;> exact List.nodup_nil) h k
  rw [listIds_eq]
  refine ⟨((o.perm site _ (w.reg k)).map _).nodup_iff.2 hwf, fun id => ?_⟩
  rw [((o.perm site _ (w.reg k)).map _).mem_iff, ← GoMap.get_isSome_iff, C70_first_wins h, firstObj]
  simp only [Option.isSome_map, List.find?_isSome, Bool.and_eq_true, decide_eq_true_eq]
  constructor
  · rintro ⟨⟨k', id', obj⟩, he, rfl, rfl⟩; exact ⟨obj, he⟩
  · rintro ⟨obj, he⟩; exact ⟨_, he, rfl, rfl⟩

/-- C70. The seven calls return the object that is stored after the call, and `AddTenant` puts even a refused
duplicate under management. -/
theorem C70_returns (w : V1) :
    (∀ a t x w', w.tobjs[a]? = some t → w.addTenant a = .ok (x, w') → w'.tenants.get t.id = some x ∧
      w'.tobjs[a]? = some { t with managed := true } ∧ ∀ b ≠ a, w'.tobjs[b]? = w.tobjs[b]?) ∧
    (∀ a n x w', w.nsobjs[a]? = some n → w.addNamespace a = .ok (x, w') → w'.namespaces.get n.id = some x) ∧
    (∀ id obj, (w.addScope id obj).2.scopes.get id = some (w.addScope id obj).1) ∧
    (∀ id obj, (w.addPrincipal id obj).2.principals.get id = some (w.addPrincipal id obj).1) ∧
    (∀ a r x w', w.heap.roles[a]? = some r → w.addRole a = .ok (x, w') → w'.roles.get r.id = some x) ∧
    (∀ (a : Attr) obj, (w.addAttribute a obj).2.attrs.get (a.resource ++ 32 :: a.action) = some (w.addAttribute a obj).1) ∧
    (∀ a g x w', w.heap.groups[a]? = some g → w.addAttributeGroup a = .ok (x, w') → w'.attrGroups.get g.id = some x) := by
  refine ⟨?_, ?_, ?_, ?_, ?_, ?_, ?_⟩
  · intro a t x w' ha h
    have hlt : a < w.tobjs.length := (List.getElem?_eq_some_iff.1 ha).1
    unfold V1.addTenant at h; rw [ha] at h; simp only at h
    split at h <;> rename_i hg <;> cases h
    · exact ⟨hg, by simp [hlt], fun b hb => by simp [Ne.symm hb]⟩
    · exact ⟨by simp, by simp [hlt], fun b hb => by simp [Ne.symm hb]⟩
  · intro a t x w' ha h
    unfold V1.addNamespace at h; rw [ha] at h; simp only at h
    split at h <;> rename_i hg <;> cases h
    · exact hg
    · simp
  · intro id obj; unfold V1.addScope; split
    · assumption
    · simp
  · intro id obj; unfold V1.addPrincipal; split
    · assumption
    · simp
  · intro a t x w' ha h
    unfold V1.addRole at h; rw [ha] at h; simp only at h
    split at h <;> rename_i hg <;> cases h
    · exact hg
    · simp
  · intro a obj; rw [← RHeap.toStr_eq]; unfold V1.addAttribute; split
    · assumption
    · simp
  · intro a t x w' ha h
    unfold V1.addAttributeGroup at h; rw [ha] at h; simp only at h
    split at h <;> rename_i hg <;> cases h
    · exact hg
    · simp

/-- Two tenant objects under one id: the first one wins, the second is managed too. -/
example : ∃ w, V1Op.run {} [.newTenant (str "t"), .newTenant (str "t"), .addPrincipal (str "p") 1, .addTenant 1,
      .addTenant 0, .addPrincipal (str "p") 2] = .ok w ∧
    (w.tenants.get (str "t") = some 1 ∧ w.principals.get (str "p") = some 1 ∧ w.totals = [1, 0, 0, 1, 0, 0, 0] ∧
      w.tobjs.map (·.managed) = [true, true]) := Out.chk_ok (by decide +kernel)

/-! ## C71: methods of tenants and namespaces -/

/-- The namespace object at an address carries the id. -/
def nsHasId (w : V1) (k : Str) (a : Nat) : Bool :=
  match w.nsobjs[a]? with
  | some no => no.id = k
  | none => false

/-- The tenant object at an address carries the id. -/
def tHasId (w : V1) (k : Str) (a : Nat) : Bool :=
  match w.tobjs[a]? with
  | some t => t.id = k
  | none => false

/-- Only tenant object `c` changes, to `t'`. -/
def OnlyT (w w' : V1) (c : Nat) (t' : T1Obj) : Prop := w' = { w with tobjs := w.tobjs.set c t' }

/-- Only namespace object `a` changes, to `n'`. -/
def OnlyNs (w w' : V1) (a : Nat) (n' : NsObj) : Prop := w' = { w with nsobjs := w.nsobjs.set a n' }

theorem setAbsent_get_or {m : GoMap Str Nat} {k k' : Str} {v : Nat} :
    (setAbsent m k v).get k' = (m.get k').or (if k = k' then some v else none) := by
  rw [setAbsent_get]
  split
  · rename_i e; subst e; cases m.get k <;> rfl
  · simp

theorem set_same {α : Type} {l : List α} {i : Nat} {x : α} (h : l[i]? = some x) : l.set i x = l := by
  apply List.ext_getElem?
  intro j
  by_cases e : i = j
  · subst e; rw [List.getElem?_set_self (List.getElem?_eq_some_iff.1 h).1, h]
  · rw [List.getElem?_set_ne e]

theorem or_find {α : Type} {a : Option α} {p : α → Bool} {x : α} {xs : List α} :
    (a.or (if p x then some x else none)).or (xs.find? p) = a.or ((x :: xs).find? p) := by
  rw [List.find?_cons]
  cases a <;> cases p x <;> simp

/-- C71. `Tenant.AddNamespace`: every id keeps the namespace the tenant has, otherwise gets the first given one; nothing
else changes. It returns as soon as the tenant and the namespaces exist. -/
theorem C71_addNamespace {c : Nat} {t : T1Obj} {ns : List Nat} (ht : w.tobjs[c]? = some t)
    (hns : ∀ a ∈ ns, a < w.nsobjs.length) :
    ∃ w' t', w.tAddNamespace c ns = .ok w' ∧ OnlyT w w' c t' ∧
      (∀ k, t'.namespaces.get k = (t.namespaces.get k).or (ns.find? (nsHasId w k))) ∧
      t' = { t with namespaces := t'.namespaces } := by
  induction ns generalizing w t with
  | nil => exact ⟨w, t, rfl, by unfold OnlyT; rw [set_same ht], by simp, rfl⟩
  | cons a ns ih =>
    have hlt := (List.getElem?_eq_some_iff.1 ht).1
    have ha : a < w.nsobjs.length := hns a (by simp)
    have hno : w.nsobjs[a]? = some w.nsobjs[a] := List.getElem?_eq_getElem ha
    obtain ⟨w', t', h1, h2, h3, h4⟩ := ih (w := w.setT c { t with namespaces := setAbsent t.namespaces w.nsobjs[a].id a })
      (List.getElem?_set_self hlt) (fun b hb => hns b (by simp [hb]))
    refine ⟨w', t', ?_, ?_, fun k => ?_, h4⟩
    · unfold tAddNamespace at h1 ⊢
      rw [Out.loop, withT, ht]
      simp only [hno, Out.bind]
      exact h1
    · rw [OnlyT] at h2 ⊢; rw [h2]; simp [V1.setT]
    · rw [h3, setAbsent_get_or, ← or_find]
      have : (if w.nsobjs[a].id = k then some a else none) = if nsHasId w k a = true then some a else none := by
        simp [nsHasId, hno]
      rw [this]; rfl

/-- C71. `Tenant.AddRole`: every id keeps the role the tenant has, otherwise gets the first given one; nothing else
changes. -/
theorem C71_addRole {c : Nat} {t : T1Obj} {rs : List Nat} (ht : w.tobjs[c]? = some t)
    (hrs : ∀ a ∈ rs, a < w.heap.roles.length) :
    ∃ w' t', w.tAddRole c rs = .ok w' ∧ OnlyT w w' c t' ∧
      (∀ k, t'.roles.get k = (t.roles.get k).or (rs.find? (hasId w.heap k))) ∧
      t' = { t with roles := t'.roles } := by
  induction rs generalizing w t with
  | nil => exact ⟨w, t, rfl, by unfold OnlyT; rw [set_same ht], by simp, rfl⟩
  | cons a rs ih =>
    have hlt := (List.getElem?_eq_some_iff.1 ht).1
    have ha : a < w.heap.roles.length := hrs a (by simp)
    have hno : w.heap.roles[a]? = some w.heap.roles[a] := List.getElem?_eq_getElem ha
    obtain ⟨w', t', h1, h2, h3, h4⟩ := ih (w := w.setT c { t with roles := setAbsent t.roles w.heap.roles[a].id a })
      (List.getElem?_set_self hlt) (fun b hb => hrs b (by simp [hb]))
    refine ⟨w', t', ?_, ?_, fun k => ?_, h4⟩
    · unfold tAddRole at h1 ⊢
      rw [Out.loop, withT, ht]
      simp only [hno, Out.bind]
      exact h1
    · rw [OnlyT] at h2 ⊢; rw [h2]; simp [V1.setT]
    · rw [h3, setAbsent_get_or, ← or_find]
      have : (if w.heap.roles[a].id = k then some a else none) = if hasId w.heap k a = true then some a else none := by
        simp [hasId, hno]
      rw [this]; rfl

/-- C71. `Tenant.AddDescendent`: every id keeps the descendant the tenant has, otherwise gets the first given one;
nothing else changes, and a tenant may be its own descendant. -/
theorem C71_addDescendent {c : Nat} {t : T1Obj} {ds : List Nat} (ht : w.tobjs[c]? = some t)
    (hds : ∀ a ∈ ds, a < w.tobjs.length) :
    ∃ w' t', w.tAddDescendent c ds = .ok w' ∧ OnlyT w w' c t' ∧
      (∀ k, t'.desc.get k = (t.desc.get k).or (ds.find? (tHasId w k))) ∧
      t' = { t with desc := t'.desc } := by
  induction ds generalizing w t with
  | nil => exact ⟨w, t, rfl, by unfold OnlyT; rw [set_same ht], by simp, rfl⟩
  | cons a ds ih =>
    have hlt := (List.getElem?_eq_some_iff.1 ht).1
    have ha : a < w.tobjs.length := hds a (by simp)
    have hno : w.tobjs[a]? = some w.tobjs[a] := List.getElem?_eq_getElem ha
    obtain ⟨w', t', h1, h2, h3, h4⟩ := ih (w := w.setT c { t with desc := setAbsent t.desc w.tobjs[a].id a })
      (List.getElem?_set_self hlt) (fun b hb => by simpa [V1.setT] using hds b (by simp [hb]))
    have hid : ∀ k x, tHasId (w.setT c { t with desc := setAbsent t.desc w.tobjs[a].id a }) k x = tHasId w k x := by
      intro k x
      unfold tHasId V1.setT
      by_cases e : c = x
      · subst e; simp only [List.getElem?_set_self hlt, ht]
      · simp only [List.getElem?_set_ne e]
    refine ⟨w', t', ?_, ?_, fun k => ?_, h4⟩
    · unfold tAddDescendent at h1 ⊢
      rw [Out.loop, withT, ht]
      simp only [withT, hno, Out.bind]
      exact h1
    · rw [OnlyT] at h2 ⊢; rw [h2]; simp [V1.setT]
    · rw [h3, setAbsent_get_or, ← or_find, funext (hid k)]
      have : (if w.tobjs[a].id = k then some a else none) = if tHasId w k a = true then some a else none := by
        simp [tHasId, hno]
      rw [this]

/-- C71. `Tenant.SetDefaultNamespace` sets the default to the namespace the tenant has under that id, and does nothing
if it has none. -/
theorem C71_setDefault {c : Nat} {t : T1Obj} {n : Str} (ht : w.tobjs[c]? = some t) :
    ∃ w', w.tSetDefaultNamespace c n = .ok w' ∧
      OnlyT w w' c { t with defNs := (t.namespaces.get n).or t.defNs } := by
  unfold tSetDefaultNamespace withT
  rw [ht]
  cases hg : t.namespaces.get n with
  | none => exact ⟨w, by simp [hg], by simp [OnlyT, set_same ht]⟩
  | some a => exact ⟨w.setT c { t with defNs := some a }, by simp [hg], by simp [OnlyT, V1.setT]⟩

/-- The token of the first given scope with the id. -/
def firstScope (k : Str) (ss : List (Str × Nat)) : Option Nat := (ss.find? (fun s => s.1 = k)).map (·.2)

/-- The token of the last given scope with the id. -/
def lastScope (k : Str) (ss : List (Str × Nat)) : Option Nat := firstScope k ss.reverse

theorem or_firstScope {a : Option Nat} {k : Str} {s : Str × Nat} {ss : List (Str × Nat)} :
    (a.or (if s.1 = k then some s.2 else none)).or (firstScope k ss) = a.or (firstScope k (s :: ss)) := by
  unfold firstScope
  rw [List.find?_cons]
  by_cases e : s.1 = k <;> cases a <;> simp [e]

/-- C71. `Tenant.AddScopes` without default namespace: every id keeps the scope the tenant has, otherwise gets the first
given one; nothing else changes. -/
theorem C71_addScopes {c : Nat} {t : T1Obj} {ss : List (Str × Nat)} (ht : w.tobjs[c]? = some t)
    (hd : t.defNs = none) :
    ∃ w' t', w.tAddScopes c ss = .ok w' ∧ OnlyT w w' c t' ∧
      (∀ k, t'.scopes.get k = (t.scopes.get k).or (firstScope k ss)) ∧ t' = { t with scopes := t'.scopes } := by
  induction ss generalizing w t with
  | nil => exact ⟨w, t, rfl, by unfold OnlyT; rw [set_same ht], by simp [firstScope], rfl⟩
  | cons s ss ih =>
    have hlt := (List.getElem?_eq_some_iff.1 ht).1
    obtain ⟨w', t', h1, h2, h3, h4⟩ := ih (w := w.setT c { t with scopes := setAbsent t.scopes s.1 s.2 })
      (t := { t with scopes := setAbsent t.scopes s.1 s.2 }) (List.getElem?_set_self hlt) hd
    refine ⟨w', t', ?_, ?_, fun k => ?_, h4⟩
    · unfold tAddScopes at h1 ⊢
      rw [Out.loop, Out.bind_eq_ok]
      refine ⟨_, ?_, h1⟩
      rw [withT, ht]
      dsimp only
      split
      · rfl
      · rename_i h; rw [hd] at h; cases h
    · rw [OnlyT] at h2 ⊢; rw [h2]; simp [V1.setT]
    · rw [h3, setAbsent_get_or, or_firstScope]

/-- C71. `Tenant.AddScopes` with a default namespace: the same, and likewise for the scopes of that namespace. -/
theorem C71_addScopes_default {c a : Nat} {t : T1Obj} {no : NsObj} {ss : List (Str × Nat)}
    (ht : w.tobjs[c]? = some t) (hd : t.defNs = some a) (hno : w.nsobjs[a]? = some no) :
    ∃ w' t' no', w.tAddScopes c ss = .ok w' ∧
      w' = { w with tobjs := w.tobjs.set c t', nsobjs := w.nsobjs.set a no' } ∧
      (∀ k, t'.scopes.get k = (t.scopes.get k).or (firstScope k ss)) ∧ t' = { t with scopes := t'.scopes } ∧
      (∀ k, no'.scopes.get k = (no.scopes.get k).or (firstScope k ss)) ∧ no' = { no with scopes := no'.scopes } := by
  induction ss generalizing w t no with
  | nil =>
    exact ⟨w, t, no, rfl, by rw [set_same ht, set_same hno], by simp [firstScope], rfl, by simp [firstScope], rfl⟩
  | cons s ss ih =>
    have hlt := (List.getElem?_eq_some_iff.1 ht).1
    have hlt' := (List.getElem?_eq_some_iff.1 hno).1
    obtain ⟨w', t', no', h1, h2, h3, h4, h5, h6⟩ := ih
      (w := (w.setT c { t with scopes := setAbsent t.scopes s.1 s.2 }).setNs a { no with scopes := setAbsent no.scopes s.1 s.2 })
      (t := { t with scopes := setAbsent t.scopes s.1 s.2 }) (List.getElem?_set_self hlt) hd
      (no := { no with scopes := setAbsent no.scopes s.1 s.2 }) (List.getElem?_set_self hlt')
    refine ⟨w', t', no', ?_, ?_, fun k => ?_, h4, fun k => ?_, h6⟩
    · unfold tAddScopes at h1 ⊢
      rw [Out.loop, Out.bind_eq_ok]
      refine ⟨_, ?_, h1⟩
      rw [withT, ht]
      dsimp only
      split
      · rename_i h; rw [hd] at h; cases h
      · rename_i h; rw [hd] at h; cases h
        split
        · rename_i h; rw [show (w.setT c _).nsobjs[a]? = some no from hno] at h; cases h
        · rename_i h; rw [show (w.setT c _).nsobjs[a]? = some no from hno] at h; cases h; rfl
    · rw [h2]; simp [V1.setT, V1.setNs]
    · rw [h3, setAbsent_get_or, or_firstScope]
    · rw [h5, setAbsent_get_or, or_firstScope]

/-- C71. `Namespace.AddScopes`: the last given scope of an id replaces what the namespace had; nothing else changes. -/
theorem C71_nsAddScopes {a : Nat} {no : NsObj} {ss : List (Str × Nat)} (hno : w.nsobjs[a]? = some no) :
    ∃ w' no', w.nsAddScopes a ss = .ok w' ∧ OnlyNs w w' a no' ∧
      (∀ k, no'.scopes.get k = (lastScope k ss).or (no.scopes.get k)) ∧ no' = { no with scopes := no'.scopes } := by
  induction ss generalizing w no with
  | nil => exact ⟨w, no, rfl, by unfold OnlyNs; rw [set_same hno], by simp [lastScope, firstScope], rfl⟩
  | cons s ss ih =>
    have hlt := (List.getElem?_eq_some_iff.1 hno).1
    obtain ⟨w', no', h1, h2, h3, h4⟩ := ih (w := w.setNs a { no with scopes := no.scopes.set s.1 s.2 })
      (no := { no with scopes := no.scopes.set s.1 s.2 }) (List.getElem?_set_self hlt)
    refine ⟨w', no', ?_, ?_, fun k => ?_, h4⟩
    · unfold nsAddScopes at h1 ⊢
      rw [Out.loop]
      simp only [hno, Out.bind]
      exact h1
    · rw [OnlyNs] at h2 ⊢; rw [h2]; simp [V1.setNs]
    · rw [h3, GoMap.get_set]
      simp only [lastScope, firstScope, List.reverse_cons, List.find?_append, List.find?_cons, List.find?_nil]
      by_cases e : k = s.1
      · subst e; cases List.find? (fun s_1 => decide (s_1.1 = s.1)) ss.reverse <;> simp
      · have e' : s.1 ≠ k := fun x => e x.symm
        cases List.find? (fun s_1 => decide (s_1.1 = k)) ss.reverse <;> simp [e']

/-- C71. `Namespace.AddRoles`: the last given role of an id replaces what the namespace had; nothing else changes. -/
theorem C71_nsAddRoles {a : Nat} {no : NsObj} {rs : List Nat} (hno : w.nsobjs[a]? = some no)
    (hrs : ∀ r ∈ rs, r < w.heap.roles.length) :
    ∃ w' no', w.nsAddRoles a rs = .ok w' ∧ OnlyNs w w' a no' ∧
      (∀ k, no'.roles.get k = (rs.reverse.find? (hasId w.heap k)).or (no.roles.get k)) ∧
      no' = { no with roles := no'.roles } := by
  induction rs generalizing w no with
  | nil => exact ⟨w, no, rfl, by unfold OnlyNs; rw [set_same hno], by simp, rfl⟩
  | cons r rs ih =>
    have hlt := (List.getElem?_eq_some_iff.1 hno).1
    have hr : r < w.heap.roles.length := hrs r (by simp)
    have hro : w.heap.roles[r]? = some w.heap.roles[r] := List.getElem?_eq_getElem hr
    obtain ⟨w', no', h1, h2, h3, h4⟩ := ih (w := w.setNs a { no with roles := no.roles.set w.heap.roles[r].id r })
      (no := { no with roles := no.roles.set w.heap.roles[r].id r }) (List.getElem?_set_self hlt)
      (fun b hb => hrs b (by simp [hb]))
    refine ⟨w', no', ?_, ?_, fun k => ?_, h4⟩
    · unfold nsAddRoles at h1 ⊢
      rw [Out.loop]
      simp only [hno, hro, Out.bind]
      exact h1
    · rw [OnlyNs] at h2 ⊢; rw [h2]; simp [V1.setNs]
    · have hh : (w.setNs a { no with roles := no.roles.set w.heap.roles[r].id r }).heap = w.heap := rfl
      rw [h3, GoMap.get_set, hh]
      simp only [List.reverse_cons, List.find?_append, List.find?_cons, List.find?_nil]
      have hx : hasId w.heap k r = decide (w.heap.roles[r].id = k) := by simp [hasId, hro]
      rw [hx]
      by_cases e : k = w.heap.roles[r].id
      · rw [← e]; cases List.find? (hasId w.heap k) rs.reverse <;> simp
      · have e' : w.heap.roles[r].id ≠ k := fun x => e x.symm
        cases List.find? (hasId w.heap k) rs.reverse <;> simp [e']

/-- The calls of `AddRolesToNamespace` and `AddScopesToNamespace` stop at the first id the tenant does not have. -/
def known (m : GoMap Str Nat) (ids : List Str) : List Str := ids.takeWhile fun k => (m.get k).isSome

/-- C71. `Tenant.AddRolesToNamespace`: the roles before the first unknown one are entered in the namespace object unless
it has one with that id; nothing else changes. -/
theorem C71_addRolesToNamespace {c a : Nat} {t : T1Obj} {no : NsObj} {n : Str} {rs : List Str}
    (ht : w.tobjs[c]? = some t) (hn : t.namespaces.get n = some a) (hno : w.nsobjs[a]? = some no) :
    ∃ w' no', w.tAddRolesToNamespace c n rs = .ok w' ∧ OnlyNs w w' a no' ∧
      (∀ k, no'.roles.get k = (no.roles.get k).or (if k ∈ known t.roles rs then t.roles.get k else none)) ∧
      no' = { no with roles := no'.roles } := by
  induction rs generalizing w no with
  | nil => exact ⟨w, no, rfl, by unfold OnlyNs; rw [set_same hno], by simp [known], rfl⟩
  | cons r rs ih =>
    have hlt := (List.getElem?_eq_some_iff.1 hno).1
    cases hr : t.roles.get r with
    | none =>
      refine ⟨w, no, ?_, by unfold OnlyNs; rw [set_same hno], by simp [known, hr], rfl⟩
      rw [tAddRolesToNamespace, withT, ht]
      simp only [hr]
    | some obj =>
      obtain ⟨w', no', h1, h2, h3, h4⟩ := ih (w := w.setNs a { no with roles := setAbsent no.roles r obj }) ht
        (no := { no with roles := setAbsent no.roles r obj }) (List.getElem?_set_self hlt)
      refine ⟨w', no', ?_, ?_, fun k => ?_, h4⟩
      · rw [tAddRolesToNamespace, withT, ht]
        simp only [hr, hn, hno]
        exact h1
      · rw [OnlyNs] at h2 ⊢; rw [h2]; simp [V1.setNs]
      · rw [h3, setAbsent_get_or]
        have : known t.roles (r :: rs) = r :: known t.roles rs := by simp [known, hr]
        rw [this]
        by_cases e : r = k
        · subst e; cases no.roles.get r <;> simp [hr]
        · have e' : k ≠ r := fun x => e x.symm
          simp [e, e']

/-- C71. `Tenant.AddRolesToNamespace` with a namespace the tenant does not have does nothing. -/
theorem C71_addRolesToNamespace_unknown {c : Nat} {t : T1Obj} {n : Str} {rs : List Str}
    (ht : w.tobjs[c]? = some t) (hn : t.namespaces.get n = none) : w.tAddRolesToNamespace c n rs = .ok w := by
  cases rs with
  | nil => rfl
  | cons r rs =>
    rw [tAddRolesToNamespace, withT, ht]
    simp only [hn]
    split <;> rfl

/-- C71. `Tenant.AddScopesToNamespace` on a managed tenant: the scopes before the first unknown one are entered in the
namespace object unless it has one with that id, and for each of them one assignment without principal and role is
stored; nothing else changes. -/
theorem C71_addScopesToNamespace {c a : Nat} {t : T1Obj} {no : NsObj} {n : Str} {ss : List Str}
    (ht : w.tobjs[c]? = some t) (hm : t.managed = true) (hn : t.namespaces.get n = some a)
    (hno : w.nsobjs[a]? = some no) :
    ∃ w' no', w.tAddScopesToNamespace c n ss = .ok w' ∧
      (∀ k, no'.scopes.get k = (no.scopes.get k).or (if k ∈ known t.scopes ss then t.scopes.get k else none)) ∧
      no' = { no with scopes := no'.scopes } ∧
      Added { w with nsobjs := w.nsobjs.set a no' } w' (fun x => ∃ s ∈ known t.scopes ss,
        x = { tenant := t.id, principal := [], role := [], namespace_ := no.id, scope := s, manage := true }) := by
  suffices ∃ w' no', w.tAddScopesToNamespace c n ss = .ok w' ∧
      (∀ k, no'.scopes.get k = (no.scopes.get k).or (if k ∈ known t.scopes ss then t.scopes.get k else none)) ∧
      no' = { no with scopes := no'.scopes } ∧
      w' = ({ w with nsobjs := w.nsobjs.set a no' } : V1).stores ((known t.scopes ss).map fun s => tp t [] [] no.id (some s)) by
    obtain ⟨w', no', h1, h2, h3, h4⟩ := this
    refine ⟨w', no', h1, h2, h3, ?_⟩
    rw [h4]
    refine stores_added (fun x => ?_)
    simp only [List.mem_map, tp, Option.getD_some]
    exact ⟨fun ⟨s, h, e⟩ => ⟨s, h, e.symm⟩, fun ⟨s, h, e⟩ => ⟨s, h, e.symm⟩⟩
  induction ss generalizing w no with
  | nil => exact ⟨w, no, rfl, by simp [known], rfl, by rw [set_same hno]; rfl⟩
  | cons s ss ih =>
    have hlt := (List.getElem?_eq_some_iff.1 hno).1
    cases hs : t.scopes.get s with
    | none =>
      refine ⟨w, no, ?_, by simp [known, hs], rfl, by rw [set_same hno]; simp [known, hs, stores]⟩
      rw [tAddScopesToNamespace, withT, ht]
      simp only [hs]
    | some obj =>
      have hk : known t.scopes (s :: ss) = s :: known t.scopes ss := by simp [known, hs]
      obtain ⟨w', no', h1, h2, h3, h4⟩ := ih
        (w := (w.setNs a { no with scopes := setAbsent no.scopes s obj }).stores [tp t [] [] no.id (some s)])
        (by rw [stores_tobjs]; exact ht)
        (no := { no with scopes := setAbsent no.scopes s obj })
        (by rw [stores_nsobjs]; exact List.getElem?_set_self hlt)
      refine ⟨w', no', ?_, fun k => ?_, h3, ?_⟩
      · rw [tAddScopesToNamespace, withT, ht]
        simp only [hs, hn, hno]
        rw [Out.bind_eq_ok]
        refine ⟨_, ?_, h1⟩
        have ht' : (w.setNs a { no with scopes := setAbsent no.scopes s obj }).tobjs[c]? = some t := ht
        have hn' : (w.setNs a { no with scopes := setAbsent no.scopes s obj }).nsID (some a) = .ok no.id := by
          simp [nsID, V1.setNs, List.getElem?_set_self hlt]
        rw [tAddPrincipalRole, withT, ht']
        simp only [hm, if_true]
        rw [V1.addPrincipalRole, ht']
        simp only [hn', Out.map]
        rfl
      · rw [h2, setAbsent_get_or, hk]
        by_cases e : s = k
        · subst e; cases no.scopes.get s <;> simp [hs]
        · have e' : k ≠ s := fun x => e x.symm
          simp [e, e']
      · rw [h4, hk, List.map_cons]
        show _ = ({ w with nsobjs := w.nsobjs.set a no' } : V1).stores
          ([tp t [] [] no.id (some s)] ++ (known t.scopes ss).map fun s => tp t [] [] no.id (some s))
        rw [stores_append]
        congr 1
        simp [stores, V1.store, V1.setNs]

/-- C71. `Tenant.AddScopesToNamespace` with a namespace the tenant does not have does nothing. -/
theorem C71_addScopesToNamespace_unknown {c : Nat} {t : T1Obj} {n : Str} {ss : List Str}
    (ht : w.tobjs[c]? = some t) (hn : t.namespaces.get n = none) : w.tAddScopesToNamespace c n ss = .ok w := by
  induction ss with
  | nil => rfl
  | cons s ss ih =>
    rw [tAddScopesToNamespace, withT, ht]
    simp only [hn]
    split
    · rfl
    · exact ih

/-- C71. New tenants and namespaces are empty, unmanaged, without default namespace, and at a new address; nothing else
changes. -/
theorem C71_new (w : V1) (id : Str) :
    (∃ t, (w.newTenant id) = { w with tobjs := w.tobjs ++ [t] } ∧ t.id = id ∧ t.managed = false ∧ t.defNs = none ∧
      t.namespaces = [] ∧ t.roles = [] ∧ t.scopes = [] ∧ t.desc = []) ∧
    (∃ n, (w.newNamespace id) = { w with nsobjs := w.nsobjs ++ [n] } ∧ n.id = id ∧ n.roles = [] ∧ n.scopes = []) :=
  ⟨⟨_, rfl, rfl, rfl, rfl, rfl, rfl, rfl, rfl⟩, ⟨_, rfl, rfl, rfl, rfl⟩⟩

/-- C71 in a concrete history: a default namespace receives the scopes added later; `AddScopesToNamespace` stops at the
unknown scope `x`, so `s2` is not entered in `m`. -/
example : ∃ w, V1Op.run {} [.newTenant (str "t"), .addTenant 0, .newNamespace (str "n"), .newNamespace (str "m"),
      .tAddNamespace 0 [0, 1], .tAddScopes 0 [(str "s0", 5)], .tSetDefaultNamespace 0 (str "n"),
      .tAddScopes 0 [(str "s1", 6), (str "s2", 7)],
      .tAddScopesToNamespace 0 (str "m") [str "s1", str "x", str "s2"]] = .ok w ∧
    (w.nsobjs.map (·.scopes) = [[(str "s1", 6), (str "s2", 7)], [(str "s1", 6)]] ∧
      w.tobjs.map (·.scopes) = [[(str "s0", 5), (str "s1", 6), (str "s2", 7)]] ∧
      w.tps = [str "__t_m_s1_true"]) := Out.chk_ok (by decide +kernel)

end V1
end Verif
