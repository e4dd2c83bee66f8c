import Verif.Props.Manager

/-!
# Repeating a call (root package)

A call that changes something, made a second time, changes nothing more.
-/

set_option linter.unusedSimpArgs false

namespace Verif

/-! ## Statement -/

namespace Spec

/-- A call that changes roles or groups; the constructors make a new object each time. -/
def RoleChange : RoleOp → Prop
  | .newRole _ | .newGroup _ => False
  | _ => True

/-- A call that changes the manager, a tenant, a role or a group.  Decisions and the queries that fill caches are not (C33). -/
def Change : MOp → Prop
  | .role op => RoleChange op
  | .newTenant _ | .tenantChildren .. | .implicitTenants .. | .authorize .. => False
  | _ => True

/-- The two managers are equal but for the ghost that lists all rows ever inserted, which no function reads. -/
def EqualButLog (w v : Mgr) : Prop := v = { w with log := v.log }

end Spec

open Spec

namespace Rep

/-! ## Maps -/

section
variable {κ ν : Type} [DecidableEq κ]

theorem set_cons (k' : κ) (v' : ν) (m : GoMap κ ν) (k : κ) (v : ν) :
    GoMap.set ((k', v') :: m) k v = if k' = k then (k', v) :: m else (k', v') :: GoMap.set m k v := by
  rw [GoMap.set]
  by_cases h : k' = k
  · rw [if_pos h, if_pos h, h]
  · rw [if_neg h, if_neg h]

theorem set_same {m : GoMap κ ν} {k : κ} {v : ν} (h : m.get k = some v) : m.set k v = m := by
  induction m with
  | nil => cases h
  | cons e m ih =>
    obtain ⟨k', v'⟩ := e
    rw [set_cons]
    by_cases hk : k' = k
    · rw [if_pos hk]
      simp only [GoMap.get, hk, if_true] at h
      cases h; rfl
    · rw [if_neg hk]
      simp only [GoMap.get, if_neg hk] at h
      rw [ih h]

theorem set_set (m : GoMap κ ν) (k : κ) (u v : ν) : (m.set k u).set k v = m.set k v := by
  induction m with
  | nil => simp [GoMap.set]
  | cons e m ih =>
    obtain ⟨k', v'⟩ := e
    simp only [set_cons]
    by_cases hk : k' = k
    · simp only [if_pos hk, set_cons]
    · simp only [if_neg hk, set_cons, ih]

theorem set_comm (m : GoMap κ ν) {k k' : κ} (u v : ν) (hk : k ≠ k') (h : (m.get k').isSome) :
    (m.set k u).set k' v = (m.set k' v).set k u := by
  induction m with
  | nil => simp at h
  | cons e m ih =>
    obtain ⟨a, b⟩ := e
    simp only [set_cons]
    by_cases h1 : a = k
    · subst h1
      simp only [if_true, if_neg hk, set_cons]
    · by_cases h2 : a = k'
      · subst h2
        simp only [if_neg h1, if_true, set_cons]
      · simp only [if_neg h1, if_neg h2, set_cons]
        rw [ih (by simpa [GoMap.get, h2] using h)]

end

/-- All texts of the attributes are keys. -/
def AllIn (m : GoMap Str Attr) (as : List Attr) : Prop := ∀ a ∈ as, (m.get a.toStr).isSome

theorem AllIn.set {m : GoMap Str Attr} {as : List Attr} (h : AllIn m as) (k : Str) (x : Attr) : AllIn (m.set k x) as := by
  intro a ha
  rw [GoMap.get_set]
  split
  · rfl
  · exact h a ha

/-- `for … { m[a.String()] = a }`. -/
def put (m : GoMap Str Attr) (as : List Attr) : GoMap Str Attr := as.foldl (fun m a => m.set a.toStr a) m

theorem put_allIn (as : List Attr) : ∀ {m : GoMap Str Attr} {bs : List Attr}, AllIn m bs → AllIn (put m as) bs := by
  induction as with
  | nil => exact fun h => h
  | cons a as ih => exact fun h => ih (h.set _ _)

theorem put_all (as : List Attr) : ∀ m : GoMap Str Attr, AllIn (put m as) as := by
  induction as with
  | nil => intro m a ha; cases ha
  | cons a as ih =>
    intro m b hb
    rcases List.mem_cons.1 hb with rfl | hb
    · refine put_allIn as (bs := [b]) ?_ b (List.mem_cons_self ..)
      intro c hc
      rw [List.mem_singleton] at hc
      subst hc
      rw [GoMap.get_set, if_pos rfl]; rfl
    · exact ih _ b hb

theorem put_set (as : List Attr) : ∀ {m : GoMap Str Attr} (k : Str) (x : Attr), AllIn m as → (put (m.set k x) as).set k x = (put m as).set k x := by
  induction as with
  | nil => intro m k x _; exact set_set m k x x
  | cons a as ih =>
    intro m k x h
    show (put ((m.set k x).set a.toStr a) as).set k x = (put (m.set a.toStr a) as).set k x
    by_cases hk : k = a.toStr
    · subst hk
      rw [set_set]
    · rw [set_comm m x a hk (h a (List.mem_cons_self ..))]
      refine ih k x ?_
      exact AllIn.set (fun b hb => h b (List.mem_cons_of_mem _ hb)) _ _

theorem put_append (as bs : List Attr) (m : GoMap Str Attr) : put m (as ++ bs) = put (put m as) bs := List.foldl_append

theorem put_twice (as : List Attr) (m : GoMap Str Attr) : put (put m as) as = put m as := by
  suffices h : ∀ bs : List Attr, put (put m bs.reverse) bs.reverse = put m bs.reverse by
    have := h as.reverse
    rwa [List.reverse_reverse] at this
  intro bs
  induction bs with
  | nil => rfl
  | cons a bs ih =>
    rw [List.reverse_cons, put_append, put_append]
    show (put ((put m bs.reverse).set a.toStr a) bs.reverse).set a.toStr a = _
    rw [put_set _ _ _ (put_all _ _), ih]
    rfl

theorem keep_of_all (as : List Attr) : ∀ {m : GoMap Str Attr}, AllIn m as → RHeap.addAttrsKeep m as = m := by
  induction as with
  | nil => intro m _; rfl
  | cons a as ih =>
    intro m h
    rw [RHeap.addAttrsKeep, if_pos (h a (List.mem_cons_self ..))]
    exact ih fun b hb => h b (List.mem_cons_of_mem _ hb)

theorem keep_allIn (as : List Attr) : ∀ {m : GoMap Str Attr} {bs : List Attr}, AllIn m bs → AllIn (RHeap.addAttrsKeep m as) bs := by
  induction as with
  | nil => exact fun h => h
  | cons a as ih =>
    intro m bs h
    rw [RHeap.addAttrsKeep]
    split
    · exact ih h
    · exact ih (h.set _ _)

theorem keep_all (as : List Attr) : ∀ m : GoMap Str Attr, AllIn (RHeap.addAttrsKeep m as) as := by
  induction as with
  | nil => intro m a ha; cases ha
  | cons a as ih =>
    intro m b hb
    rcases List.mem_cons.1 hb with rfl | hb
    · have h1 : ∀ {m : GoMap Str Attr}, (m.get b.toStr).isSome → ((RHeap.addAttrsKeep m as).get b.toStr).isSome := fun h =>
        keep_allIn as (bs := [b]) (fun c hc => by rw [List.mem_singleton] at hc; subst hc; exact h) b (List.mem_cons_self ..)
      rw [RHeap.addAttrsKeep]
      split
      · rename_i h
        exact h1 h
      · exact h1 (by rw [GoMap.get_set, if_pos rfl]; rfl)
    · rw [RHeap.addAttrsKeep]
      split <;> exact ih _ b hb

theorem keep_twice (as : List Attr) (m : GoMap Str Attr) : RHeap.addAttrsKeep (RHeap.addAttrsKeep m as) as = RHeap.addAttrsKeep m as :=
  keep_of_all as (keep_all as m)

/-! ## Roles and groups -/

theorem lt_of_get {α : Type} {l : List α} {i : Nat} {x : α} (h : l[i]? = some x) : i < l.length := (List.getElem?_eq_some_iff.1 h).1

theorem set_get_same {α : Type} {l : List α} {i : Nat} {x : α} (h : l[i]? = some x) : l.set i x = l := by
  refine List.ext_getElem? fun j => ?_
  by_cases hj : i = j
  · subst hj
    rw [List.getElem?_set_self (lt_of_get h), h]
  · rw [List.getElem?_set_ne hj]

/-- What `AddDescendant` leaves for the descendants `ds`: the role knows their ids. -/
def Has (h : RHeap) (r : Nat) (ds : List Nat) : Prop :=
  ∀ d ∈ ds, ∃ dro ro, h.roles[d]? = some dro ∧ h.roles[r]? = some ro ∧ (ro.desc.get dro.id).isSome

theorem loop_of_has (r : Nat) (ds : List Nat) : ∀ {h : RHeap}, Has h r ds → RHeap.addDescendant.loop r h ds = .ok h := by
  induction ds with
  | nil => intro h _; rfl
  | cons d ds ih =>
    intro h hh
    obtain ⟨dro, ro, h1, h2, h3⟩ := hh d (List.mem_cons_self ..)
    rw [RHeap.addDescendant.loop, h1, h2]
    simp only [if_pos h3]
    exact ih fun b hb => hh b (List.mem_cons_of_mem _ hb)

theorem has_step {h : RHeap} {r d : Nat} {dro ro : RoleObj} (h2 : h.roles[r]? = some ro) {ds : List Nat} (hh : Has h r ds) :
    Has { h with roles := h.roles.set r { ro with desc := ro.desc.set dro.id d } } r ds := by
  intro b hb
  obtain ⟨bro, ro', h3, h4, h5⟩ := hh b hb
  rw [h2] at h4
  cases h4
  have h6 : (h.roles.set r { ro with desc := ro.desc.set dro.id d })[r]? = some { ro with desc := ro.desc.set dro.id d } :=
    List.getElem?_set_self (lt_of_get h2)
  have h8 : ∀ k, (ro.desc.get k).isSome → ((ro.desc.set dro.id d).get k).isSome := by
    intro k hk
    rw [GoMap.get_set]
    split
    · rfl
    · exact hk
  by_cases hbr : r = b
  · subst hbr
    rw [h2] at h3
    cases h3
    exact ⟨_, _, h6, h6, h8 _ h5⟩
  · exact ⟨bro, _, by rw [← h3]; exact List.getElem?_set_ne hbr, h6, h8 _ h5⟩

theorem loop_has (r : Nat) (ds : List Nat) : ∀ {h h' : RHeap} {bs : List Nat}, Has h r bs → RHeap.addDescendant.loop r h ds = .ok h' → Has h' r (bs ++ ds) := by
  induction ds with
  | nil =>
    intro h h' bs hb he
    cases he
    rwa [List.append_nil]
  | cons d ds ih =>
    intro h h' bs hb he
    rw [RHeap.addDescendant.loop] at he
    have e : bs ++ d :: ds = (bs ++ [d]) ++ ds := by simp
    rw [e]
    split at he
    · rename_i dro ro h1 h2
      split at he
      · rename_i h3
        refine ih ?_ he
        intro b hb'
        rcases List.mem_append.1 hb' with hb' | hb'
        · exact hb b hb'
        · rw [List.mem_singleton] at hb'; subst hb'
          exact ⟨dro, ro, h1, h2, h3⟩
      · refine ih ?_ he
        intro b hb'
        rcases List.mem_append.1 hb' with hb' | hb'
        · exact has_step h2 hb b hb'
        · rw [List.mem_singleton] at hb'; subst hb'
          have h6 : (h.roles.set r { ro with desc := ro.desc.set dro.id b })[r]? = some { ro with desc := ro.desc.set dro.id b } :=
            List.getElem?_set_self (lt_of_get h2)
          by_cases hbr : r = b
          · subst hbr
            rw [h2] at h1
            cases h1
            exact ⟨_, _, h6, h6, by simp only [GoMap.get_set, if_true, Option.isSome_some]⟩
          · exact ⟨dro, _, by rw [← h1]; exact List.getElem?_set_ne hbr, h6,
              by show ((ro.desc.set dro.id b).get dro.id).isSome; rw [GoMap.get_set, if_pos rfl]; rfl⟩
    · cases he

theorem loop_lock (r : Nat) (ds : List Nat) : ∀ {h h' : RHeap} {ro : RoleObj}, h.roles[r]? = some ro → RHeap.addDescendant.loop r h ds = .ok h' →
    ∃ ro', h'.roles[r]? = some ro' ∧ ro'.lock = ro.lock := by
  induction ds with
  | nil => intro h h' ro hr he; cases he; exact ⟨ro, hr, rfl⟩
  | cons d ds ih =>
    intro h h' ro hr he
    rw [RHeap.addDescendant.loop] at he
    split at he
    · rename_i dro ro1 h1 h2
      rw [hr] at h2
      cases h2
      split at he
      · exact ih hr he
      · have := ih (h := { h with roles := h.roles.set r { ro with desc := ro.desc.set dro.id d } }) (List.getElem?_set_self (lt_of_get hr)) he
        exact this
    · cases he

theorem roleOp {h h' : RHeap} {op : RoleOp} (hc : RoleChange op) (ha : op.apply h = .ok h') : op.apply h' = .ok h' := by
  cases op with
  | newRole id => exact hc.elim
  | newGroup id => exact hc.elim
  | addDesc r ds =>
    obtain ⟨x, h1, h2⟩ := Out.map_eq_ok.1 ha
    subst h2
    simp only [RoleOp.apply]
    unfold RHeap.addDescendant at h1 ⊢
    cases hr : h.roles[r]? with
    | none => rw [hr] at h1; cases h1
    | some ro =>
      rw [hr] at h1
      simp only at h1
      by_cases hl : ro.lock = true
      · rw [if_pos hl] at h1
        cases h1
        simp only [hr, if_pos hl, Out.map_ok]
      · rw [if_neg hl] at h1
        obtain ⟨h2, h3, rfl⟩ := Out.map_eq_ok.1 h1
        obtain ⟨ro', h4, h5⟩ := loop_lock r ds hr h3
        have h6 := loop_has r ds (bs := []) (fun _ hb => by cases hb) h3
        simp only [h4, h5, if_neg hl, loop_of_has r ds h6, Out.map_ok]
  | addPerm r g as =>
    obtain ⟨x, h1, h2⟩ := Out.map_eq_ok.1 ha
    subst h2
    simp only [RoleOp.apply]
    unfold RHeap.addPermission at h1 ⊢
    cases hr : h.roles[r]? with
    | none => rw [hr] at h1; cases h1
    | some ro =>
      rw [hr] at h1
      simp only at h1
      by_cases hl : ro.lock = true
      · rw [if_pos hl] at h1
        cases h1
        simp only [hr, if_pos hl, Out.map_ok]
      · rw [if_neg hl] at h1
        cases hg : ro.perms.get g with
        | some ga =>
          rw [hg] at h1
          simp only at h1
          cases hG : h.groups[ga]? with
          | none => rw [hG] at h1; cases h1
          | some G =>
            rw [hG] at h1
            cases h1
            have e1 := set_same hg
            have e2 : ({ ro with perms := ro.perms.set g ga } : RoleObj) = ro := by rw [e1]
            have e3 : h.roles.set r { ro with perms := ro.perms.set g ga } = h.roles := by rw [e2, set_get_same hr]
            simp only [e3, hr, if_neg hl, hg, List.getElem?_set_self (lt_of_get hG), keep_twice, List.set_set, Out.map_ok]
        | none =>
          rw [hg] at h1
          cases h1
          have e1 : (h.groups ++ [({ id := g, perms := RHeap.addAttrsKeep [] as } : GroupObj)])[h.groups.length]? = some { id := g, perms := RHeap.addAttrsKeep [] as } := by simp
          have e2 : (ro.perms.set g h.groups.length).get g = some h.groups.length := by rw [GoMap.get_set, if_pos rfl]
          simp only [List.getElem?_set_self (lt_of_get hr), if_neg hl, e2, e1, keep_twice, List.set_set, set_get_same e1, set_set, Out.map_ok]
  | addGroup r ga =>
    obtain ⟨x, h1, h2⟩ := Out.map_eq_ok.1 ha
    subst h2
    simp only [RoleOp.apply]
    unfold RHeap.addPermissionResourceGroup at h1 ⊢
    cases hr : h.roles[r]? with
    | none => rw [hr] at h1; cases h1
    | some ro =>
      cases hG : h.groups[ga]? with
      | none => rw [hr, hG] at h1; cases h1
      | some G =>
        rw [hr, hG] at h1
        simp only at h1
        by_cases hl : ro.lock = true
        · rw [if_pos hl] at h1
          cases h1
          simp only [hr, hG, if_pos hl, Out.map_ok]
        · rw [if_neg hl] at h1
          by_cases hp : (ro.perms.get G.id).isSome
          · rw [if_pos hp] at h1
            cases h1
            simp only [hr, hG, if_neg hl, if_pos hp, Out.map_ok]
          · rw [if_neg hp] at h1
            cases h1
            have e2 : ((ro.perms.set G.id ga).get G.id).isSome = true := by rw [GoMap.get_set, if_pos rfl]; rfl
            simp only [List.getElem?_set_self (lt_of_get hr), hG, if_neg hl, if_pos e2, Out.map_ok]
  | addAttrs ga as =>
    simp only [RoleOp.apply, RHeap.groupAddAttributes] at ha ⊢
    cases hG : h.groups[ga]? with
    | none => rw [hG] at ha; cases ha
    | some G =>
      rw [hG] at ha
      cases ha
      have e := put_twice as G.perms
      simp only [put] at e
      simp only [List.getElem?_set_self (lt_of_get hG), e, List.set_set]
  | lock r b =>
    simp only [RoleOp.apply, RHeap.setLock] at ha ⊢
    cases hr : h.roles[r]? with
    | none => rw [hr] at ha; cases ha
    | some ro =>
      rw [hr] at ha
      cases ha
      simp only [List.getElem?_set_self (lt_of_get hr), List.set_set]

theorem assoc_iff {g : GroupObj} {as : List Attr} : RHeap.allAssociated g as = true ↔ AllIn g.perms as := by
  induction as with
  | nil => simp [RHeap.allAssociated, AllIn]
  | cons a as ih =>
    rw [RHeap.allAssociated]
    by_cases h : (g.perms.get a.toStr).isSome
    · rw [if_pos h, ih]
      simp only [AllIn, List.mem_cons, forall_eq_or_imp, h, true_and]
    · rw [if_neg h]
      simp only [AllIn, List.mem_cons, forall_eq_or_imp, h, false_and]
      simp

theorem addPerm_groups {h : RHeap} {r : Nat} {g : Str} {as : List Attr} {x : Option Err × RHeap} (ha : h.addPermission r g as = .ok x)
    {i : Nat} {G : GroupObj} (hG : h.groups[i]? = some G) {bs : List Attr} (hb : AllIn G.perms bs) :
    ∃ G', x.2.groups[i]? = some G' ∧ AllIn G'.perms bs := by
  unfold RHeap.addPermission at ha
  split at ha
  · cases ha
  · split at ha
    · cases ha; exact ⟨G, hG, hb⟩
    · split at ha
      · rename_i ga _
        split at ha
        · cases ha
        · rename_i g0 hg0
          cases ha
          by_cases hi : ga = i
          · subst hi
            rw [hg0] at hG
            cases hG
            exact ⟨_, List.getElem?_set_self (lt_of_get hg0), keep_allIn as hb⟩
          · exact ⟨G, by rw [← hG]; exact List.getElem?_set_ne hi, hb⟩
      · cases ha
        exact ⟨G, by rw [← hG]; exact List.getElem?_append_left (lt_of_get hG), hb⟩

theorem addPerm_twice {h : RHeap} {r : Nat} {g : Str} {as : List Attr} {x : Option Err × RHeap} (ha : h.addPermission r g as = .ok x) :
    (x.2.addPermission r g as).map (·.2) = .ok x.2 := by
  have h1 : (RoleOp.addPerm r g as).apply h = .ok x.2 := by
    show (h.addPermission r g as).map _ = _
    rw [ha]; rfl
  exact roleOp (op := .addPerm r g as) trivial h1

theorem addTo_twice {h : RHeap} {R G : GoMap Str Nat} {r g : Str} {as : List Attr} {x : Option Err × RHeap}
    (ha : h.addPermissionsToRole R G r g as = .ok x) : (x.2.addPermissionsToRole R G r g as).map (·.2) = .ok x.2 := by
  unfold RHeap.addPermissionsToRole at ha ⊢
  cases h1 : R.get r with
  | none => rw [h1] at ha; cases ha; rfl
  | some a =>
    rw [h1] at ha
    simp only at ha ⊢
    cases h2 : G.get g with
    | none => rw [h2] at ha; cases ha; rfl
    | some ga =>
      rw [h2] at ha
      simp only at ha ⊢
      cases h3 : h.groups[ga]? with
      | none => rw [h3] at ha; cases ha
      | some g0 =>
        rw [h3] at ha
        simp only at ha
        by_cases h4 : RHeap.allAssociated g0 as = true
        · rw [if_pos h4] at ha
          obtain ⟨G', h5, h6⟩ := addPerm_groups ha h3 (assoc_iff.1 h4)
          simp only [h5, if_pos (assoc_iff.2 h6)]
          exact addPerm_twice ha
        · rw [if_neg h4] at ha
          cases ha
          simp only [h3, if_neg h4, Out.map_ok]

/-! ## The ghost is not read -/

/-- The manager with another ghost. -/
def lg (w : Mgr) (L : List Data) : Mgr := { w with log := L }

/-- The manager without its ghost. -/
def fg (w : Mgr) : Mgr := lg w []

theorem exists_lg {a b : Mgr} (h : fg a = fg b) : ∃ L, a = lg b L := by
  refine ⟨a.log, ?_⟩
  cases a; cases b
  simp only [fg, lg, Mgr.mk.injEq] at h ⊢
  simp only [h, and_self]

theorem fg_lg (w : Mgr) (L : List Data) : fg (lg w L) = fg w := rfl

theorem same_bind {α α' β β' : Type} {x y : Out α} {k : α → α'} {k' : β → β'} {f g : α → Out β} (h : x.map k = y.map k)
    (hf : ∀ a b, k a = k b → (f a).map k' = (g b).map k') : (x.bind f).map k' = (y.bind g).map k' := by
  cases x <;> cases y <;> simp only [Out.map_ok, Out.map_panic, Out.map_diverge, Out.ok.injEq, reduceCtorEq] at h
  · exact hf _ _ h
  all_goals rfl

theorem same_map {α α' β β' : Type} {x y : Out α} {k : α → α'} {k' : β → β'} {f g : α → β} (h : x.map k = y.map k)
    (hf : ∀ a b, k a = k b → k' (f a) = k' (g b)) : (x.map f).map k' = (y.map g).map k' := by
  cases x <;> cases y <;> simp only [Out.map_ok, Out.map_panic, Out.map_diverge, Out.ok.injEq, reduceCtorEq] at h ⊢
  exact hf _ _ h

/-- Forget the ghost in a result. -/
def pr {α : Type} (x : α × Mgr) : α × Mgr := (x.1, fg x.2)

theorem pr_eq {α : Type} {x y : α × Mgr} (h : pr x = pr y) : ∃ L, x = (y.1, lg y.2 L) := by
  obtain ⟨a, x⟩ := x
  obtain ⟨b, y⟩ := y
  simp only [pr, Prod.mk.injEq] at h
  obtain ⟨L, rfl⟩ := exists_lg h.2
  exact ⟨L, by rw [h.1]⟩

theorem addData_lg (w : Mgr) (L : List Data) (d : Data) : ((lg w L).addData d).map fg = (w.addData d).map fg := by
  show ((w.trie.insert (some d)).map _).map fg = ((w.trie.insert (some d)).map _).map fg
  cases w.trie.insert (some d) <;> rfl

theorem withTenant_lg {α α' : Type} (k : α → α') (w : Mgr) (L : List Data) (c : Nat) {f g : TenantObj → Out α}
    (h : ∀ t, (f t).map k = (g t).map k) : ((lg w L).withTenant c f).map k = (w.withTenant c g).map k := by
  show ((match w.tobjs[c]? with | none => .panic | some t => if t.managed then f t else .panic : Out α)).map k = _
  unfold Mgr.withTenant
  cases w.tobjs[c]? with
  | none => rfl
  | some t =>
    simp only
    cases t.managed
    · rfl
    · exact h t

theorem setDef_lg (w : Mgr) (L : List Data) (c : Nat) (n : Str) :
    ((lg w L).tSetDefaultNamespace c n).map fg = (w.tSetDefaultNamespace c n).map fg := by
  refine withTenant_lg fg w L c fun t => ?_
  show (if (w.namespaces.get n).isSome = true then _ else _ : Out Mgr).map fg = (if _ then _ else _ : Out Mgr).map fg
  by_cases h : (w.namespaces.get n).isSome = true
  · rw [if_pos h, if_pos h]; rfl
  · rw [if_neg h, if_neg h]; rfl

theorem desc_lg (c : Nat) (ds : List Nat) : ∀ (w : Mgr) (L : List Data), ((lg w L).tAddDescendant c ds).map fg = (w.tAddDescendant c ds).map fg := by
  induction ds with
  | nil => intro w L; rfl
  | cons d ds ih =>
    intro w L
    simp only [Mgr.tAddDescendant]
    show (match w.tobjs[c]?, w.tobjs[d]? with | some ct, some dt => _ | _, _ => _ : Out Mgr).map fg = _
    cases w.tobjs[c]? with
    | none => rfl
    | some ct =>
      cases w.tobjs[d]? with
      | none => rfl
      | some dt =>
        simp only
        have e : ∃ v : Mgr, (if (ct.desc.get dt.id).isSome then w else { w with tobjs := w.tobjs.set c { ct with desc := ct.desc.set dt.id d } }) = v ∧
            (if (ct.desc.get dt.id).isSome then lg w L else { lg w L with tobjs := (lg w L).tobjs.set c { ct with desc := ct.desc.set dt.id d } }) = lg v L := by
          by_cases h : (ct.desc.get dt.id).isSome
          · rw [if_pos h, if_pos h]; exact ⟨_, rfl, rfl⟩
          · rw [if_neg h, if_neg h]; exact ⟨_, rfl, rfl⟩
        obtain ⟨v, e1, e2⟩ := e
        rw [e1, e2]
        cases ct.defNs with
        | none => exact ih v L
        | some n =>
          refine same_bind (k := fg) (withTenant_lg fg v L d fun t => addData_lg v L _) fun a b h => ?_
          obtain ⟨L1, rfl⟩ := exists_lg h
          refine same_bind (k := fg) (setDef_lg _ _ _ _) fun a b h => ?_
          obtain ⟨L2, rfl⟩ := exists_lg h
          exact ih _ _

theorem rows_lg (w : Mgr) (L : List Data) (a : Data) (b : Str → Data) (n : Option Str) :
    (((lg w L).addData a).bind fun w1 => match n with
      | none => .ok ((none : Option Err), w1)
      | some n => (w1.addData (b n)).map fun w2 => (none, w2)).map pr =
    ((w.addData a).bind fun w1 => match n with
      | none => .ok (none, w1)
      | some n => (w1.addData (b n)).map fun w2 => (none, w2)).map pr := by
  refine same_bind (k := fg) (addData_lg w L a) fun x y h => ?_
  obtain ⟨L1, rfl⟩ := exists_lg h
  cases n with
  | none => rfl
  | some n =>
    refine same_map (k := fg) (addData_lg _ _ _) fun x y h => ?_
    obtain ⟨L1, rfl⟩ := exists_lg h
    rfl

theorem withRole_lg (w : Mgr) (L : List Data) (c : Nat) (p r : Str) (m : Bool) :
    ((lg w L).tAddPrincipalWithRole c p r m).map pr = (w.tAddPrincipalWithRole c p r m).map pr := by
  refine withTenant_lg pr w L c fun t => ?_
  show (if (w.principals.get p).isNone = true then _ else if (w.roles.get r).isNone = true then _ else _ : Out (Option Err × Mgr)).map pr = _
  by_cases h : (w.principals.get p).isNone = true
  · rw [if_pos h, if_pos h]; rfl
  · rw [if_neg h, if_neg h]
    by_cases h : (w.roles.get r).isNone = true
    · rw [if_pos h, if_pos h]; rfl
    · rw [if_neg h, if_neg h]
      exact rows_lg w L _ _ _

theorem withScope_lg (w : Mgr) (L : List Data) (c : Nat) (p r : Str) (m : Bool) :
    ((lg w L).tAddScopeToPrincipal c p r m).map pr = (w.tAddScopeToPrincipal c p r m).map pr := by
  refine withTenant_lg pr w L c fun t => ?_
  show (if (w.principals.get p).isNone = true then _ else if (w.scopes.get r).isNone = true then _ else _ : Out (Option Err × Mgr)).map pr = _
  by_cases h : (w.principals.get p).isNone = true
  · rw [if_pos h, if_pos h]; rfl
  · rw [if_neg h, if_neg h]
    by_cases h : (w.scopes.get r).isNone = true
    · rw [if_pos h, if_pos h]; rfl
    · rw [if_neg h, if_neg h]
      exact rows_lg w L _ _ _

/-- The loop of `AddPrincipal` and `AssignScopesToPrincipal`: stop at the first error. -/
def each (f : Mgr → Str → Out (Option Err × Mgr)) (w : Mgr) : List Str → Out (Option Err × Mgr)
  | [] => .ok (none, w)
  | r :: rs => (f w r).bind fun x =>
    match x.1 with
    | some e => .ok (some e, x.2)
    | none => each f x.2 rs

theorem principal_each (c : Nat) (p : Str) (m : Bool) (rs : List Str) : ∀ w : Mgr, w.tAddPrincipal c p m rs = each (fun w r => w.tAddPrincipalWithRole c p r m) w rs := by
  induction rs with
  | nil => intro w; rfl
  | cons r rs ih => intro w; simp only [Mgr.tAddPrincipal, each, ih]; rfl

theorem assign_each (c : Nat) (p : Str) (m : Bool) (rs : List Str) : ∀ w : Mgr, w.tAssignScopes c p m rs = each (fun w r => w.tAddScopeToPrincipal c p r m) w rs := by
  induction rs with
  | nil => intro w; rfl
  | cons r rs ih => intro w; simp only [Mgr.tAssignScopes, each, ih]; rfl

theorem each_lg {f : Mgr → Str → Out (Option Err × Mgr)} (hf : ∀ w L r, (f (lg w L) r).map pr = (f w r).map pr) (rs : List Str) :
    ∀ (w : Mgr) (L : List Data), (each f (lg w L) rs).map pr = (each f w rs).map pr := by
  induction rs with
  | nil => intro w L; rfl
  | cons r rs ih =>
    intro w L
    refine same_bind (k := pr) (hf w L r) fun a b h => ?_
    obtain ⟨L1, rfl⟩ := pr_eq h
    obtain ⟨e, b⟩ := b
    cases e with
    | none => exact ih _ _
    | some e => rfl

theorem descendants_lg (w : Mgr) (L : List Data) (o : Ord) : ∀ (n : Nat) (site : List Val) (c : Nat),
    (lg w L).descendants o n site c = w.descendants o n site c
  | 0, _, _ => rfl
  | n + 1, site, c => by
    simp only [Mgr.descendants, descendants_lg w L o n]
    rfl

theorem children_lg (w : Mgr) (L : List Data) (o : Ord) (n : Nat) (site : List Val) (id : Str) :
    ((lg w L).tenantChildren o n site id).map pr = (w.tenantChildren o n site id).map pr := by
  simp only [Mgr.tenantChildren, descendants_lg]
  show (match w.hierarchy.get id with | some h => _ | none => _ : Out (List Val × Mgr)).map pr = _
  cases w.hierarchy.get id with
  | some h => rfl
  | none =>
    simp only
    show (match w.tenants.get id with | none => _ | some c => _ : Out (List Val × Mgr)).map pr = _
    cases w.tenants.get id with
    | none => rfl
    | some c =>
      simp only
      cases w.descendants o n site c <;> rfl

theorem implicitLoop_lg (o : Ord) (n : Nat) (site : List Val) : ∀ (ds : List Data) (i : Nat) (E : List Str) (w : Mgr) (L : List Data),
    (Mgr.implicitLoop o n site i ds E (lg w L)).map pr = (Mgr.implicitLoop o n site i ds E w).map pr
  | [], i, E, w, L => rfl
  | d :: ds, i, E, w, L => by
    simp only [Mgr.implicitLoop]
    cases d.tenant with
    | str t =>
      simp only
      by_cases h1 : t ∈ E
      · rw [if_pos h1, if_pos h1]
        exact implicitLoop_lg o n site ds _ _ _ _
      · rw [if_neg h1, if_neg h1]
        by_cases h2 : d.manage = .bool true
        · rw [if_pos h2, if_pos h2]
          refine same_bind (k := pr) (children_lg w L o n _ t) fun a b h => ?_
          obtain ⟨L1, rfl⟩ := pr_eq h
          refine same_bind (k := id) rfl fun a b h => ?_
          cases h
          exact implicitLoop_lg o n site ds _ _ _ _
        · rw [if_neg h2, if_neg h2]
          exact implicitLoop_lg o n site ds _ _ _ _
    | nil => rfl
    | bool b => rfl
    | int b => rfl

theorem implicit_lg (w : Mgr) (L : List Data) (o : Ord) (n : Nat) (site : List Val) (p : Str) :
    ((lg w L).implicitTenants o n site p).map pr = (w.implicitTenants o n site p).map pr := by
  unfold Mgr.implicitTenants
  show (match w.pcache.get p with | some I => _ | none => _ : Out (List Str × Mgr)).map pr = _
  cases w.pcache.get p with
  | some I => rfl
  | none =>
    refine same_map (k := pr) (implicitLoop_lg o n _ _ _ _ w L) fun a b h => ?_
    obtain ⟨L1, rfl⟩ := pr_eq h
    rfl

theorem roleLoop_lg (w : Mgr) (L : List Data) (o : Ord) (n : Nat) (site : List Val) (r : Request) :
    ∀ (rs : List Str) (i : Nat) (al : List Str), (lg w L).roleLoop o n site r i al rs = w.roleLoop o n site r i al rs
  | [], _, _ => rfl
  | role :: rest, i, al => by
    simp only [Mgr.roleLoop, roleLoop_lg w L o n site r rest]
    rfl

theorem nsLoop_lg (w : Mgr) (L : List Data) (o : Ord) (site : List Val) (p : Str) (n s : Val) :
    ∀ (ds : List Data) (i : Nat), (lg w L).collectRolesNSLoop o site p n s i ds = w.collectRolesNSLoop o site p n s i ds
  | [], _ => rfl
  | t :: ts, i => by
    simp only [Mgr.collectRolesNSLoop, nsLoop_lg w L o site p n s ts]
    rfl

theorem check_lg (w : Mgr) (L : List Data) (o : Ord) (n : Nat) (site : List Val) (p : Str) (r : Request) (f : Flags) :
    (lg w L).check o n site p r f = w.check o n site p r f := by
  simp only [Mgr.check, Mgr.checkActivity, Mgr.collectRolesNS, roleLoop_lg, nsLoop_lg]
  rfl

theorem fallback_lg (w : Mgr) (L : List Data) (o : Ord) (n : Nat) (site : List Val) (p : Str) (f : Flags) :
    ∀ (ts : List Str) (i : Nat) (r : Request), (lg w L).fallback o n site p f i r ts = w.fallback o n site p f i r ts
  | [], _, _ => rfl
  | t :: ts, i, r => by simp only [Mgr.fallback, fallback_lg w L o n site p f ts, check_lg]

theorem authorize_lg (w : Mgr) (L : List Data) (o : Ord) (n : Nat) (site : List Val) (p : Str) (opts : List Opt) :
    ((lg w L).authorize o n site p opts).map pr = (w.authorize o n site p opts).map pr := by
  unfold Mgr.authorize
  show (if (w.principals.get p).isNone = true then _ else _ : Out (Bool × Mgr)).map pr = _
  by_cases h : (w.principals.get p).isNone = true
  · rw [if_pos h, if_pos h]; rfl
  · rw [if_neg h, if_neg h]
    refine same_bind (k := pr) (implicit_lg w L o n _ p) fun a b h => ?_
    obtain ⟨L1, rfl⟩ := pr_eq h
    obtain ⟨I, b⟩ := b
    simp only
    by_cases h1 : I.length = 0
    · rw [if_pos h1, if_pos h1]; rfl
    · rw [if_neg h1, if_neg h1]
      refine same_bind (k := id) rfl fun x y h => ?_
      cases h
      by_cases h2 : (!x) = true
      · rw [if_pos h2, if_pos h2]; rfl
      · rw [if_neg h2, if_neg h2, check_lg]
        refine same_bind (k := id) rfl fun x y h => ?_
        cases h
        by_cases h3 : x = true
        · rw [if_pos h3, if_pos h3]; rfl
        · rw [if_neg h3, if_neg h3, fallback_lg]
          refine same_map (k := id) rfl fun x y h => ?_
          cases h
          rfl

theorem snd_of_pr {α : Type} {x y : Out (α × Mgr)} (h : x.map pr = y.map pr) : (x.map (·.2)).map fg = (y.map (·.2)).map fg :=
  same_map (k := pr) h fun a b h => by obtain ⟨L, rfl⟩ := pr_eq h; rfl

theorem op_lg (op : MOp) (w : Mgr) (L : List Data) : (op.apply (lg w L)).map fg = (op.apply w).map fg := by
  cases op with
  | role op =>
    show ((op.apply w.heap).map _).map fg = ((op.apply w.heap).map _).map fg
    cases op.apply w.heap <;> rfl
  | newTenant id => rfl
  | addTenant a =>
    simp only [MOp.apply, Mgr.addTenant]
    show ((match w.tobjs[a]? with | none => _ | some t => _ : Out (Nat × Mgr)).map _).map fg = _
    cases w.tobjs[a]? <;> rfl
  | addNamespace id obj => rfl
  | addScope id obj => rfl
  | addPrincipal id obj => rfl
  | addRole r =>
    simp only [MOp.apply, Mgr.addRole]
    show ((match w.heap.roles[r]? with | none => _ | some t => _ : Out (Nat × Mgr)).map _).map fg = _
    cases w.heap.roles[r]? <;> rfl
  | addAttribute a obj => rfl
  | addAttributeGroup ga =>
    simp only [MOp.apply, Mgr.addAttributeGroup]
    show ((match w.heap.groups[ga]? with | none => _ | some t => _ : Out (Nat × Mgr)).map _).map fg = _
    cases w.heap.groups[ga]? <;> rfl
  | addData d => exact addData_lg w L d
  | tAddNamespace c n => exact withTenant_lg fg w L c fun t => addData_lg w L _
  | tAddScopesToNamespace c n s => exact withTenant_lg fg w L c fun t => addData_lg w L _
  | tSetDefaultNamespace c n => exact setDef_lg w L c n
  | tAddPrincipalInNamespace c p n r => exact withTenant_lg fg w L c fun t => addData_lg w L _
  | tAddRole c r => exact withTenant_lg fg w L c fun t => addData_lg w L _
  | tAddScope c s => exact withTenant_lg fg w L c fun t => addData_lg w L _
  | tAddDescendant c ds => exact desc_lg c ds w L
  | tAddPrincipalWithRole c p r m => exact snd_of_pr (withRole_lg w L c p r m)
  | tAddPrincipal c p m rs =>
    refine snd_of_pr ?_
    rw [principal_each, principal_each]
    exact each_lg (fun w L r => withRole_lg w L c p r m) rs w L
  | tAddScopeToPrincipal c p s m => exact snd_of_pr (withScope_lg w L c p s m)
  | tAssignScopes c p m ss =>
    refine snd_of_pr ?_
    rw [assign_each, assign_each]
    exact each_lg (fun w L r => withScope_lg w L c p r m) ss w L
  | addPermissionsToRole r g as =>
    show ((w.heap.addPermissionsToRole w.roles w.attrGroups r g as).map _).map fg = ((w.heap.addPermissionsToRole w.roles w.attrGroups r g as).map _).map fg
    cases w.heap.addPermissionsToRole w.roles w.attrGroups r g as <;> rfl
  | tenantChildren o fuel site id => exact snd_of_pr (children_lg w L o fuel site id)
  | implicitTenants o fuel site p => exact snd_of_pr (implicit_lg w L o fuel site p)
  | authorize o fuel site p opts => exact snd_of_pr (authorize_lg w L o fuel site p opts)

theorem run_lg (ops : List MOp) : ∀ (w : Mgr) (L : List Data), (MOp.run (lg w L) ops).map fg = (MOp.run w ops).map fg := by
  induction ops with
  | nil => intro w L; rfl
  | cons op ops ih =>
    intro w L
    refine same_bind (k := fg) (op_lg op w L) fun a b h => ?_
    obtain ⟨L1, rfl⟩ := exists_lg h
    exact ih _ _

/-! ## Rows that are stored already -/

theorem forest_set_same {T : Type} {k : Val} {n : Node T} {f : Forest T} (h : f.get k = some n) : f.set k n = f := by
  fun_induction Forest.set k n f with
  | case1 => cases h
  | case2 n' rest =>
    simp only [Forest.get, if_true] at h
    cases h; rfl
  | case3 a n' rest hk ih =>
    simp only [Forest.get, if_neg hk] at h
    rw [ih h]

theorem insert_of_find {T : Type} (x : T) (ks : List Val) : ∀ {n : Node T}, n.find (strip ks) = some x → n.insert x ks = n := by
  induction ks with
  | nil =>
    intro n h
    obtain ⟨d, ch⟩ := n
    simp only [strip, List.filter_nil, Node.find] at h
    rw [Node.insert, h]
  | cons k ks ih =>
    intro n h
    obtain ⟨d, ch⟩ := n
    rw [Node.insert]
    by_cases hk : k = .nil
    · rw [if_pos hk]
      refine ih ?_
      simpa [strip, hk] using h
    · rw [if_neg hk]
      have e : strip (k :: ks) = k :: strip ks := by simp [strip, hk]
      rw [e, Node.find] at h
      cases hg : ch.get k with
      | none => rw [hg] at h; cases h
      | some n' =>
        rw [hg] at h
        simp only [Option.getD_some]
        rw [ih h, forest_set_same hg]

/-- The path of a row. -/
def path (d : Data) : List Val := strip [d.tenant, d.namespace_, d.scope, d.principal, d.role, d.manage]

/-- The row is stored and inserting it changes nothing. -/
def Row (w : Mgr) (d : Data) : Prop := w.trie.keys = dataKeys ∧ w.trie.root.find (path d) = some d

theorem addData_eq {w : Mgr} (hk : w.trie.keys = dataKeys) (d : Data) :
    w.addData d = .ok { w with trie := { w.trie with root := w.trie.root.insert d [d.tenant, d.namespace_, d.scope, d.principal, d.role, d.manage] }, log := w.log ++ [d] } := by
  simp only [Mgr.addData, Trie.insert, hk, dataKeys, Out.map_ok]

theorem addData_row {w : Mgr} {d : Data} (h : Row w d) : w.addData d = .ok (lg w (w.log ++ [d])) := by
  rw [addData_eq h.1, insert_of_find _ _ h.2]
  rfl

theorem addData_makes {w w' : Mgr} {d : Data} (hk : w.trie.keys = dataKeys) (h : w.addData d = .ok w') : Row w' d := by
  rw [addData_eq hk] at h
  cases h
  refine ⟨hk, ?_⟩
  show ((w.trie.root.insert d _).find (path d)) = _
  rw [Node.find_insert]
  exact if_pos rfl

theorem addData_keeps {w w' : Mgr} {d e : Data} (hr : Row w e) (hp : path d = path e → d = e) (h : w.addData d = .ok w') : Row w' e := by
  rw [addData_eq hr.1] at h
  cases h
  refine ⟨hr.1, ?_⟩
  show ((w.trie.root.insert d _).find (path e)) = _
  rw [Node.find_insert]
  split
  · rename_i h; rw [hp h]
  · exact hr.2

theorem addData_keys {w w' : Mgr} {d : Data} (hk : w.trie.keys = dataKeys) (h : w.addData d = .ok w') : w'.trie.keys = dataKeys :=
  (addData_makes hk h).1

/-- Only rows and the ghost may differ. -/
def Rows (w w' : Mgr) : Prop := w' = { w with trie := w'.trie, log := w'.log }

theorem Rows.refl (w : Mgr) : Rows w w := rfl

theorem Rows.trans {a b c : Mgr} (h1 : Rows a b) (h2 : Rows b c) : Rows a c := by
  unfold Rows at *
  rw [h2, h1]

theorem addData_rows {w w' : Mgr} {d : Data} (h : w.addData d = .ok w') : Rows w w' := by
  obtain ⟨t, _, rfl⟩ := Out.map_eq_ok.1 h
  rfl

theorem withTenant_ok {α : Type} {w : Mgr} {c : Nat} {f : TenantObj → Out α} {x : α} (h : w.withTenant c f = .ok x) :
    ∃ t, w.tobjs[c]? = some t ∧ t.managed = true ∧ f t = .ok x := by
  unfold Mgr.withTenant at h
  split at h
  · cases h
  · rename_i t ht
    split at h
    · rename_i hm
      exact ⟨t, ht, hm, h⟩
    · cases h

theorem withTenant_eq {α : Type} {w : Mgr} {c : Nat} {f : TenantObj → Out α} {t : TenantObj} (ht : w.tobjs[c]? = some t) (hm : t.managed = true) :
    w.withTenant c f = f t := by
  simp only [Mgr.withTenant, ht, hm, if_true]

/-- A call that only adds one row. -/
theorem row_twice {w w' : Mgr} {c : Nat} {g : TenantObj → Data} (hk : w.trie.keys = dataKeys)
    (h : w.withTenant c (fun t => w.addData (g t)) = .ok w') : ∃ L, w'.withTenant c (fun t => w'.addData (g t)) = .ok (lg w' L) := by
  obtain ⟨t, ht, hm, h⟩ := withTenant_ok h
  have h1 := addData_rows h
  have h2 : w'.tobjs[c]? = some t := by rw [h1]; exact ht
  rw [withTenant_eq h2 hm]
  exact ⟨_, addData_row (addData_makes hk h)⟩

/-! ## Loops -/

section
variable {f : Mgr → Str → Out (Option Err × Mgr)} {D : Str → Mgr → Prop}

/-- What a loop needs: `D r` says that the step for `r` has nothing to do. -/
structure Steps (f : Mgr → Str → Out (Option Err × Mgr)) (D : Str → Mgr → Prop) : Prop where
  makes : ∀ {w w' r}, w.trie.keys = dataKeys → f w r = .ok (none, w') → D r w'
  idle : ∀ {w r}, D r w → ∃ L, f w r = .ok (none, lg w L)
  log : ∀ {w r} (L : List Data), D r w → D r (lg w L)
  keeps : ∀ {w r r' x}, w.trie.keys = dataKeys → D r w → f w r' = .ok x → D r x.2
  keys : ∀ {w r x}, w.trie.keys = dataKeys → f w r = .ok x → x.2.trie.keys = dataKeys
  fails : ∀ {w r e w'}, f w r = .ok (some e, w') → w' = w
  again : ∀ {w r e} (L : List Data), f w r = .ok (some e, w) → f (lg w L) r = .ok (some e, lg w L)

theorem each_first (s : Steps f D) (rs : List Str) : ∀ {w : Mgr} {x : Option Err × Mgr} {bs : List Str}, w.trie.keys = dataKeys → (∀ b ∈ bs, D b w) → each f w rs = .ok x →
    ∃ as cs, rs = as ++ cs ∧ (∀ b ∈ bs ++ as, D b x.2) ∧ ((x.1 = none ∧ cs = []) ∨ ∃ e c cs', x.1 = some e ∧ cs = c :: cs' ∧ f x.2 c = .ok (some e, x.2)) := by
  induction rs with
  | nil =>
    intro w x bs hk hb h
    cases h
    exact ⟨[], [], rfl, by simpa using hb, .inl ⟨rfl, rfl⟩⟩
  | cons r rs ih =>
    intro w x bs hk hb h
    obtain ⟨⟨e, w1⟩, h1, h2⟩ := Out.bind_eq_ok.1 h
    cases e with
    | some e =>
      cases h2
      have := s.fails h1
      subst this
      exact ⟨[], r :: rs, rfl, by simpa using hb, .inr ⟨e, r, rs, rfl, rfl, h1⟩⟩
    | none =>
      obtain ⟨as, cs, h3, h4, h5⟩ := ih (bs := bs ++ [r]) (s.keys hk h1) (by
        intro b hb'
        rcases List.mem_append.1 hb' with hb' | hb'
        · exact s.keeps hk (hb b hb') h1
        · rw [List.mem_singleton] at hb'
          subst hb'
          exact s.makes hk h1) h2
      exact ⟨r :: as, cs, by rw [h3]; rfl, by simpa using h4, h5⟩

theorem each_idle (s : Steps f D) (as cs : List Str) : ∀ {w : Mgr}, (∀ a ∈ as, D a w) → ∃ L, each f w (as ++ cs) = each f (lg w L) cs := by
  induction as with
  | nil => intro w _; exact ⟨w.log, rfl⟩
  | cons a as ih =>
    intro w h
    obtain ⟨L, h1⟩ := s.idle (h a (List.mem_cons_self ..))
    obtain ⟨L2, h2⟩ := ih (w := lg w L) fun b hb => s.log L (h b (List.mem_cons_of_mem _ hb))
    refine ⟨L2, ?_⟩
    rw [List.cons_append, each, h1]
    exact h2

theorem each_twice (s : Steps f D) {rs : List Str} {w : Mgr} {x : Option Err × Mgr} (hk : w.trie.keys = dataKeys) (h : each f w rs = .ok x) :
    ∃ L, each f x.2 rs = .ok (x.1, lg x.2 L) := by
  obtain ⟨as, cs, rfl, h1, h2⟩ := each_first s rs (bs := []) hk (fun _ hb => by cases hb) h
  obtain ⟨L, h3⟩ := each_idle s as cs (w := x.2) h1
  refine ⟨L, ?_⟩
  rw [h3]
  obtain ⟨e, w'⟩ := x
  rcases h2 with ⟨h4, rfl⟩ | ⟨e', c, cs', h4, rfl, h5⟩
  · simp only at h4
    subst h4
    rfl
  · simp only at h4
    subst h4
    rw [each, s.again L h5]
    rfl

end

/-- The two rows of an assignment. -/
def two (w : Mgr) (a : Data) (b : Str → Data) (n : Option Str) : Out (Option Err × Mgr) :=
  (w.addData a).bind fun w1 => match n with
    | none => .ok ((none : Option Err), w1)
    | some n => (w1.addData (b n)).map fun w2 => (none, w2)

theorem two_ok {w : Mgr} {a : Data} {b : Str → Data} {n : Option Str} {x : Option Err × Mgr} (h : two w a b n = .ok x) :
    x.1 = none ∧ Rows w x.2 ∧ ∃ w1, w.addData a = .ok w1 ∧ ((n = none ∧ x.2 = w1) ∨ ∃ m, n = some m ∧ w1.addData (b m) = .ok x.2) := by
  obtain ⟨w1, h1, h2⟩ := Out.bind_eq_ok.1 h
  cases n with
  | none => cases h2; exact ⟨rfl, addData_rows h1, w1, h1, .inl ⟨rfl, rfl⟩⟩
  | some n =>
    obtain ⟨w2, h3, rfl⟩ := Out.map_eq_ok.1 h2
    exact ⟨rfl, (addData_rows h1).trans (addData_rows h3), w1, h1, .inr ⟨n, rfl, h3⟩⟩

theorem two_makes {w : Mgr} {a : Data} {b : Str → Data} {n : Option Str} {x : Option Err × Mgr} (hk : w.trie.keys = dataKeys)
    (hab : ∀ m, path (b m) ≠ path a) (h : two w a b n = .ok x) : Row x.2 a ∧ ∀ m, n = some m → Row x.2 (b m) := by
  obtain ⟨-, -, w1, h1, ⟨rfl, h2⟩ | ⟨m, rfl, h2⟩⟩ := two_ok h
  · rw [h2]
    exact ⟨addData_makes hk h1, fun m hm => by cases hm⟩
  · refine ⟨addData_keeps (addData_makes hk h1) (fun e => (hab m e).elim) h2, fun m' hm => ?_⟩
    cases hm
    exact addData_makes (addData_keys hk h1) h2

theorem two_keeps {w : Mgr} {a : Data} {b : Str → Data} {n : Option Str} {x : Option Err × Mgr} {d : Data} (hr : Row w d)
    (ha : path a = path d → a = d) (hb : ∀ m, path (b m) = path d → b m = d) (h : two w a b n = .ok x) : Row x.2 d := by
  obtain ⟨-, -, w1, h1, ⟨rfl, h2⟩ | ⟨m, rfl, h2⟩⟩ := two_ok h
  · rw [h2]; exact addData_keeps hr ha h1
  · exact addData_keeps (addData_keeps hr ha h1) (hb m) h2

theorem Row.lg {w : Mgr} {d : Data} (h : Row w d) (L : List Data) : Row (lg w L) d := h

theorem two_idle {w : Mgr} {a : Data} {b : Str → Data} {n : Option Str} (ha : Row w a) (hb : ∀ m, n = some m → Row w (b m)) :
    ∃ L, two w a b n = .ok (none, Rep.lg w L) := by
  rw [two, addData_row ha]
  simp only [Out.bind_ok]
  cases n with
  | none => exact ⟨_, rfl⟩
  | some m =>
    simp only
    rw [addData_row (Row.lg (hb m rfl) _)]
    exact ⟨_, rfl⟩

/-- The step of a loop: look two ids up, then write two rows. -/
def step (reg : Mgr → GoMap Str Nat) (e0 : Err) (c : Nat) (p : Str) (a : TenantObj → Str → Data) (b : TenantObj → Str → Str → Data) (w : Mgr) (r : Str) :
    Out (Option Err × Mgr) :=
  w.withTenant c fun t =>
    if (w.principals.get p).isNone then .ok (some .noPrincipal, w)
    else if ((reg w).get r).isNone then .ok (some e0, w)
    else two w (a t r) (b t r) t.defNs

/-- The step has nothing to do. -/
def Idle (reg : Mgr → GoMap Str Nat) (c : Nat) (p : Str) (a : TenantObj → Str → Data) (b : TenantObj → Str → Str → Data) (r : Str) (w : Mgr) : Prop :=
  ∃ t, w.tobjs[c]? = some t ∧ t.managed = true ∧ ¬ (w.principals.get p).isNone ∧ ¬ ((reg w).get r).isNone ∧
    Row w (a t r) ∧ ∀ m, t.defNs = some m → Row w (b t r m)

theorem step_cases {reg : Mgr → GoMap Str Nat} {e0 : Err} {c : Nat} {p : Str} {a : TenantObj → Str → Data} {b : TenantObj → Str → Str → Data}
    {w : Mgr} {r : Str} {x : Option Err × Mgr} (h : step reg e0 c p a b w r = .ok x) :
    ∃ t, w.tobjs[c]? = some t ∧ t.managed = true ∧
      (((w.principals.get p).isNone ∧ x = (some .noPrincipal, w)) ∨
       (¬ (w.principals.get p).isNone ∧ ((reg w).get r).isNone ∧ x = (some e0, w)) ∨
       (¬ (w.principals.get p).isNone ∧ ¬ ((reg w).get r).isNone ∧ two w (a t r) (b t r) t.defNs = .ok x)) := by
  obtain ⟨t, ht, hm, h⟩ := withTenant_ok h
  refine ⟨t, ht, hm, ?_⟩
  by_cases h1 : (w.principals.get p).isNone
  · rw [if_pos h1] at h; cases h; exact .inl ⟨h1, rfl⟩
  · rw [if_neg h1] at h
    by_cases h2 : ((reg w).get r).isNone
    · rw [if_pos h2] at h; cases h; exact .inr (.inl ⟨h1, h2, rfl⟩)
    · rw [if_neg h2] at h; exact .inr (.inr ⟨h1, h2, h⟩)

theorem step_steps {reg : Mgr → GoMap Str Nat} {e0 : Err} {c : Nat} {p : Str} {a : TenantObj → Str → Data} {b : TenantObj → Str → Str → Data}
    (hreg : ∀ w w', Rows w w' → reg w' = reg w) (hab : ∀ t r r' m, path (b t r m) ≠ path (a t r'))
    (ha : ∀ t r r', path (a t r) = path (a t r') → a t r = a t r')
    (hb : ∀ t r r' m m', path (b t r m) = path (b t r' m') → b t r m = b t r' m') :
    Steps (step reg e0 c p a b) (Idle reg c p a b) where
  makes := by
    intro w w' r hk h
    obtain ⟨t, ht, hm, ⟨-, h1⟩ | ⟨-, -, h1⟩ | ⟨h1, h2, h3⟩⟩ := step_cases h
    · cases h1
    · cases h1
    · have hr : Rows w w' := (two_ok h3).2.1
      obtain ⟨h4, h5⟩ := two_makes hk (fun m => hab t r r m) h3
      refine ⟨t, by rw [hr]; exact ht, hm, by rw [hr]; exact h1, by rw [hreg _ _ hr]; exact h2, h4, h5⟩
  idle := by
    intro w r ⟨t, ht, hm, h1, h2, h3, h4⟩
    rw [step, withTenant_eq ht hm, if_neg h1, if_neg h2]
    exact two_idle h3 h4
  log := by
    intro w r L ⟨t, ht, hm, h1, h2, h3, h4⟩
    exact ⟨t, ht, hm, h1, by rw [hreg w (lg w L) rfl]; exact h2, h3, h4⟩
  keeps := by
    intro w r r' x hk ⟨t, ht, hm, h1, h2, h3, h4⟩ h
    obtain ⟨t', ht', -, ⟨-, h5⟩ | ⟨-, -, h5⟩ | ⟨-, -, h5⟩⟩ := step_cases h
    · subst h5; exact ⟨t, ht, hm, h1, h2, h3, h4⟩
    · subst h5; exact ⟨t, ht, hm, h1, h2, h3, h4⟩
    · rw [ht] at ht'
      cases ht'
      have hr : Rows w x.2 := (two_ok h5).2.1
      refine ⟨t, by rw [hr]; exact ht, hm, by rw [hr]; exact h1, by rw [hreg _ _ hr]; exact h2, ?_, fun m hm => ?_⟩
      · exact two_keeps h3 (ha t r' r) (fun m e => (hab t r' r m e).elim) h5
      · exact two_keeps (h4 m hm) (fun e => (hab t r r' m e.symm).elim) (fun m' => hb t r' r m' m) h5
  keys := by
    intro w r x hk h
    obtain ⟨t, -, -, ⟨-, h5⟩ | ⟨-, -, h5⟩ | ⟨-, -, h5⟩⟩ := step_cases h
    · subst h5; exact hk
    · subst h5; exact hk
    · exact (two_makes hk (fun m => hab t r r m) h5).1.1
  fails := by
    intro w r e w' h
    obtain ⟨t, -, -, ⟨-, h5⟩ | ⟨-, -, h5⟩ | ⟨-, -, h5⟩⟩ := step_cases h
    · cases h5; rfl
    · cases h5; rfl
    · exact absurd (two_ok h5).1 (by simp)
  again := by
    intro w r e L h
    obtain ⟨t, ht, hm, ⟨h1, h5⟩ | ⟨h1, h2, h5⟩ | ⟨-, -, h5⟩⟩ := step_cases h
    · cases h5
      rw [step, withTenant_eq (w := lg w L) ht hm]
      exact if_pos h1
    · cases h5
      rw [step, withTenant_eq (w := lg w L) ht hm]
      rw [hreg w (lg w L) rfl]
      exact (if_neg h1).trans (if_pos h2)
    · exact absurd (two_ok h5).1 (by simp)

theorem roleSteps (c : Nat) (p : Str) (m : Bool) : ∃ D, Steps (fun w r => w.tAddPrincipalWithRole c p r m) D :=
  ⟨_, step_steps (reg := (·.roles)) (e0 := .noRole) (c := c) (p := p)
    (a := fun t r => { tenant := .str t.id, principal := .str p, role := .str r, manage := .bool m })
    (b := fun t r n => { tenant := .str t.id, namespace_ := .str n, principal := .str p, role := .str r, manage := .bool m })
    (fun w w' h => by rw [h]) (by intros; simp [path, strip]) (by intro t r r' h; simpa [path, strip] using h) (by intro t r r' k k' h; simpa [path, strip] using h)⟩

theorem scopeSteps (c : Nat) (p : Str) (m : Bool) : ∃ D, Steps (fun w r => w.tAddScopeToPrincipal c p r m) D :=
  ⟨_, step_steps (reg := (·.scopes)) (e0 := .noScope) (c := c) (p := p)
    (a := fun t r => { tenant := .str t.id, scope := .str r, principal := .str p, manage := .bool m })
    (b := fun t r n => { tenant := .str t.id, namespace_ := .str n, scope := .str r, principal := .str p, manage := .bool m })
    (fun w w' h => by rw [h]) (by intros; simp [path, strip]) (by intro t r r' h; simpa [path, strip] using h) (by intro t r r' k k' h; simpa [path, strip] using h)⟩

theorem each_one (f : Mgr → Str → Out (Option Err × Mgr)) (w : Mgr) (r : Str) : each f w [r] = f w r := by
  rw [each]
  cases f w r with
  | ok x => obtain ⟨e, w'⟩ := x; cases e <;> rfl
  | panic => rfl
  | diverge => rfl

/-! ## Descendants -/

/-- One turn of `AddDescendant`. -/
def desc1 (w : Mgr) (c d : Nat) : Out Mgr :=
  match w.tobjs[c]?, w.tobjs[d]? with
  | some ct, some dt =>
    let w1 :=
      if (ct.desc.get dt.id).isSome then w
      else { w with tobjs := w.tobjs.set c { ct with desc := ct.desc.set dt.id d } }
    match ct.defNs with
    | none => .ok w1
    | some n => (w1.tAddNamespace d n).bind fun w2 => w2.tSetDefaultNamespace d n
  | _, _ => .panic

theorem desc_cons (w : Mgr) (c d : Nat) (ds : List Nat) : w.tAddDescendant c (d :: ds) = (desc1 w c d).bind fun w' => w'.tAddDescendant c ds := by
  rw [Mgr.tAddDescendant, desc1]
  cases w.tobjs[c]? with
  | none => rfl
  | some ct =>
    cases w.tobjs[d]? with
    | none => rfl
    | some dt =>
      simp only
      generalize (if (ct.desc.get dt.id).isSome then w else { w with tobjs := w.tobjs.set c { ct with desc := ct.desc.set dt.id d } }) = w1
      cases ct.defNs with
      | none => rfl
      | some n =>
        simp only
        cases w1.tAddNamespace d n <;> rfl

/-- The turn for `d` has nothing to do. -/
def DIdle (c d : Nat) (w : Mgr) : Prop :=
  w.trie.keys = dataKeys ∧ ∃ ct dt, w.tobjs[c]? = some ct ∧ w.tobjs[d]? = some dt ∧ (ct.desc.get dt.id).isSome ∧
    ∀ n, ct.defNs = some n → dt.managed = true ∧ Row w { tenant := .str dt.id, namespace_ := .str n } ∧
      ((w.namespaces.get n).isSome → dt.defNs = some n)

theorem desc1_idle {w : Mgr} {c d : Nat} (h : DIdle c d w) : ∃ L, desc1 w c d = .ok (lg w L) := by
  obtain ⟨-, ct, dt, h1, h2, h3, h4⟩ := h
  simp only [desc1, h1, h2, if_pos h3]
  cases hn : ct.defNs with
  | none => exact ⟨w.log, rfl⟩
  | some n =>
    obtain ⟨h5, h6, h7⟩ := h4 n hn
    refine ⟨w.log ++ [{ tenant := .str dt.id, namespace_ := .str n }], ?_⟩
    simp only [Mgr.tAddNamespace, withTenant_eq h2 h5, addData_row h6, Out.bind_ok, Mgr.tSetDefaultNamespace]
    generalize w.log ++ [({ tenant := .str dt.id, namespace_ := .str n } : Data)] = L
    rw [withTenant_eq (w := lg w L) h2 h5]
    by_cases h8 : ((lg w L).namespaces.get n).isSome = true
    · rw [if_pos h8]
      have e : ({ dt with defNs := some n } : TenantObj) = dt := by rw [← h7 h8]
      show Out.ok ({ lg w L with tobjs := w.tobjs.set d { dt with defNs := some n } } : Mgr) = _
      rw [e, set_get_same h2]
      rfl
    · rw [if_neg h8]

/-- How a turn changes the tenants: `n` is the default namespace of the receiver. -/
structure Turn (c d : Nat) (n : Option Str) (w w' : Mgr) : Prop where
  namespaces : w'.namespaces = w.namespaces
  keys : w'.trie.keys = dataKeys
  tobjs : ∀ (i : Nat) (t : TenantObj), w.tobjs[i]? = some t → ∃ t' : TenantObj, w'.tobjs[i]? = some t' ∧ t'.id = t.id ∧ t'.managed = t.managed ∧
    (∀ k, (t.desc.get k).isSome → (t'.desc.get k).isSome) ∧ (t'.defNs = t.defNs ∨ t'.defNs = n)
  rows : ∀ e, Row w e → (∀ t m, path { tenant := .str t, namespace_ := .str m } = path e → ({ tenant := .str t, namespace_ := .str m } : Data) = e) → Row w' e

theorem Turn.refl {c d : Nat} {n : Option Str} {w : Mgr} (hk : w.trie.keys = dataKeys) : Turn c d n w w :=
  ⟨rfl, hk, fun _ t h => ⟨t, h, rfl, rfl, fun _ h => h, .inl rfl⟩, fun _ h _ => h⟩

theorem Turn.trans {c d : Nat} {n : Option Str} {a b e : Mgr} (h1 : Turn c d n a b) (h2 : Turn c d n b e) : Turn c d n a e := by
  refine ⟨h2.namespaces.trans h1.namespaces, h2.keys, fun i t h => ?_, fun r h hp => h2.rows r (h1.rows r h hp) hp⟩
  obtain ⟨t1, g1, g2, g3, g4, g5⟩ := h1.tobjs i t h
  obtain ⟨t2, k1, k2, k3, k4, k5⟩ := h2.tobjs i t1 g1
  refine ⟨t2, k1, k2.trans g2, k3.trans g3, fun k hk => k4 k (g4 k hk), ?_⟩
  rcases k5 with k5 | k5
  · rw [k5]; exact g5
  · exact .inr k5

theorem turn_addNs {c d : Nat} {n : Str} {w w' : Mgr} (hk : w.trie.keys = dataKeys) (h : w.tAddNamespace d n = .ok w') : Turn c d (some n) w w' := by
  obtain ⟨t, ht, hm, h⟩ := withTenant_ok h
  have hr := addData_rows h
  refine ⟨by rw [hr], addData_keys hk h, fun i t h => ⟨t, by rw [hr]; exact h, rfl, rfl, fun _ h => h, .inl rfl⟩, fun e he hp => ?_⟩
  exact addData_keeps he (hp _ _) h

theorem turn_setDef {c d : Nat} {n : Str} {w w' : Mgr} (hk : w.trie.keys = dataKeys) (h : w.tSetDefaultNamespace d n = .ok w') : Turn c d (some n) w w' := by
  obtain ⟨t, ht, hm, h⟩ := withTenant_ok h
  split at h
  · cases h
    refine ⟨rfl, hk, fun i t0 h0 => ?_, fun e he _ => he⟩
    by_cases hi : d = i
    · subst hi
      rw [ht] at h0
      cases h0
      exact ⟨_, List.getElem?_set_self (lt_of_get ht), rfl, rfl, fun _ h => h, .inr rfl⟩
    · exact ⟨t0, by rw [← h0]; exact List.getElem?_set_ne hi, rfl, rfl, fun _ h => h, .inl rfl⟩
  · cases h; exact .refl hk

theorem turn_link {c d : Nat} {n : Option Str} {w : Mgr} {ct dt : TenantObj} (hk : w.trie.keys = dataKeys) (h1 : w.tobjs[c]? = some ct) :
    Turn c d n w (if (ct.desc.get dt.id).isSome then w else { w with tobjs := w.tobjs.set c { ct with desc := ct.desc.set dt.id d } }) := by
  split
  · exact .refl hk
  · refine ⟨rfl, hk, fun i t0 h0 => ?_, fun e he _ => he⟩
    by_cases hi : c = i
    · subst hi
      rw [h1] at h0
      cases h0
      refine ⟨_, List.getElem?_set_self (lt_of_get h1), rfl, rfl, fun k hk => ?_, .inl rfl⟩
      show ((ct.desc.set dt.id d).get k).isSome
      rw [GoMap.get_set]
      split
      · rfl
      · exact hk
    · exact ⟨t0, by rw [← h0]; exact List.getElem?_set_ne hi, rfl, rfl, fun _ h => h, .inl rfl⟩

theorem desc1_turn {w w' : Mgr} {c d : Nat} (hk : w.trie.keys = dataKeys) (h : desc1 w c d = .ok w') :
    ∃ ct, w.tobjs[c]? = some ct ∧ Turn c d ct.defNs w w' ∧ DIdle c d w' := by
  unfold desc1 at h
  cases h1 : w.tobjs[c]? with
  | none => rw [h1] at h; cases h
  | some ct =>
    cases h2 : w.tobjs[d]? with
    | none => rw [h1, h2] at h; cases h
    | some dt =>
      rw [h1, h2] at h
      simp only at h
      refine ⟨ct, rfl, ?_⟩
      have k1 := turn_link (c := c) (d := d) (n := ct.defNs) (dt := dt) hk h1
      have k2 : ∃ ct1, (if (ct.desc.get dt.id).isSome then w else { w with tobjs := w.tobjs.set c { ct with desc := ct.desc.set dt.id d } }).tobjs[c]? = some ct1 ∧
          (ct1.desc.get dt.id).isSome ∧ ct1.defNs = ct.defNs := by
        split
        · rename_i h3; exact ⟨ct, h1, h3, rfl⟩
        · refine ⟨_, List.getElem?_set_self (lt_of_get h1), ?_, rfl⟩
          simp only [GoMap.get_set, if_true, Option.isSome_some]
      generalize (if (ct.desc.get dt.id).isSome then w else { w with tobjs := w.tobjs.set c { ct with desc := ct.desc.set dt.id d } }) = w1 at h k1 k2
      obtain ⟨ct1, k3, k4, k5⟩ := k2
      obtain ⟨dt1, g1, g2, g3, g4, g5⟩ := k1.tobjs d dt h2
      cases hn : ct.defNs with
      | none =>
        rw [hn] at h k1 k5
        cases h
        exact ⟨k1, k1.keys, ct1, dt1, k3, g1, by rw [g2]; exact k4, fun n e => by rw [k5] at e; cases e⟩
      | some n =>
        rw [hn] at h k1 k5 g5
        obtain ⟨w2, e1, e2⟩ := Out.bind_eq_ok.1 h
        have t1 := turn_addNs (c := c) k1.keys e1
        have t2 := turn_setDef (c := c) t1.keys e2
        refine ⟨(k1.trans t1).trans t2, t2.keys, ?_⟩
        obtain ⟨tt, a1, a2, a3⟩ := withTenant_ok e1
        rw [g1] at a1
        cases a1
        have hr := addData_rows a3
        have row := addData_makes k1.keys a3
        obtain ⟨ct2, b1, b2, b3, b4, b5⟩ := (t1.trans t2).tobjs c ct1 k3
        obtain ⟨dt2, d1, d2, d3, d4, d5⟩ := (t1.trans t2).tobjs d dt1 g1
        refine ⟨ct2, dt2, b1, d1, by rw [d2, g2]; exact b4 _ k4, fun m hm => ?_⟩
        have hm' : m = n := by
          rcases b5 with b5 | b5
          · rw [b5, k5] at hm; cases hm; rfl
          · rw [b5] at hm; cases hm; rfl
        subst hm'
        refine ⟨d3.trans a2, ?_, fun hs => ?_⟩
        · rw [d2]
          exact t2.rows _ row fun t m e => by simpa [path, strip] using e
        · obtain ⟨t3, c1, c2, c3⟩ := withTenant_ok e2
          have hs2 : (w2.namespaces.get m).isSome := by rw [← t2.namespaces]; exact hs
          rw [if_pos hs2] at c3
          cases c3
          rw [show ({ w2 with tobjs := w2.tobjs.set d { t3 with defNs := some m } } : Mgr).tobjs[d]? = some { t3 with defNs := some m } from
            List.getElem?_set_self (lt_of_get c1)] at d1
          cases d1
          rfl

theorem desc1_keeps {w w' : Mgr} {c d e : Nat} (hi : DIdle c e w) (h : desc1 w c d = .ok w') : DIdle c e w' := by
  obtain ⟨ct, h1, t, -⟩ := desc1_turn hi.1 h
  obtain ⟨hk, ct', et, h2, h3, h4, h5⟩ := hi
  rw [h1] at h2
  cases h2
  obtain ⟨ct1, b1, b2, b3, b4, b5⟩ := t.tobjs c ct h1
  obtain ⟨et1, d1, d2, d3, d4, d5⟩ := t.tobjs e et h3
  refine ⟨t.keys, ct1, et1, b1, d1, by rw [d2]; exact b4 _ h4, fun n hn => ?_⟩
  have hn' : ct.defNs = some n := by
    rcases b5 with b5 | b5
    · exact b5.symm.trans hn
    · exact b5.symm.trans hn
  obtain ⟨h6, h7, h8⟩ := h5 n hn'
  refine ⟨d3.trans h6, ?_, fun hs => ?_⟩
  · rw [d2]
    exact t.rows _ h7 fun t m e => by simpa [path, strip] using e
  · rw [t.namespaces] at hs
    rcases d5 with d5 | d5
    · exact d5.trans (h8 hs)
    · exact d5.trans hn'

theorem desc_all (c : Nat) (ds : List Nat) : ∀ {w w' : Mgr} {bs : List Nat}, w.trie.keys = dataKeys → (∀ b ∈ bs, DIdle c b w) → w.tAddDescendant c ds = .ok w' →
    ∀ b ∈ bs ++ ds, DIdle c b w' := by
  induction ds with
  | nil => intro w w' bs hk hb h; cases h; simpa using hb
  | cons d ds ih =>
    intro w w' bs hk hb h
    rw [desc_cons] at h
    obtain ⟨w1, h1, h2⟩ := Out.bind_eq_ok.1 h
    obtain ⟨_, _, t, hd⟩ := desc1_turn hk h1
    have := ih (bs := bs ++ [d]) t.keys (by
      intro b hb'
      rcases List.mem_append.1 hb' with hb' | hb'
      · exact desc1_keeps (hb b hb') h1
      · rw [List.mem_singleton] at hb'
        subst hb'
        exact hd) h2
    simpa using this

theorem desc_idle (c : Nat) (ds : List Nat) : ∀ {w : Mgr}, (∀ b ∈ ds, DIdle c b w) → ∃ L, w.tAddDescendant c ds = .ok (lg w L) := by
  induction ds with
  | nil => intro w _; exact ⟨w.log, rfl⟩
  | cons d ds ih =>
    intro w h
    obtain ⟨L, h1⟩ := desc1_idle (h d (List.mem_cons_self ..))
    rw [desc_cons, h1]
    exact ih (w := lg w L) fun b hb => h b (List.mem_cons_of_mem _ hb)

/-! ## Every call -/

theorem register_twice (m : GoMap Str Nat) (id : Str) (obj : Nat) : (register (register m id obj).2 id obj).2 = (register m id obj).2 := by
  unfold register
  cases h : m.get id with
  | some d => simp only [h]
  | none => simp only [GoMap.get_set, if_true]

theorem op_twice {op : MOp} (hc : Change op) {w w' : Mgr} (hk : w.trie.keys = dataKeys) (h : op.apply w = .ok w') : ∃ L, op.apply w' = .ok (lg w' L) := by
  cases op with
  | role op =>
    obtain ⟨h1, h2, rfl⟩ := Out.map_eq_ok.1 h
    refine ⟨w.log, ?_⟩
    simp only [MOp.apply, roleOp hc h2, Out.map_ok]
    rfl
  | newTenant id => exact hc.elim
  | addTenant a =>
    obtain ⟨x, h1, rfl⟩ := Out.map_eq_ok.1 h
    refine ⟨w.log, ?_⟩
    unfold Mgr.addTenant at h1
    cases ht : w.tobjs[a]? with
    | none => rw [ht] at h1; cases h1
    | some t =>
      rw [ht] at h1
      cases h1
      simp only [MOp.apply, Mgr.addTenant, List.getElem?_set_self (lt_of_get ht), register_twice, List.set_set, Out.map_ok]
      rfl
  | addNamespace id obj =>
    cases h
    exact ⟨w.log, by simp only [MOp.apply, Mgr.addNamespace, register_twice]; rfl⟩
  | addScope id obj =>
    cases h
    exact ⟨w.log, by simp only [MOp.apply, Mgr.addScope, register_twice]; rfl⟩
  | addPrincipal id obj =>
    cases h
    exact ⟨w.log, by simp only [MOp.apply, Mgr.addPrincipal, register_twice]; rfl⟩
  | addRole r =>
    obtain ⟨x, h1, rfl⟩ := Out.map_eq_ok.1 h
    refine ⟨w.log, ?_⟩
    unfold Mgr.addRole at h1
    cases hr : w.heap.roles[r]? with
    | none => rw [hr] at h1; cases h1
    | some ro =>
      rw [hr] at h1
      cases h1
      simp only [MOp.apply, Mgr.addRole, hr, register_twice, Out.map_ok]
      rfl
  | addAttribute a obj =>
    cases h
    exact ⟨w.log, by simp only [MOp.apply, Mgr.addAttribute, register_twice]; rfl⟩
  | addAttributeGroup ga =>
    obtain ⟨x, h1, rfl⟩ := Out.map_eq_ok.1 h
    refine ⟨w.log, ?_⟩
    unfold Mgr.addAttributeGroup at h1
    cases hr : w.heap.groups[ga]? with
    | none => rw [hr] at h1; cases h1
    | some g =>
      rw [hr] at h1
      cases h1
      simp only [MOp.apply, Mgr.addAttributeGroup, hr, register_twice, Out.map_ok]
      rfl
  | addData d => exact ⟨_, addData_row (addData_makes hk h)⟩
  | tAddNamespace c n => exact row_twice hk h
  | tAddScopesToNamespace c n s => exact row_twice hk h
  | tSetDefaultNamespace c n =>
    obtain ⟨t, ht, hm, h⟩ := withTenant_ok h
    by_cases hn : (w.namespaces.get n).isSome
    · rw [if_pos hn] at h
      cases h
      refine ⟨w.log, ?_⟩
      have e : (w.tobjs.set c { t with defNs := some n })[c]? = some { t with defNs := some n } := List.getElem?_set_self (lt_of_get ht)
      simp only [MOp.apply, Mgr.tSetDefaultNamespace]
      rw [withTenant_eq (w := { w with tobjs := w.tobjs.set c { t with defNs := some n } }) e hm]
      simp only [if_pos hn, List.set_set]
      rfl
    · rw [if_neg hn] at h
      cases h
      refine ⟨w.log, ?_⟩
      simp only [MOp.apply, Mgr.tSetDefaultNamespace]
      rw [withTenant_eq ht hm, if_neg hn]
      rfl
  | tAddPrincipalInNamespace c p n r => exact row_twice hk h
  | tAddRole c r => exact row_twice hk h
  | tAddScope c s => exact row_twice hk h
  | tAddDescendant c ds => exact desc_idle c ds (desc_all c ds (bs := []) hk (fun _ hb => by cases hb) h)
  | tAddPrincipalWithRole c p r m =>
    obtain ⟨x, h1, rfl⟩ := Out.map_eq_ok.1 h
    obtain ⟨D, s⟩ := roleSteps c p m
    obtain ⟨L, h2⟩ := each_twice s (rs := [r]) hk (by rw [each_one]; exact h1)
    rw [each_one] at h2
    exact ⟨L, by simp only [MOp.apply]; rw [h2]; rfl⟩
  | tAddPrincipal c p m rs =>
    obtain ⟨x, h1, rfl⟩ := Out.map_eq_ok.1 h
    obtain ⟨D, s⟩ := roleSteps c p m
    rw [principal_each] at h1
    obtain ⟨L, h2⟩ := each_twice s hk h1
    exact ⟨L, by simp only [MOp.apply]; rw [principal_each, h2]; rfl⟩
  | tAddScopeToPrincipal c p r m =>
    obtain ⟨x, h1, rfl⟩ := Out.map_eq_ok.1 h
    obtain ⟨D, s⟩ := scopeSteps c p m
    obtain ⟨L, h2⟩ := each_twice s (rs := [r]) hk (by rw [each_one]; exact h1)
    rw [each_one] at h2
    exact ⟨L, by simp only [MOp.apply]; rw [h2]; rfl⟩
  | tAssignScopes c p m rs =>
    obtain ⟨x, h1, rfl⟩ := Out.map_eq_ok.1 h
    obtain ⟨D, s⟩ := scopeSteps c p m
    rw [assign_each] at h1
    obtain ⟨L, h2⟩ := each_twice s hk h1
    exact ⟨L, by simp only [MOp.apply]; rw [assign_each, h2]; rfl⟩
  | addPermissionsToRole r g as =>
    obtain ⟨x, h1, rfl⟩ := Out.map_eq_ok.1 h
    refine ⟨w.log, ?_⟩
    obtain ⟨y, h2, h3⟩ := Out.map_eq_ok.1 (addTo_twice h1)
    simp only [MOp.apply, h2, Out.map_ok, h3]
    rfl
  | tenantChildren o fuel site id => exact hc.elim
  | implicitTenants o fuel site p => exact hc.elim
  | authorize o fuel site p opts => exact hc.elim

theorem run_append (a b : List MOp) : ∀ w : Mgr, MOp.run w (a ++ b) = (MOp.run w a).bind fun w' => MOp.run w' b := by
  induction a with
  | nil => intro w; rfl
  | cons op a ih =>
    intro w
    show (op.apply w).bind _ = ((op.apply w).bind _).bind _
    cases op.apply w with
    | ok w1 => exact ih w1
    | panic => rfl
    | diverge => rfl

end Rep

open Rep

/-- C144.  In any history, make a call twice in a row instead of once: the history ends in the same way, and in the same
state but for the ghost.  Hence every later call, query and decision has the same result. -/
theorem C144 (pre post : List MOp) (op : MOp) (hc : Change op) :
    (∀ w, MOp.run {} (pre ++ op :: post) = .ok w → ∃ v, MOp.run {} (pre ++ op :: op :: post) = .ok v ∧ EqualButLog w v) ∧
    (∀ o n site p opts, ((MOp.run {} (pre ++ op :: post)).bind fun w => (w.authorize o n site p opts).map (·.1)) =
      ((MOp.run {} (pre ++ op :: op :: post)).bind fun w => (w.authorize o n site p opts).map (·.1))) := by
  have key : (MOp.run {} (pre ++ op :: post)).map fg = (MOp.run {} (pre ++ op :: op :: post)).map fg := by
    rw [run_append, run_append]
    cases h1 : MOp.run {} pre with
    | panic => rfl
    | diverge => rfl
    | ok w0 =>
      simp only [Out.bind_ok, MOp.run]
      cases h2 : op.apply w0 with
      | panic => rfl
      | diverge => rfl
      | ok w1 =>
        obtain ⟨L, h3⟩ := op_twice hc (MOp.run_inv Mgr.Inv.empty h1).trie.keysEq h2
        simp only [Out.bind_ok, h3]
        exact (run_lg post w1 L).symm
  refine ⟨fun w h => ?_, fun o n site p opts => ?_⟩
  · rw [h] at key
    cases h2 : MOp.run {} (pre ++ op :: op :: post) with
    | panic => rw [h2] at key; cases key
    | diverge => rw [h2] at key; cases key
    | ok v =>
      rw [h2] at key
      simp only [Out.map_ok, Out.ok.injEq] at key
      obtain ⟨L, rfl⟩ := exists_lg key.symm
      exact ⟨_, rfl, rfl⟩
  · have := same_bind (k := fg) (k' := id) (f := fun w : Mgr => (w.authorize o n site p opts).map (·.1)) (g := fun w : Mgr => (w.authorize o n site p opts).map (·.1)) key fun a b h => by
      obtain ⟨L, rfl⟩ := exists_lg h
      exact same_map (k := pr) (authorize_lg b L o n site p opts) fun x y h => by obtain ⟨_, rfl⟩ := pr_eq h; rfl
    have e : ∀ x : Out Bool, x.map id = x := fun x => by cases x <;> rfl
    rwa [e, e] at this

namespace Rep

/-- A tenant, its child and a user who may read. -/
def exPre : List MOp :=
  [.newTenant (str "t"), .newTenant (str "u"), .addTenant 0, .addTenant 1, .addNamespace (str "n") 0, .tSetDefaultNamespace 0 (str "n"),
   .addPrincipal (str "a") 0, .role (.newRole (str "r")), .addRole 0, .role (.addPerm 0 (str "docs") [⟨str "/x", str "GET"⟩]), .tAddRole 0 (str "r"), .tAddRole 1 (str "r")]

/-- The request for tenant `u`. -/
def exAsk (w : Mgr) : Out Bool :=
  (w.authorize .fwd 4 [] (str "a") [.tenant (.str (str "u")), .namespace_ (.str (str "n")), .group (.str (str "docs")), .activity (.str (str "/x GET"))]).map (·.1)

/-- C144: a managing user of `t` may read in its child `u`, however often the child was linked. -/
example : Change (.tAddDescendant 0 [1]) ∧ (∃ w, MOp.run {} (exPre ++ .tAddDescendant 0 [1] :: [.tAddPrincipal 0 (str "a") true [str "r"]]) = .ok w ∧ exAsk w = .ok true) ∧
    (∃ w, MOp.run {} (exPre ++ .tAddDescendant 0 [1] :: .tAddDescendant 0 [1] :: [.tAddPrincipal 0 (str "a") true [str "r"]]) = .ok w ∧ exAsk w = .ok true) ∧
    (∃ w, MOp.run {} (exPre ++ [.tAddDescendant 0 [1]]) = .ok w ∧ exAsk w = .ok false) :=
  ⟨trivial, Out.chk_ok (by decide +kernel), Out.chk_ok (by decide +kernel), Out.chk_ok (by decide +kernel)⟩

/-- A namespace and a scope with the same id. -/
def exApart : List MOp :=
  [.newTenant (str "t"), .addTenant 0, .addPrincipal (str "a") 0, .addNamespace (str "x") 0, .addScope (str "x") 0,
   .addData { tenant := .str (str "t"), principal := .str (str "a") }, .tAddNamespace 0 (str "x"), .tAddScope 0 (str "x")]

end Rep

/-- C144.  The two calls must follow each other: here a namespace is added, then a scope with the same id, whose row takes the
place of the row of the namespace.  Adding the namespace again changes a decision. -/
theorem C144_apart : ∃ w1 w2, MOp.run {} exApart = .ok w1 ∧ MOp.run {} (exApart ++ [.tAddNamespace 0 (str "x")]) = .ok w2 ∧
    (w1.authorize .fwd 3 [] (str "a") [.tenant (.str (str "t")), .namespace_ (.str (str "x"))]).map (·.1) = .ok false ∧
    (w2.authorize .fwd 3 [] (str "a") [.tenant (.str (str "t")), .namespace_ (.str (str "x"))]).map (·.1) = .ok true := by
  obtain ⟨w1, h1, h2⟩ := Out.chk_ok (x := MOp.run {} exApart) (P := fun w =>
    (w.authorize .fwd 3 [] (str "a") [.tenant (.str (str "t")), .namespace_ (.str (str "x"))]).map (·.1) = .ok false) (by decide +kernel)
  obtain ⟨w2, h3, h4⟩ := Out.chk_ok (x := MOp.run {} (exApart ++ [.tAddNamespace 0 (str "x")])) (P := fun w =>
    (w.authorize .fwd 3 [] (str "a") [.tenant (.str (str "t")), .namespace_ (.str (str "x"))]).map (·.1) = .ok true) (by decide +kernel)
  exact ⟨w1, w2, h1, h3, h2, h4⟩

end Verif
