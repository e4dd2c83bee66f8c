import Verif.Props.V1Recover
import Verif.Props.V1Returns

/-!
# Which calls of package v1 panic (C120)

`Panics` says of every call when it panics, for calls whose addresses lead to objects.
-/

namespace Verif
namespace RV
open Spec

variable {α β : Type} {w w' v : V1}

/-- A pointer is nil or leads to one of `n` objects. -/
def Leads (n : Nat) (p : Option Nat) : Prop := ∀ a, p = some a → a < n

/-- The pointers among the arguments are nil or lead to objects. -/
def Proper (w : V1) : NCall → Prop
  | .addTenants l => ∀ q ∈ l, Leads w.tobjs.length q
  | .addNamespaces l => ∀ q ∈ l, Leads w.nsobjs.length q
  | .addRoles l => ∀ q ∈ l, Leads w.heap.roles.length q
  | .addAttributeGroups l => ∀ q ∈ l, Leads w.heap.groups.length q
  | .roleAddDescendent r ds => Leads w.heap.roles.length r ∧ ∀ q ∈ ds, Leads w.heap.roles.length q
  | .roleAddPermission r _ _ | .roleLock r _ => Leads w.heap.roles.length r
  | .roleAddGroup r ga => Leads w.heap.roles.length r ∧ Leads w.heap.groups.length ga
  | .groupAddAttributes ga _ => Leads w.heap.groups.length ga
  | .addPrincipalRole _ _ c ns _ _ => Leads w.tobjs.length c ∧ Leads w.nsobjs.length ns
  | .tAddPrincipalRole c _ _ d ns _ _ => Leads w.tobjs.length c ∧ Leads w.tobjs.length d ∧ Leads w.nsobjs.length ns
  | .tAddPrincipal c _ _ | .tSetDefaultNamespace c _ => Leads w.tobjs.length c
  | .tAddPrincipalInNamespace _ _ c _ _ _ | .tAssignScopesWithRole _ _ c _ _ _ => Leads w.tobjs.length c
  | .tAssignScopesToPrincipal _ _ c _ _ => Leads w.tobjs.length c
  | .tAddDescendent c ds => Leads w.tobjs.length c ∧ ∀ q ∈ ds, Leads w.tobjs.length q
  | .tAddNamespace c ns => Leads w.tobjs.length c ∧ ∀ q ∈ ns, Leads w.nsobjs.length q
  | .tAddRole c rs => Leads w.tobjs.length c ∧ ∀ q ∈ rs, Leads w.heap.roles.length q
  | .tAddScopes c _ => Leads w.tobjs.length c
  | .tAddScopesToNamespace c _ _ | .tAddRolesToNamespace c _ _ => Leads w.tobjs.length c
  | .nsAddRoles n rs => Leads w.nsobjs.length n ∧ ∀ q ∈ rs, Leads w.heap.roles.length q
  | .nsAddScopes n _ => Leads w.nsobjs.length n
  | _ => True

/-- The role is there and may be changed. -/
def Unlocked (w : V1) (p : Option Nat) : Prop := ∃ r ro, p = some r ∧ w.heap.roles[r]? = some ro ∧ ro.lock = false

/-- The tenant is there and was never registered. -/
def Bare (w : V1) (p : Option Nat) (P : T1Obj → Prop) : Prop := ∃ c t, p = some c ∧ w.tobjs[c]? = some t ∧ t.managed = false ∧ P t

/-- The request, if no option is nil. -/
def Asks (opts : List (Option Opt)) (r : Request) : Prop := ∃ os : List Opt, opts = os.map some ∧ r = requestOf os

/-- When a call panics. -/
def Panics (w : V1) : NCall → Prop
  | .addTenants l | .addNamespaces l | .addRoles l | .addAttributeGroups l => none ∈ l
  | .addScopes l | .addPrincipals l => none ∈ l
  | .addAttributes l => none ∈ l
  | .roleAddDescendent r ds => r = none ∨ Unlocked w r ∧ none ∈ ds
  | .roleAddPermission r _ as => r = none ∨ Unlocked w r ∧ none ∈ as
  | .roleAddGroup r ga => r = none ∨ Unlocked w r ∧ ga = none
  | .roleLock r _ => r = none
  | .groupAddAttributes ga as => as ≠ [] ∧ (ga = none ∨ none ∈ as)
  | .addPermissionsToRole r g as => ∃ (a ga : Nat) (go : GroupObj) (before : List Attr) (after : List (Option Attr)), w.roles.get r = some a ∧ w.attrGroups.get g = some ga ∧ w.heap.groups[ga]? = some go ∧
      as = before.map some ++ none :: after ∧ ∀ x ∈ before, (go.perms.get x.toStr).isSome
  | .addPrincipalRole _ _ c _ _ _ => c = none
  | .tAddPrincipalRole c _ _ d _ _ _ => c = none ∨ Bare w c (fun _ => True) ∨ d = none
  | .tAddPrincipal c _ rs => (rs ≠ [] ∧ c = none) ∨ Bare w c fun t => ∃ r ∈ rs, In t.roles r
  | .tAddPrincipalInNamespace _ _ c _ n rs => c = none ∨ Bare w c fun t => In t.namespaces n ∧ (rs = [] ∨ ∃ r ∈ rs, In t.roles r)
  | .tAssignScopesToPrincipal _ _ c _ _ => c = none ∨ Bare w c fun _ => True
  | .tAssignScopesWithRole _ _ c _ _ ss => ss ≠ [] ∧ (c = none ∨ Bare w c fun _ => True)
  | .tAddDescendent c l | .tAddNamespace c l | .tAddRole c l | .nsAddRoles c l => l ≠ [] ∧ (c = none ∨ none ∈ l)
  | .tAddScopes c l | .nsAddScopes c l => l ≠ [] ∧ (c = none ∨ none ∈ l)
  | .tSetDefaultNamespace c _ => c = none
  | .tAddScopesToNamespace c n ss => (ss ≠ [] ∧ c = none) ∨ Bare w c fun t => ∃ s more, ss = s :: more ∧ In t.scopes s ∧ In t.namespaces n
  | .tAddRolesToNamespace c _ rs => rs ≠ [] ∧ c = none
  | .authorize _ _ _ p opts => none ∈ opts ∨ ∃ r, Asks opts r ∧ V1.OnlyActivity r ∧ In w.principals p ∧ ∃ x, Row w x ∧ x.principal = p ∧ ¬ In w.tenants x.tenant
  | _ => False

/-! ## Loops -/

/-- The numbers of objects. -/
def size (w : V1) : Nat × Nat × Nat × Nat := (w.tobjs.length, w.nsobjs.length, w.heap.roles.length, w.heap.groups.length)

theorem lt_get {l : List α} {i : Nat} (h : i < l.length) : ∃ x, l[i]? = some x := ⟨_, List.getElem?_eq_getElem h⟩

/-- A loop over pointers whose body panics at nil only. -/
theorem each_nil {P : V1 → Prop} {f : Option β → Rec Unit} {l : List (Option β)}
    (hok : ∀ x, some x ∈ l → ∀ v, P v → ∃ v', f (some x) v = (.ok (), v') ∧ P v') (hbad : ∀ v, P v → (f none v).1 = .panic) (hw : P w) :
    (RV.each f l w).1 = .panic ↔ none ∈ l := by
  induction l generalizing w with
  | nil => exact ⟨fun h => (by cases h), fun h => (by cases h)⟩
  | cons q l ih =>
    cases q with
    | none =>
      refine ⟨fun _ => List.mem_cons_self .., fun _ => ?_⟩
      rw [RV.each, Rec.bind, hbad w hw]
    | some x =>
      obtain ⟨w1, h1, p1⟩ := hok x (List.mem_cons_self ..) w hw
      rw [RV.each, bind_of h1]
      refine (ih (fun y hy => hok y (List.mem_cons_of_mem _ hy)) p1).trans ⟨fun h => List.mem_cons_of_mem _ h, fun h => ?_⟩
      rcases List.mem_cons.1 h with h | h
      · cases h
      · exact h

/-- The same for calls, which keep the invariant. -/
theorem calls_nil {g : Option β → NCall} {f : Option β → Rec Unit} {l : List (Option β)} (inv : w.Inv) (hg : ∀ x v, (g x).go v = f x v)
    (hok : ∀ x, some x ∈ l → ∀ v, v.Inv → size v = size w → ∃ v', f (some x) v = (.ok (), v') ∧ size v' = size v) (hbad : ∀ v, (f none v).1 = .panic) :
    (RV.each f l w).1 = .panic ↔ none ∈ l := by
  refine each_nil (P := fun v => v.Inv ∧ size v = size w) (fun x hx v hv => ?_) (fun v _ => hbad v) ⟨inv, rfl⟩
  obtain ⟨v', h1, h2⟩ := hok x hx v hv.1 hv.2
  refine ⟨v', h1, AsIf.inv hv.1 ?_, h2.trans hv.2⟩
  have := Fine.go (g (some x)) hv.1
  unfold Fine at this
  rwa [hg, h1] at this

/-- The same with a receiver that may be nil, too. -/
theorem calls_receiver {g : Option Nat → Option β → NCall} {f : Option Nat → Option β → Rec Unit} {p : Option Nat} {l : List (Option β)} (inv : w.Inv)
    (hg : ∀ p x v, (g p x).go v = f p x v)
    (hok : ∀ c, p = some c → ∀ x, some x ∈ l → ∀ v, v.Inv → size v = size w → ∃ v', f p (some x) v = (.ok (), v') ∧ size v' = size v)
    (hbad : ∀ p v, (f p none v).1 = .panic) (hrec : ∀ x v, (f none x v).1 = .panic) :
    (RV.each (f p) l w).1 = .panic ↔ l ≠ [] ∧ (p = none ∨ none ∈ l) := by
  cases p with
  | none =>
    cases l with
    | nil => exact ⟨fun h => (by cases h), fun h => absurd rfl h.1⟩
    | cons x l => refine ⟨fun _ => ⟨by simp, .inl rfl⟩, fun _ => ?_⟩; rw [RV.each, Rec.bind, hrec]
  | some c =>
    refine (calls_nil (g := g (some c)) inv (hg _) (hok c rfl) (hbad _)).trans ⟨fun h => ⟨List.ne_nil_of_mem h, .inr h⟩, fun h => ?_⟩
    rcases h.2 with h | h
    · cases h
    · exact h

theorem drop_panic {x : Rec α} : (x.drop w).1 = .panic ↔ (x w).1 = .panic := by
  unfold Rec.drop Rec.bind
  cases h : (x w).1 <;> simp

theorem whole_ok {x : Rec α} {s : Out (α × V1)} {a : α} (h : x w = whole s w) (hs : s = .ok (a, w')) : x w = (.ok a, w') := by rw [h, hs]; rfl

theorem sizes (h : size v = size w) : v.tobjs.length = w.tobjs.length ∧ v.nsobjs.length = w.nsobjs.length ∧
    v.heap.roles.length = w.heap.roles.length ∧ v.heap.groups.length = w.heap.groups.length := by
  simp only [size, Prod.mk.injEq] at h; exact h

/-- Registering leaves the objects. -/
theorem register_ok {get : V1 → GoMap Str Nat} {set : V1 → GoMap Str Nat → V1} {id : Str} {obj : Nat} (h : ∀ m, size (set v m) = size v) :
    ∃ v', register get set id obj v = (.ok (), v') ∧ size v' = size v := by
  unfold register
  rw [read_bind]
  cases (get v).get id with
  | none => exact ⟨_, rfl, h _⟩
  | some _ => exact ⟨v, rfl, rfl⟩

theorem keepAttr_ok {ga : Nat} {a : Attr} (h : ga < v.heap.groups.length) : ∃ v', keepAttr ga (some a) v = (.ok (), v') ∧ size v' = size v := by
  obtain ⟨g, hg⟩ := lt_get h
  exact ⟨_, keepOne hg, by simp [size, putGroup]⟩

theorem derefAll_panic {l : List (Option α)} : derefAll l = .panic ↔ none ∈ l := by
  induction l with
  | nil => exact ⟨fun h => (by cases h), fun h => (by cases h)⟩
  | cons q l ih =>
    cases q with
    | none => exact ⟨fun _ => List.mem_cons_self .., fun _ => rfl⟩
    | some x =>
      rw [derefAll, List.mem_cons, ← ih]
      cases derefAll l <;> simp [Out.map, Out.bind]

theorem derefAll_none {l : List (Option α)} (h : none ∉ l) : ∃ os : List α, l = os.map some := by
  induction l with
  | nil => exact ⟨[], rfl⟩
  | cons q l ih =>
    obtain ⟨os, rfl⟩ := ih fun h' => h (List.mem_cons_of_mem _ h')
    cases q with
    | none => exact absurd (List.mem_cons_self ..) h
    | some x => exact ⟨x :: os, rfl⟩

theorem associated_panic {g : GroupObj} {as : List (Option Attr)} : associated g as = .panic ↔
    ∃ (before : List Attr) (after : List (Option Attr)), as = before.map some ++ none :: after ∧ ∀ x ∈ before, (g.perms.get x.toStr).isSome := by
  induction as with
  | nil => exact ⟨fun h => (by cases h), fun ⟨b, _, h, _⟩ => by cases b <;> cases h⟩
  | cons q as ih =>
    cases q with
    | none => exact ⟨fun _ => ⟨[], as, rfl, fun _ h => by cases h⟩, fun _ => rfl⟩
    | some a =>
      rw [associated]
      split
      · rename_i ha
        rw [ih]
        constructor
        · rintro ⟨b, c, rfl, h⟩
          exact ⟨a :: b, c, rfl, fun x hx => by rcases List.mem_cons.1 hx with rfl | hx <;> [exact ha; exact h x hx]⟩
        · rintro ⟨b, c, e, h⟩
          cases b with
          | nil => cases e
          | cons y b =>
            simp only [List.map_cons, List.cons_append, List.cons.injEq, Option.some.injEq] at e
            exact ⟨b, c, e.2, fun x hx => h x (List.mem_cons_of_mem _ hx)⟩
      · rename_i ha
        refine ⟨fun h => (by cases h), ?_⟩
        rintro ⟨b, c, e, h⟩
        cases b with
        | nil => cases e
        | cons y b =>
          simp only [List.map_cons, List.cons_append, List.cons.injEq, Option.some.injEq] at e
          exact absurd (e.1 ▸ h y (List.mem_cons_self ..)) ha

/-! ## Decisions -/

theorem collectI_ne_panic {f : Nat → α → Out (List β)} {xs : List α} {i : Nat} (h : ∀ j, ∀ x ∈ xs, f j x ≠ .panic) : Out.collectI f i xs ≠ .panic := by
  induction xs generalizing i with
  | nil => intro h; cases h
  | cons x xs ih =>
    have ih := ih (i := i + 1) fun j y hy => h j y (List.mem_cons_of_mem _ hy)
    unfold Out.collectI
    cases hx : f i x with
    | panic => exact absurd hx (h i x (List.mem_cons_self ..))
    | diverge => intro h; cases h
    | ok a =>
      rw [Out.bind_ok]
      cases hr : Out.collectI f (i + 1) xs with
      | panic => exact absurd hr ih
      | ok b => intro h; cases h
      | diverge => intro h; cases h

theorem anyI_ne_panic {f : Nat → α → Out Bool} {xs : List α} {i : Nat} (h : ∀ j, ∀ x ∈ xs, f j x ≠ .panic) : Out.anyI f i xs ≠ .panic := by
  induction xs generalizing i with
  | nil => intro h; cases h
  | cons x xs ih =>
    rw [Out.anyI]
    cases hx : f i x with
    | ok b => cases b <;> [exact ih fun j y hy => h j y (List.mem_cons_of_mem _ hy); (intro h; cases h)]
    | panic => exact absurd hx (h i x (List.mem_cons_self ..))
    | diverge => intro h; cases h

theorem descRoles_ne_panic {h : RHeap} (ok : Spec.RHeap.OK h) {o : Ord} {n : Nat} {site : List Val} {r : Nat} (hr : r < h.roles.length) :
    h.descRoles o n site r ≠ .panic := by
  induction n generalizing site r with
  | zero => intro h; cases h
  | succ n ih =>
    obtain ⟨ro, hro⟩ := lt_get hr
    rw [RHeap.descRoles, hro]
    refine collectI_ne_panic fun j e he => ?_
    have := ih (site := site ++ [.int j]) (ok.desc ro (List.mem_of_getElem? hro) e (Ord.mem_ord.1 he))
    cases hx : h.descRoles o n (site ++ [.int j]) e.2 with
    | panic => exact absurd hx this
    | ok _ => intro h; cases h
    | diverge => intro h; cases h

theorem has_ne_panic {h : RHeap} (ok : Spec.RHeap.OK h) {o : Ord} {g name : Str} {allowed : List Str} {n : Nat} {site : List Val} {r : Nat}
    (hr : r < h.roles.length) : h.has o g name allowed n site r ≠ .panic := by
  induction n generalizing site r with
  | zero => intro h; cases h
  | succ n ih =>
    obtain ⟨ro, hro⟩ := lt_get hr
    rw [RHeap.has, hro]
    dsimp only
    cases hg : ro.perms.get g with
    | none => intro h; cases h
    | some ga =>
      obtain ⟨go, hgo⟩ := lt_get (ok.perms ro (List.mem_of_getElem? hro) _ (GoMap.get_some_mem hg))
      dsimp only at hgo ⊢
      rw [hgo]
      dsimp only
      split
      · intro h; cases h
      · have h1 := anyI_ne_panic (f := fun _ (e : Str × Attr) => matchResource name e.1) (i := 0) (xs := o.ord (site ++ [.int 0]) _ go.perms)
          fun _ e _ => matchResource_no_panic _ _
        cases hm : Out.anyI (fun _ (e : Str × Attr) => matchResource name e.1) 0 (o.ord (site ++ [.int 0]) _ go.perms) with
        | panic => exact absurd hm h1
        | diverge => intro h; cases h
        | ok m =>
          rw [Out.bind_ok]
          split
          · intro h; cases h
          · cases hd : h.descRoles o n (site ++ [.int 1]) r with
            | panic => exact absurd hd (descRoles_ne_panic ok hr)
            | diverge => intro h; cases h
            | ok ds =>
              rw [Out.bind_ok]
              refine anyI_ne_panic fun j d hdd => ?_
              have hlt := RHeap.desc_lt ok ((RHeap.descRoles_mem hd d).1 hdd)
              obtain ⟨dr, hdr⟩ := lt_get hlt
              rw [hdr]
              dsimp only
              split
              · split
                · exact ih hlt
                · intro h; cases h
              · exact ih hlt

theorem anyRole_ne_panic (inv : w.Inv) {o : Ord} {fuel : Nat} {site : List Val} {ids allowed : List Str} {g act : Str} :
    w.anyRole o fuel site (w.registeredRoles ids) g act allowed ≠ .panic := by
  refine anyI_ne_panic fun i e he => ?_
  obtain ⟨_, h2⟩ := (V1.registeredRoles_mem inv).1 (Ord.mem_ord.1 he)
  obtain ⟨ro, hro, _⟩ := inv.roles _ _ ((GoMap.mem_iff_get inv.rolesWF).1 h2)
  exact has_ne_panic inv.heap (RHeap.lt_of_get hro)

/-- C97. Only an activity asked for without a tenant, by a principal with an assignment in a tenant that is not registered, panics. -/
theorem C97_panics_exact (inv : w.Inv) {o : Ord} {fuel : Nat} {site : List Val} {p : Str} {os : List Opt} :
    w.authorize o fuel site p os = .panic ↔
      V1.OnlyActivity (requestOf os) ∧ In w.principals p ∧ ∃ x, Row w x ∧ x.principal = p ∧ ¬ In w.tenants x.tenant := by
  by_cases hp : In w.principals p
  · by_cases hr : V1.ResourceRequest (requestOf os)
    · obtain ⟨b, hb⟩ := V1.C37_returns inv hr (p := p) o fuel site
      rw [hb]
      refine ⟨fun h => (by cases h), fun h => ?_⟩
      exact absurd hr.2.1 (h.1.2.2.2.2.2 rfl)
    · obtain ⟨e1, e2⟩ := V1.answer_other (w := w) (o := o) (fuel := fuel) (site := site) hr hp
      by_cases hs : V1.OnlyActivity (requestOf os)
      · by_cases hx : ∃ x, Row w x ∧ x.principal = p ∧ ¬ In w.tenants x.tenant
        · obtain ⟨x, h1, h2, h3⟩ := hx
          exact ⟨fun _ => ⟨hs, hp, x, h1, h2, h3⟩, fun _ => V1.C97_panics inv hs hp h1 h2 h3 o fuel site⟩
        · refine ⟨fun h => ?_, fun h => absurd h.2.2 hx⟩
          exfalso
          have h : w.answer o fuel site p (requestOf os) = .panic := h
          rw [e1 hs, V1.authActivity] at h
          obtain ⟨ts, hts⟩ := V1.tenantsForPrincipal_total inv o (site ++ [.int 0]) p
          obtain ⟨ids, hids⟩ : ∃ ids, Out.collectI (fun i t =>
              (w.principalRoles o (site ++ [.int 1, .int i]) t p).bind fun l =>
              (w.getAllowedRoles o (site ++ [.int 2, .int i]) (V1.nilSlice l) [] []).map fun r => r.getD []) 0 ts = .ok ids := by
            refine Out.collectI_total fun i T _ => ?_
            obtain ⟨l, hl⟩ := V1.principalRoles_total inv o (site ++ [.int 1, .int i]) T p
            obtain ⟨q, hq⟩ := V1.getAllowedRoles_total (o := o) (site := site ++ [.int 2, .int i]) (l := l) (n := []) (s := []) inv
              fun x hm => by
                obtain ⟨h1, h2, _⟩ := (V1.principalRoles_mem hl x).1 hm
                exact Classical.byContradiction fun h3 => hx ⟨x, h1, h2, h3⟩
            exact ⟨_, by rw [hl, Out.bind_ok, hq]; rfl⟩
          rw [hts, Out.bind_ok, hids, Out.bind_ok] at h
          exact anyRole_ne_panic inv h
      · refine ⟨fun h => ?_, fun h => absurd h.1 hs⟩
        exfalso
        have h : w.answer o fuel site p (requestOf os) = .panic := h
        rw [e2 hs, V1.authComplex] at h
        cases ht : w.tenants.get (toStr (requestOf os).tenant) with
        | none => rw [ht] at h; cases h
        | some c =>
          rw [ht] at h
          obtain ⟨t, hc, hid⟩ := inv.tenants _ _ ht
          obtain ⟨l, hl⟩ := V1.principalRoles_total inv o (site ++ [.int 0]) (toStr (requestOf os).tenant) p
          simp only [V1.withT, hc] at h
          rw [hl, Out.bind_ok] at h
          split at h
          · cases h
          · split at h
            · cases h
            · split at h
              · cases h
              · obtain ⟨q, hq⟩ := V1.getAllowedRoles_total (o := o) (site := site ++ [.int 1]) (l := l) (n := toStr (requestOf os).namespace_)
                  (s := toStr (requestOf os).scope) inv fun x hx => by
                    rw [((V1.principalRoles_mem hl x).1 hx).2.2]; exact V1.in_iff.1 (by simp [ht])
                obtain ⟨ids, hids⟩ : ∃ ids, w.allowedRoleIDs o (site ++ [.int 2]) t (q.getD []) = .ok ids := by
                  refine Out.collectI_total fun i e he => ?_
                  obtain ⟨ro, hro, _⟩ := (inv.tobjs t (List.mem_of_getElem? hc)).roles e (Ord.mem_ord.1 he)
                  exact ⟨_, by rw [hro]⟩
                rw [hq, Out.bind_ok, hids, Out.bind_ok] at h
                exact anyRole_ne_panic inv h
  · refine ⟨fun h => ?_, fun h => absurd h.2.1 hp⟩
    have h : w.answer o fuel site p (requestOf os) = .panic := h
    unfold V1.answer at h
    rw [V1.in_iff_not.2 hp] at h
    cases h

/-! ## Every call -/

theorem bind_drop_panic {x : Rec α} {b : β} : ((x.bind fun _ => ret b) w).1 = .panic ↔ (x w).1 = .panic := by
  unfold Rec.bind
  cases h : (x w).1 <;> simp

/-- A tenant with a manager. -/
theorem not_bare {c : Nat} {t : T1Obj} {P : T1Obj → Prop} (ht : w.tobjs[c]? = some t) (hm : t.managed = true) : ¬ Bare w (some c) P := by
  rintro ⟨_, t', e, h1, h2, _⟩
  cases e; rw [ht] at h1; cases h1; rw [hm] at h2; cases h2

theorem bare_iff {c : Nat} {t : T1Obj} {P : T1Obj → Prop} (ht : w.tobjs[c]? = some t) (hm : t.managed = false) : Bare w (some c) P ↔ P t := by
  refine ⟨?_, fun h => ⟨c, t, rfl, ht, hm, h⟩⟩
  rintro ⟨_, t', e, h1, _, h⟩
  cases e; rw [ht] at h1; cases h1; exact h

/-- A loop that stops at the first element that is there. -/
theorem each_first {f : β → Rec Unit} {P : β → Prop} {l : List β} (h1 : ∀ x ∈ l, P x → (f x w).1 = .panic) (h2 : ∀ x ∈ l, ¬ P x → f x w = (.ok (), w)) :
    (RV.each f l w).1 = .panic ↔ ∃ x ∈ l, P x := by
  induction l with
  | nil => exact ⟨fun h => (by cases h), fun ⟨_, h, _⟩ => (by cases h)⟩
  | cons x l ih =>
    by_cases hx : P x
    · refine ⟨fun _ => ⟨x, List.mem_cons_self .., hx⟩, fun _ => ?_⟩
      rw [RV.each, Rec.bind, h1 x (List.mem_cons_self ..) hx]
    · rw [RV.each, bind_of (h2 x (List.mem_cons_self ..) hx),
        ih (fun y hy => h1 y (List.mem_cons_of_mem _ hy)) (fun y hy => h2 y (List.mem_cons_of_mem _ hy))]
      constructor
      · rintro ⟨y, hy, h⟩; exact ⟨y, List.mem_cons_of_mem _ hy, h⟩
      · rintro ⟨y, hy, h⟩
        rcases List.mem_cons.1 hy with rfl | hy
        · exact absurd h hx
        · exact ⟨y, hy, h⟩

theorem unlocked_iff {r : Nat} {ro : RoleObj} (hr : w.heap.roles[r]? = some ro) : Unlocked w (some r) ↔ ro.lock = false := by
  refine ⟨?_, fun h => ⟨r, ro, rfl, hr, h⟩⟩
  rintro ⟨_, ro', e, h1, h⟩
  cases e; rw [hr] at h1; cases h1; exact h

theorem assign_panic {p r : Str} {c ns : Option Nat} {sc : Option Str} {m : List Bool} (hc : Leads w.tobjs.length c) (hns : Leads w.nsobjs.length ns) :
    (RV.addPrincipalRole p r c ns sc m w).1 = .panic ↔ c = none := by
  cases c with
  | none => exact ⟨fun _ => rfl, fun _ => rfl⟩
  | some c =>
    obtain ⟨t, ht⟩ := lt_get (hc c rfl)
    obtain ⟨n, hn⟩ : ∃ n, w.nsID ns = .ok n := by
      cases ns with
      | none => exact ⟨[], rfl⟩
      | some a => obtain ⟨no, h⟩ := lt_get (hns a rfl); exact ⟨no.id, by rw [V1.nsID, h]⟩
    rw [RV.addPrincipalRole, deref_some, ret_bind, tenantAt_bind, ht]
    dsimp only
    rw [look_bind, hn]
    exact ⟨fun h => (by cases h), fun h => (by cases h)⟩

/-- C120. Which calls panic. -/
theorem C120_when {c : NCall} (inv : w.Inv) (hp : Proper w c) : (c.go w).1 = .panic ↔ Panics w c := by
  cases c with
  | newRole id => exact ⟨fun h => (by cases h), fun h => h.elim⟩
  | newGroup id => exact ⟨fun h => (by cases h), fun h => h.elim⟩
  | newTenant id => exact ⟨fun h => (by cases h), fun h => h.elim⟩
  | newNamespace id => exact ⟨fun h => (by cases h), fun h => h.elim⟩
  | addTenants l =>
    refine calls_nil (g := fun x => .addTenants [x]) inv (fun _ _ => each_one) (fun a ha v _ hs => ?_) (fun _ => rfl)
    obtain ⟨t, ht⟩ := lt_get (l := v.tobjs) (by rw [(sizes hs).1]; exact hp _ ha a rfl)
    rw [addTenant, deref_some, ret_bind, tenantAt_bind, ht]
    dsimp only
    show ∃ v', register (·.tenants) (fun w m => { w with tenants := m }) t.id a (v.setT a { t with managed := true }) = _ ∧ _
    obtain ⟨v', h1, h2⟩ := register_ok (v := v.setT a { t with managed := true }) (get := (·.tenants)) (set := fun w m => { w with tenants := m })
      (id := t.id) (obj := a) fun _ => rfl
    exact ⟨v', h1, h2.trans (by simp [size, V1.setT])⟩
  | addNamespaces l =>
    refine calls_nil (g := fun x => .addNamespaces [x]) inv (fun _ _ => each_one) (fun a ha v _ hs => ?_) (fun _ => rfl)
    obtain ⟨n, hn⟩ := lt_get (l := v.nsobjs) (by rw [(sizes hs).2.1]; exact hp _ ha a rfl)
    rw [addNamespace, deref_some, ret_bind, nsAt_bind, hn]
    exact register_ok fun _ => rfl
  | addScopes l => exact calls_nil (g := fun x => .addScopes [x]) inv (fun _ _ => each_one) (fun a ha v _ hs => by
      show ∃ v', register (·.scopes) (fun w m => { w with scopes := m }) a.1 a.2 v = _ ∧ _
      exact register_ok fun _ => rfl) (fun _ => rfl)
  | addPrincipals l => exact calls_nil (g := fun x => .addPrincipals [x]) inv (fun _ _ => each_one) (fun a ha v _ hs => by
      show ∃ v', register (·.principals) (fun w m => { w with principals := m }) a.1 a.2 v = _ ∧ _
      exact register_ok fun _ => rfl) (fun _ => rfl)
  | addAttributes l => exact calls_nil (g := fun x => .addAttributes [x]) inv (fun _ _ => each_one) (fun a ha v _ hs => by
      show ∃ v', register (·.attrs) (fun w m => { w with attrs := m }) a.1.toStr a.2 v = _ ∧ _
      exact register_ok fun _ => rfl) (fun _ => rfl)
  | addRoles l =>
    refine calls_nil (g := fun x => .addRoles [x]) inv (fun _ _ => each_one) (fun a ha v _ hs => ?_) (fun _ => rfl)
    obtain ⟨n, hn⟩ := lt_get (l := v.heap.roles) (by rw [(sizes hs).2.2.1]; exact hp _ ha a rfl)
    rw [addRole, deref_some, ret_bind, roleAt_bind, hn]
    exact register_ok fun _ => rfl
  | addAttributeGroups l =>
    refine calls_nil (g := fun x => .addAttributeGroups [x]) inv (fun _ _ => each_one) (fun a ha v _ hs => ?_) (fun _ => rfl)
    obtain ⟨n, hn⟩ := lt_get (l := v.heap.groups) (by rw [(sizes hs).2.2.2]; exact hp _ ha a rfl)
    rw [addAttributeGroup, deref_some, ret_bind, groupAt_bind, hn]
    exact register_ok fun _ => rfl
  | roleAddDescendent p ds =>
    refine drop_panic.trans ?_
    cases p with
    | none => exact ⟨fun _ => .inl rfl, fun _ => rfl⟩
    | some r =>
      obtain ⟨ro, hr⟩ := lt_get (hp.1 r rfl)
      rw [RV.roleAddDescendent, deref_some, ret_bind, roleAt_bind, hr]
      dsimp only
      cases hl : ro.lock with
      | true =>
        refine ⟨fun h => (by cases h), ?_⟩
        rintro (h | ⟨h, _⟩)
        · cases h
        · rw [unlocked_iff hr, hl] at h; cases h
      | false =>
        rw [if_neg (by simp), bind_drop_panic]
        refine Iff.trans (each_nil (P := fun v => size v = size w) (fun d hd v hv => ?_) (fun v _ => rfl) rfl)
          ⟨fun h => .inr ⟨(unlocked_iff hr).2 hl, h⟩, fun h => h.elim (fun h => by cases h) fun h => h.2⟩
        obtain ⟨ro', hr'⟩ := lt_get (l := v.heap.roles) (i := r) (by rw [(sizes hv).2.2.1]; exact hp.1 r rfl)
        obtain ⟨do_, hd'⟩ := lt_get (l := v.heap.roles) (i := d) (by rw [(sizes hv).2.2.1]; exact hp.2 _ hd d rfl)
        rw [deref_some, ret_bind, roleAt_bind, hd']
        dsimp only
        rw [roleAt_bind, hr']
        dsimp only
        split
        · exact ⟨v, rfl, hv⟩
        · exact ⟨_, rfl, by simpa [size] using hv⟩
  | roleAddPermission p g as =>
    refine drop_panic.trans ?_
    cases p with
    | none => exact ⟨fun _ => .inl rfl, fun _ => rfl⟩
    | some r =>
      obtain ⟨ro, hr⟩ := lt_get (hp r rfl)
      by_cases hn : none ∈ as
      · cases hl : ro.lock with
        | true =>
          rw [RV.roleAddPermission, deref_some, ret_bind, roleAt_bind, hr]
          dsimp only
          rw [if_pos hl]
          refine ⟨fun h => (by cases h), ?_⟩
          rintro (h | ⟨h, _⟩)
          · cases h
          · rw [unlocked_iff hr, hl] at h; cases h
        | false =>
          refine ⟨fun _ => .inr ⟨(unlocked_iff hr).2 hl, hn⟩, fun _ => ?_⟩
          rw [RV.roleAddPermission, deref_some, ret_bind, roleAt_bind, hr]
          dsimp only
          rw [if_neg (by simp [hl])]
          cases hg : ro.perms.get g with
          | none =>
            dsimp only
            rw [look_bind, derefAll_panic.2 hn]
          | some ga =>
            dsimp only
            have hga := inv.heap.perms ro (List.mem_of_getElem? hr) _ (GoMap.get_some_mem hg)
            have := (each_nil (w := w) (f := keepAttr ga) (l := as) (P := fun v => size v = size w) (fun a _ v hv => by
              obtain ⟨v', h1, h2⟩ := keepAttr_ok (v := v) (ga := ga) (a := a) (by rw [(sizes hv).2.2.2]; exact hga)
              exact ⟨v', h1, h2.trans hv⟩) (fun v _ => rfl) rfl).2 hn
            rw [Rec.bind, this]
      · obtain ⟨os, rfl⟩ := derefAll_none hn
        obtain ⟨e, he⟩ := perm_ok inv hr (group := g) (as := os)
        rw [he]
        refine ⟨fun h => (by cases h), ?_⟩
        rintro (h | ⟨_, h⟩)
        · cases h
        · exact absurd h hn
  | roleAddGroup p q =>
    refine drop_panic.trans ?_
    cases p with
    | none => exact ⟨fun _ => .inl rfl, fun _ => rfl⟩
    | some r =>
      obtain ⟨ro, hr⟩ := lt_get (hp.1 r rfl)
      rw [RV.roleAddGroup, deref_some, ret_bind, roleAt_bind, hr]
      dsimp only
      cases hl : ro.lock with
      | true =>
        refine ⟨fun h => (by cases h), ?_⟩
        rintro (h | ⟨h, _⟩)
        · cases h
        · rw [unlocked_iff hr, hl] at h; cases h
      | false =>
        rw [if_neg (by simp)]
        cases q with
        | none => exact ⟨fun _ => .inr ⟨(unlocked_iff hr).2 hl, rfl⟩, fun _ => rfl⟩
        | some ga =>
          obtain ⟨go, hg⟩ := lt_get (hp.2 ga rfl)
          rw [deref_some, ret_bind, groupAt_bind, hg]
          dsimp only
          refine ⟨fun h => ?_, ?_⟩
          · split at h <;> cases h
          · rintro (h | ⟨_, h⟩) <;> cases h
  | roleLock p b =>
    cases p with
    | none => exact ⟨fun _ => rfl, fun _ => rfl⟩
    | some r =>
      obtain ⟨ro, hr⟩ := lt_get (hp r rfl)
      show (RV.roleLock (some r) b w).1 = _ ↔ _
      rw [RV.roleLock, deref_some, ret_bind, roleAt_bind, hr]
      exact ⟨fun h => (by cases h), fun h => (by cases h)⟩
  | groupAddAttributes p as =>
    refine calls_receiver (g := fun p x => .groupAddAttributes p [x])
      (f := fun p q => (deref q).bind fun a => (deref p).bind fun ga => (groupAt ga).bind fun g =>
        write fun w => { w with heap := { w.heap with groups := w.heap.groups.set ga { g with perms := g.perms.set a.toStr a } } })
      inv (fun _ _ _ => each_one) (fun ga e a ha v _ hs => ?_) (fun _ _ => rfl) (fun x _ => by cases x <;> rfl)
    subst e
    obtain ⟨g, hg⟩ := lt_get (l := v.heap.groups) (i := ga) (by rw [(sizes hs).2.2.2]; exact hp ga rfl)
    rw [deref_some, ret_bind, deref_some, ret_bind, groupAt_bind, hg]
    exact ⟨_, rfl, by simp [size]⟩
  | addPermissionsToRole r g as =>
    refine drop_panic.trans ?_
    rw [RV.addPermissionsToRole, read_bind]
    cases hr : w.roles.get r with
    | none =>
      refine ⟨fun h => (by cases h), ?_⟩
      rintro ⟨a, ga, go, b, f, h, _⟩
      rw [h] at hr; cases hr
    | some a =>
      dsimp only
      rw [read_bind]
      cases hg : w.attrGroups.get g with
      | none =>
        refine ⟨fun h => (by cases h), ?_⟩
        rintro ⟨a, ga, go, b, f, _, h, _⟩
        rw [h] at hg; cases hg
      | some ga =>
        obtain ⟨go, hgo, _⟩ := inv.groups _ _ hg
        dsimp only
        rw [groupAt_bind, hgo]
        dsimp only
        rw [look_bind]
        cases ha : associated go as with
        | panic =>
          obtain ⟨b, f, h1, h2⟩ := associated_panic.1 ha
          exact ⟨fun _ => ⟨a, ga, go, b, f, hr, hg, hgo, h1, h2⟩, fun _ => rfl⟩
        | diverge =>
          refine ⟨fun h => (by cases h), ?_⟩
          rintro ⟨a', ga', go', b, f, _, h1, h2, h3, h4⟩
          rw [hg] at h1; cases h1; rw [hgo] at h2; cases h2
          rw [associated_panic.2 ⟨b, f, h3, h4⟩] at ha; cases ha
        | ok x =>
          refine ⟨fun h => ?_, ?_⟩
          · exfalso
            dsimp only at h
            cases x with
            | false => cases h
            | true =>
              obtain ⟨l, rfl⟩ := associated_true ha
              obtain ⟨ro, hro, _⟩ := inv.roles _ _ hr
              obtain ⟨e, he⟩ := perm_ok inv hro (group := g) (as := l)
              rw [if_pos rfl, he] at h; cases h
          · rintro ⟨a', ga', go', b, f, _, h1, h2, h3, h4⟩
            rw [hg] at h1; cases h1; rw [hgo] at h2; cases h2
            rw [associated_panic.2 ⟨b, f, h3, h4⟩] at ha; cases ha
  | addPrincipalRole p r c ns sc m => exact assign_panic hp.1 hp.2
  | tAddPrincipalRole c p r d ns sc m =>
    cases c with
    | none => exact ⟨fun _ => .inl rfl, fun _ => rfl⟩
    | some c =>
      obtain ⟨t, ht⟩ := lt_get (hp.1 c rfl)
      show (RV.tAddPrincipalRole _ _ _ _ _ _ _ w).1 = _ ↔ _
      cases hm : t.managed with
      | false =>
        rw [tAssign_un hm ht]
        exact ⟨fun _ => .inr (.inl ((bare_iff ht hm).2 trivial)), fun _ => rfl⟩
      | true =>
        rw [RV.tAddPrincipalRole, managed_eq, ht]
        dsimp only
        rw [if_pos hm]
        refine (assign_panic hp.2.1 hp.2.2).trans ⟨fun h => .inr (.inr h), ?_⟩
        rintro (h | h | h)
        · cases h
        · exact absurd h (not_bare ht hm)
        · exact h
  | tAddPrincipal c p rs =>
    cases c with
    | none =>
      cases rs with
      | nil =>
        refine ⟨fun h => (by cases h), ?_⟩
        rintro (h | ⟨_, _, h, _⟩)
        · exact absurd rfl h.1
        · cases h
      | cons r rs => exact ⟨fun _ => .inl ⟨by simp, rfl⟩, fun _ => rfl⟩
    | some c =>
      obtain ⟨t, ht⟩ := lt_get (hp c rfl)
      show (RV.tAddPrincipal _ _ _ w).1 = _ ↔ _
      cases hm : t.managed with
      | true =>
        obtain ⟨v, h, _⟩ := each_ok (P := Managed c t) (l := rs) (f := fun r => (RV.deref (some c)).bind fun c => (tenantAt c).bind fun t =>
            if (t.roles.get r).isSome then withDefault c p r none else ret ()) (fun w r _ h => by
          rw [deref_some, ret_bind, tenantAt_bind, h.2]
          dsimp only
          split
          · exact default_ok hm h
          · exact ⟨w, rfl, h⟩) ⟨inv, ht⟩
        rw [RV.tAddPrincipal, h]
        refine ⟨fun h => (by cases h), ?_⟩
        rintro (h | h)
        · cases h.2
        · exact absurd h (not_bare ht hm)
      | false =>
        rw [Panics, bare_iff ht hm]
        refine (each_first (P := fun r => In t.roles r) (fun r _ hr => ?_) (fun r _ hr => ?_)).trans ⟨.inr, fun h => h.elim (fun h => by cases h.2) id⟩
        · rw [deref_some, ret_bind, tenantAt_bind, ht]
          dsimp only
          rw [if_pos (V1.in_iff.2 hr), default_un hm ht]
        · rw [deref_some, ret_bind, tenantAt_bind, ht]
          dsimp only
          rw [if_neg (fun h => hr (V1.in_iff.1 h))]
          rfl
  | tAddPrincipalInNamespace o site c p n rs =>
    cases c with
    | none => exact ⟨fun _ => .inl rfl, fun _ => rfl⟩
    | some c =>
      obtain ⟨t, ht⟩ := lt_get (hp c rfl)
      show (RV.tAddPrincipalInNamespace _ _ _ _ _ _ w).1 = _ ↔ _
      rw [RV.tAddPrincipalInNamespace, deref_some, ret_bind, tenantAt_bind, ht]
      dsimp only
      cases hn : t.namespaces.get n with
      | none =>
        refine ⟨fun h => (by cases h), ?_⟩
        rintro (h | ⟨_, t', e, h1, _, h2, _⟩)
        · cases h
        · cases e; rw [ht] at h1; cases h1; exact absurd h2 (V1.in_iff_not.1 hn)
      | some a =>
        have hn' : In t.namespaces n := V1.in_iff.1 (by rw [hn]; rfl)
        dsimp only
        by_cases hl : 0 < rs.length
        · rw [if_pos hl]
          cases hm : t.managed with
          | true =>
            obtain ⟨v, h, _⟩ := each_ok (P := Managed c t) (l := rs) (f := fun r => (tenantAt c).bind fun t =>
                match t.roles.get r with
                | none => ret ()
                | some ra => (roleAt ra).bind fun ro => RV.tAddPrincipalRole (some c) p ro.id (some c) (some a) none []) (fun w r _ h => by
              rw [tenantAt_bind, h.2]
              dsimp only
              cases hr : t.roles.get r with
              | none => exact ⟨w, rfl, h⟩
              | some ra =>
                obtain ⟨ro, hro, _⟩ := (h.1.tobjs t (List.mem_of_getElem? h.2)).roles _ (GoMap.get_some_mem hr)
                obtain ⟨no, hno, _⟩ := ns_there h.1 h.2 hn
                dsimp only
                rw [roleAt_bind, hro]
                exact tAssign_ok hm h fun a' e => by cases e; exact ⟨no, hno⟩) ⟨inv, ht⟩
            refine ⟨fun h' => absurd ((congrArg Prod.fst h).symm.trans h') (by simp), ?_⟩
            rintro (h | h)
            · cases h
            · exact absurd h (not_bare ht hm)
          | false =>
            rw [Panics, bare_iff ht hm]
            refine (each_first (P := fun r => In t.roles r) (fun r _ hr => ?_) (fun r _ hr => ?_)).trans ⟨fun h => .inr ⟨hn', .inr h⟩, ?_⟩
            · rw [tenantAt_bind, ht]
              dsimp only
              obtain ⟨ra, hra⟩ := Option.isSome_iff_exists.1 (V1.in_iff.2 hr)
              obtain ⟨ro, hro, _⟩ := (inv.tobjs t (List.mem_of_getElem? ht)).roles _ (GoMap.get_some_mem hra)
              rw [hra]
              dsimp only
              rw [roleAt_bind, hro]
              dsimp only
              rw [tAssign_un hm ht]
            · rw [tenantAt_bind, ht]
              dsimp only
              rw [V1.in_iff_not.2 hr]
              rfl
            · rintro (h | ⟨_, h | h⟩)
              · cases h
              · rw [h] at hl; cases hl
              · exact h
        · rw [if_neg hl, managed_eq, ht]
          have hrs : rs = [] := List.eq_nil_of_length_eq_zero (by omega)
          dsimp only
          cases hm : t.managed with
          | false => exact ⟨fun _ => .inr ((bare_iff ht hm).2 ⟨hn', .inl hrs⟩), fun _ => rfl⟩
          | true =>
            simp only [if_true]
            obtain ⟨l, hl'⟩ := V1.tenantRoles_total inv o site t.id
            rw [look_bind, hl']
            dsimp only
            obtain ⟨v, h, hv⟩ := each_ok (P := Managed c t) (l := l) (f := fun x : TP => if x.principal = p ∧ x.namespace_ ≠ [] ∧ x.namespace_ ≠ n then
                RV.tAddPrincipalRole (some c) p x.role (some c) (some a) none [] else ret ()) (fun w x _ h => by
              split
              · obtain ⟨no, hno, _⟩ := ns_there h.1 h.2 hn
                exact tAssign_ok hm h fun a' e => by cases e; exact ⟨no, hno⟩
              · exact ⟨w, rfl, h⟩) ⟨inv, ht⟩
            obtain ⟨no', hno', _⟩ := ns_there hv.1 hv.2 hn
            obtain ⟨u, hu, _⟩ := tAssign_ok hm hv (p := p) (r := []) (ns := some a) (sc := none) fun a' e => by cases e; exact ⟨no', hno'⟩
            rw [bind_of h, hu]
            refine ⟨fun h => (by cases h), ?_⟩
            rintro (h | h)
            · cases h
            · exact absurd h (not_bare ht hm)
  | tAssignScopesToPrincipal o site c p ss =>
    cases c with
    | none => exact ⟨fun _ => .inl rfl, fun _ => rfl⟩
    | some c =>
      obtain ⟨t, ht⟩ := lt_get (hp c rfl)
      show (RV.tAssignScopesToPrincipal _ _ _ _ _ w).1 = _ ↔ _
      rw [RV.tAssignScopesToPrincipal, deref_some, ret_bind, managed_eq, ht]
      dsimp only
      cases hm : t.managed with
      | false => exact ⟨fun _ => .inr ((bare_iff ht hm).2 trivial), fun _ => rfl⟩
      | true =>
        refine ⟨fun h => ?_, fun h => absurd h (by rintro (h | h) <;> [cases h; exact not_bare ht hm h])⟩
        exfalso
        simp only [if_true] at h
        obtain ⟨l, hl⟩ := V1.principalRoles_total inv o site t.id p
        rw [look_bind, hl] at h
        dsimp only at h
        split at h
        · cases h
        · obtain ⟨v, h', _⟩ := each_ok (P := Managed c t) (l := ss) (f := fun s => (tenantAt c).bind fun t =>
              if (t.scopes.get s).isSome then
                (RV.each (fun x : TP => withDefault c p x.role (some s)) l).bind fun _ => RV.tAddPrincipalRole (some c) p [] (some c) none (some s) []
              else ret ()) (fun w s _ h => by
            rw [tenantAt_bind, h.2]
            dsimp only
            split
            · obtain ⟨v, h1, h2⟩ := each_ok (P := Managed c t) (l := l) (f := fun x : TP => withDefault c p x.role (some s)) (fun w x _ h => default_ok hm h) h
              rw [bind_of h1]
              exact tAssign_ok hm h2 (by simp)
            · exact ⟨w, rfl, h⟩) ⟨inv, ht⟩
          rw [h'] at h; cases h
  | tAssignScopesWithRole o site c p r ss =>
    show (RV.tAssignScopesWithRole _ _ _ _ _ _ w).1 = _ ↔ _
    rw [RV.tAssignScopesWithRole]
    by_cases hss : ss.length = 0
    · rw [if_pos hss]
      exact ⟨fun h => (by cases h), fun h => absurd (List.eq_nil_of_length_eq_zero hss) h.1⟩
    · have hss' : ss ≠ [] := fun e => hss (by rw [e]; rfl)
      rw [if_neg hss]
      cases c with
      | none => exact ⟨fun _ => ⟨hss', .inl rfl⟩, fun _ => rfl⟩
      | some c =>
        obtain ⟨t, ht⟩ := lt_get (hp c rfl)
        rw [deref_some, ret_bind, managed_eq, ht]
        dsimp only
        cases hm : t.managed with
        | false => exact ⟨fun _ => ⟨hss', .inr ((bare_iff ht hm).2 trivial)⟩, fun _ => rfl⟩
        | true =>
          refine ⟨fun h => ?_, fun h => absurd h.2 (by rintro (h | h) <;> [cases h; exact not_bare ht hm h])⟩
          exfalso
          simp only [if_true] at h
          obtain ⟨l, hl⟩ := V1.principalRoles_total inv o site t.id p
          rw [look_bind, hl] at h
          dsimp only at h
          split at h
          · cases h
          · split at h
            · obtain ⟨v, h', _⟩ := each_ok (P := Managed c t) (l := ss) (f := fun s => (tenantAt c).bind fun t =>
                  if (t.scopes.get s).isSome then withDefault c p r (some s) else ret ()) (fun w s _ h => by
                rw [tenantAt_bind, h.2]
                dsimp only
                split
                · exact default_ok hm h
                · exact ⟨w, rfl, h⟩) ⟨inv, ht⟩
              rw [h'] at h; cases h
            · cases h
  | tAddDescendent c ds =>
    refine calls_receiver (g := fun p x => .tAddDescendent p [x])
      (f := fun q x => (deref q).bind fun c => (deref x).bind fun d => (tenantAt c).bind fun t => (tenantAt d).bind fun dt =>
        if (t.desc.get dt.id).isSome then ret () else setTenant c { t with desc := t.desc.set dt.id d })
      inv (fun _ _ _ => each_one) (fun c e d hd v _ hs => ?_) (fun p _ => by cases p <;> rfl) (fun x _ => rfl)
    subst e
    obtain ⟨t, ht⟩ := lt_get (l := v.tobjs) (i := c) (by rw [(sizes hs).1]; exact hp.1 c rfl)
    obtain ⟨dt, hdt⟩ := lt_get (l := v.tobjs) (i := d) (by rw [(sizes hs).1]; exact hp.2 _ hd d rfl)
    rw [deref_some, ret_bind, deref_some, ret_bind, tenantAt_bind, ht]
    dsimp only
    rw [tenantAt_bind, hdt]
    dsimp only
    split
    · exact ⟨v, rfl, rfl⟩
    · exact ⟨_, rfl, by simp [size, V1.setT]⟩
  | tSetDefaultNamespace c n =>
    cases c with
    | none => exact ⟨fun _ => rfl, fun _ => rfl⟩
    | some c =>
      obtain ⟨t, ht⟩ := lt_get (hp c rfl)
      show (RV.tSetDefaultNamespace _ _ w).1 = _ ↔ _
      rw [RV.tSetDefaultNamespace, deref_some, ret_bind, tenantAt_bind, ht]
      dsimp only
      refine ⟨fun h => ?_, fun h => (by cases h)⟩
      cases hn : t.namespaces.get n with
      | none => rw [hn] at h; cases h
      | some a => rw [hn] at h; cases h
  | tAddNamespace c ns =>
    refine calls_receiver (g := fun p x => .tAddNamespace p [x])
      (f := fun q x => (deref q).bind fun c => (deref x).bind fun a => (tenantAt c).bind fun t => (nsAt a).bind fun no =>
        if (t.namespaces.get no.id).isSome then ret () else setTenant c { t with namespaces := t.namespaces.set no.id a })
      inv (fun _ _ _ => each_one) (fun c e d hd v _ hs => ?_) (fun p _ => by cases p <;> rfl) (fun x _ => rfl)
    subst e
    obtain ⟨t, ht⟩ := lt_get (l := v.tobjs) (i := c) (by rw [(sizes hs).1]; exact hp.1 c rfl)
    obtain ⟨dt, hdt⟩ := lt_get (l := v.nsobjs) (i := d) (by rw [(sizes hs).2.1]; exact hp.2 _ hd d rfl)
    rw [deref_some, ret_bind, deref_some, ret_bind, tenantAt_bind, ht]
    dsimp only
    rw [nsAt_bind, hdt]
    dsimp only
    split
    · exact ⟨v, rfl, rfl⟩
    · exact ⟨_, rfl, by simp [size, V1.setT]⟩
  | tAddRole c rs =>
    refine calls_receiver (g := fun p x => .tAddRole p [x])
      (f := fun q x => (deref q).bind fun c => (deref x).bind fun r => (tenantAt c).bind fun t => (roleAt r).bind fun ro =>
        if (t.roles.get ro.id).isSome then ret () else setTenant c { t with roles := t.roles.set ro.id r })
      inv (fun _ _ _ => each_one) (fun c e d hd v _ hs => ?_) (fun p _ => by cases p <;> rfl) (fun x _ => rfl)
    subst e
    obtain ⟨t, ht⟩ := lt_get (l := v.tobjs) (i := c) (by rw [(sizes hs).1]; exact hp.1 c rfl)
    obtain ⟨dt, hdt⟩ := lt_get (l := v.heap.roles) (i := d) (by rw [(sizes hs).2.2.1]; exact hp.2 _ hd d rfl)
    rw [deref_some, ret_bind, deref_some, ret_bind, tenantAt_bind, ht]
    dsimp only
    rw [roleAt_bind, hdt]
    dsimp only
    split
    · exact ⟨v, rfl, rfl⟩
    · exact ⟨_, rfl, by simp [size, V1.setT]⟩
  | tAddScopes c ss =>
    refine calls_receiver (g := fun p x => .tAddScopes p [x])
      (f := fun q x => (deref q).bind fun c => (deref x).bind fun s => (tenantAt c).bind fun t =>
        (if (t.scopes.get s.1).isSome then ret () else setTenant c { t with scopes := t.scopes.set s.1 s.2 }).bind fun _ =>
        (tenantAt c).bind fun t =>
        match t.defNs with
        | none => ret ()
        | some a => keepScope a s.1 s.2)
      inv (fun _ _ _ => each_one) (fun c e d hd v iv hs => ?_) (fun p _ => by cases p <;> rfl) (fun x _ => rfl)
    subst e
    obtain ⟨t, ht⟩ := lt_get (l := v.tobjs) (i := c) (by rw [(sizes hs).1]; exact hp c rfl)
    have e := (scope_steps c).step v d iv
    cases hd : t.defNs with
    | none =>
      rw [V1.withT, ht] at e
      dsimp only at e
      rw [hd] at e
      exact ⟨_, e, by simp [size, V1.setT]⟩
    | some a =>
      obtain ⟨no, hno⟩ := def_there iv ht hd
      rw [V1.withT, ht] at e
      dsimp only at e
      rw [hd] at e
      dsimp only at e
      rw [show (v.setT c _).nsobjs[a]? = some no from hno] at e
      exact ⟨_, e, by simp [size, V1.setT, V1.setNs]⟩
  | tAddScopesToNamespace c n ss =>
    cases c with
    | none =>
      cases ss with
      | nil =>
        refine ⟨fun h => (by cases h), ?_⟩
        rintro (h | ⟨_, _, h, _⟩)
        · exact absurd rfl h.1
        · cases h
      | cons r rs => exact ⟨fun _ => .inl ⟨by simp, rfl⟩, fun _ => rfl⟩
    | some c =>
      obtain ⟨t, ht⟩ := lt_get (hp c rfl)
      refine (C120_scope inv ht).1.trans ⟨fun h => .inr ((bare_iff ht h.1).2 h.2), ?_⟩
      rintro (h | ⟨_, t', e, h1, h2⟩)
      · cases h.2
      · cases e; rw [ht] at h1; cases h1; exact h2
  | tAddRolesToNamespace c n rs =>
    cases c with
    | none =>
      cases rs with
      | nil => exact ⟨fun h => (by cases h), fun h => absurd rfl h.1⟩
      | cons r rs => exact ⟨fun _ => ⟨by simp, rfl⟩, fun _ => rfl⟩
    | some c =>
      obtain ⟨t, ht⟩ := lt_get (hp c rfl)
      obtain ⟨v, h⟩ := rolesTo_ok inv ht (n := n) (rs := rs)
      show (RV.tAddRolesToNamespace _ _ _ w).1 = _ ↔ _
      rw [h]
      exact ⟨fun h => (by cases h), fun h => (by cases h.2)⟩
  | nsAddRoles n rs =>
    refine calls_receiver (g := fun p x => .nsAddRoles p [x])
      (f := fun q x => (deref q).bind fun n => (deref x).bind fun r => (nsAt n).bind fun no => (roleAt r).bind fun ro =>
        setNs n { no with roles := no.roles.set ro.id r })
      inv (fun _ _ _ => each_one) (fun c e d hd v _ hs => ?_) (fun p _ => by cases p <;> rfl) (fun x _ => rfl)
    subst e
    obtain ⟨t, ht⟩ := lt_get (l := v.nsobjs) (i := c) (by rw [(sizes hs).2.1]; exact hp.1 c rfl)
    obtain ⟨dt, hdt⟩ := lt_get (l := v.heap.roles) (i := d) (by rw [(sizes hs).2.2.1]; exact hp.2 _ hd d rfl)
    rw [deref_some, ret_bind, deref_some, ret_bind, nsAt_bind, ht]
    dsimp only
    rw [roleAt_bind, hdt]
    exact ⟨_, rfl, by simp [size, V1.setNs]⟩
  | nsAddScopes n ss =>
    refine calls_receiver (g := fun p x => .nsAddScopes p [x])
      (f := fun q x => (deref q).bind fun n => (deref x).bind fun s => (nsAt n).bind fun no => setNs n { no with scopes := no.scopes.set s.1 s.2 })
      inv (fun _ _ _ => each_one) (fun c e d hd v _ hs => ?_) (fun p _ => by cases p <;> rfl) (fun x _ => rfl)
    subst e
    obtain ⟨t, ht⟩ := lt_get (l := v.nsobjs) (i := c) (by rw [(sizes hs).2.1]; exact hp c rfl)
    rw [deref_some, ret_bind, deref_some, ret_bind, nsAt_bind, ht]
    exact ⟨_, rfl, by simp [size, V1.setNs]⟩
  | authorize o fuel site p opts =>
    refine drop_panic.trans ?_
    by_cases hn : none ∈ opts
    · exact ⟨fun _ => .inl hn, fun _ => C120_asked.2.1 hn⟩
    · obtain ⟨os, rfl⟩ := derefAll_none hn
      rw [C120_asked.2.2 os rfl, C97_panics_exact inv]
      constructor
      · rintro h; exact .inr ⟨_, ⟨os, rfl, rfl⟩, h⟩
      · rintro (h | ⟨r, ⟨os', e, rfl⟩, h⟩)
        · exact absurd h hn
        · have : os = os' := List.map_injective_iff.2 (fun _ _ h => Option.some.inj h) e
          subst this; exact h

/-- Whether each of the calls panics after a history. -/
def panicsAfter (h cs : List NCall) : Option (List Bool) := (runAll {} h).map fun w => cs.map fun c => match (c.go w).1 with | .panic => true | _ => false

/-- A group with one attribute is registered. -/
def exGroup : List NCall := [.newGroup (str "g"), .addAttributeGroups [some 1], .groupAddAttributes (some 1) [some exRead]]

/-- C120. Calls that panic and their neighbours that do not: tenant "b" was never registered and has the role "r", the namespace "n" and the scope "s"; tenant
"a" was. A nil attribute counts after associated ones and for a role that is not locked. -/
theorem C120_when_cases :
    panicsAfter exHistory [.tAddPrincipal (some 1) (str "p") [str "u", str "r"], .tAddPrincipal (some 1) (str "p") [str "u"], .tAddPrincipal none (str "p") [],
      .tAddPrincipalInNamespace .fwd [] (some 1) (str "p") (str "n") [], .tAddPrincipalInNamespace .fwd [] (some 1) (str "p") (str "n") [str "u"],
      .tAddPrincipalInNamespace .fwd [] (some 1) (str "p") (str "m") [], .tAddPrincipalInNamespace .fwd [] (some 0) (str "p") (str "n") [],
      .tAssignScopesWithRole .fwd [] (some 1) (str "p") (str "r") [], .tAssignScopesWithRole .fwd [] (some 1) (str "p") (str "r") [str "u"],
      .tAddScopesToNamespace (some 1) (str "n") [str "s", str "u"], .tAddScopesToNamespace (some 1) (str "n") [str "u", str "s"],
      .tAddRolesToNamespace (some 1) (str "n") [str "r"], .tAddRolesToNamespace none (str "n") [str "r"], .nsAddRoles none [], .nsAddRoles (some 0) [none]] =
      some [true, false, false, true, false, false, false, false, true, true, false, false, true, false, true] ∧
    panicsAfter (exHistory ++ exGroup) [.addPermissionsToRole (str "r") (str "g") [some exRead, none], .addPermissionsToRole (str "r") (str "g") [some exWrite, none],
      .addPermissionsToRole (str "u") (str "g") [none], .groupAddAttributes none [], .roleAddPermission (some 0) (str "g") [none]] = some [true, false, false, false, true] ∧
    panicsAfter (exHistory ++ [.roleLock (some 0) true]) [.roleAddPermission (some 0) (str "g") [none], .roleAddDescendent (some 0) [none], .roleAddGroup none none] =
      some [false, false, true] ∧
    panicsAfter exHistory [.authorize .fwd 9 [] (str "p") [some (.activity (.str (str "invoice GET")))], .authorize .fwd 9 [] (str "p") [none]] = some [false, true] ∧
    panicsAfter (exHistory ++ [.addPrincipalRole (str "p") (str "r") (some 1) none none []])
      [.authorize .fwd 9 [] (str "p") [some (.activity (.str (str "invoice GET")))], .authorize .fwd 9 [] (str "q") [some (.activity (.str (str "invoice GET")))],
       .authorize .fwd 9 [] (str "p") [some (.tenant (.str (str "a"))), some (.activity (.str (str "invoice GET")))]] = some [true, false, false] :=
  ⟨by decide +kernel, by decide +kernel, by decide +kernel, by decide +kernel, by decide +kernel⟩

end RV
end Verif
