import Verif.Props.V1Assign

/-!
# C68, C69: the getters of package `v1`
(v1/role_manager.go:301-440, v1/tenant.go:21-29)
-/

namespace Verif
open Spec
namespace V1
variable {w : V1} {o : Ord} {site : List Val}

/-! ## C68 -/

/-- The list holds exactly the assignments with `P`; each once, if no id contains `_`. -/
def Holds (w : V1) (l : List TP) (P : TP → Prop) : Prop :=
  (∀ x, x ∈ l ↔ Row w x ∧ P x) ∧ ((∀ x ∈ w.log, Clean x) → l.Nodup)

theorem rows_forall₂ {hs : List Str} {i : Nat} {l : List TP}
    (h : Out.collectI (fun _ h => (decode h).map fun x => [x]) i hs = .ok l) : List.Forall₂ Fields hs l := by
  induction hs generalizing i l with
  | nil => cases h; exact .nil
  | cons k hs ih =>
    simp only [Out.collectI, Out.bind_eq_ok, Out.ok.injEq] at h
    obtain ⟨ys, h1, zs, h2, rfl⟩ := h
    obtain ⟨y, h3, rfl⟩ := Out.map_eq_ok.1 h1
    exact .cons (decode_iff.1 h3) (ih h2)

theorem fields_left (inv : Inv w) (hc : ∀ x ∈ w.log, Clean x) {h k : Str} {x : TP} (hh : h ∈ w.tps) (hk : k ∈ w.tps)
    (h1 : Fields h x) (h2 : Fields k x) : h = k := by
  obtain ⟨y, hy, rfl⟩ := (inv.tps h).1 hh
  obtain ⟨z, hz, rfl⟩ := (inv.tps k).1 hk
  rw [fields_unique (fields_encode (hc y hy)) h1, fields_unique (fields_encode (hc z hz)) h2]

theorem rows_nodup (inv : Inv w) (hc : ∀ x ∈ w.log, Clean x) {l : List TP} (h : w.rows o site = .ok l) : l.Nodup := by
  have hf := rows_forall₂ h
  have hn : (o.ord site _ w.tps).Nodup := (o.perm site _ _).nodup_iff.2 inv.tpsNodup
  have hm : ∀ k ∈ o.ord site _ w.tps, k ∈ w.tps := fun k => Ord.mem_ord.1
  generalize o.ord site _ w.tps = hs at hf hn hm
  clear h
  induction hf with
  | nil => simp
  | cons h1 h2 ih =>
    rename_i k x ks xs
    rw [List.nodup_cons] at hn ⊢
    refine ⟨fun hx => hn.1 ?_, ih hn.2 fun k hk => hm k (by simp [hk])⟩
    obtain ⟨i, hi⟩ := List.mem_iff_getElem?.1 hx
    have : ∀ (ks : List Str) (xs : List TP), List.Forall₂ Fields ks xs → x ∈ xs → ∃ k' ∈ ks, Fields k' x := by
      intro ks xs hf hx
      induction hf with
      | nil => simp at hx
      | cons a b ih =>
        rcases List.mem_cons.1 hx with rfl | hx
        · exact ⟨_, by simp, a⟩
        · obtain ⟨k', h1, h2⟩ := ih hx; exact ⟨k', by simp [h1], h2⟩
    obtain ⟨k', h3, h4⟩ := this ks xs h2 hx
    rw [fields_left inv hc (hm k (by simp)) (hm k' (by simp [h3])) h1 h4]
    exact h3

theorem holds_filter (inv : Inv w) {l : List TP} (h : w.rows o site = .ok l) {q : TP → Bool} {P : TP → Prop}
    (hq : ∀ x, q x = true ↔ P x) : Holds w (l.filter q) P :=
  ⟨fun x => by rw [List.mem_filter, rows_mem h, hq], fun hc => (rows_nodup inv hc h).filter _⟩

/-- C68. `GetPrincipalRoles`, `GetTenantRoles` and `GetPrincipalRolesByTenant` always return, and list exactly the
assignments of the principal in the tenant, of the tenant. -/
theorem C68_roles (inv : Inv w) (o : Ord) (site : List Val) (t p : Str) :
    (∃ l, w.principalRoles o site t p = .ok l ∧ Holds w l fun x => x.principal = p ∧ x.tenant = t) ∧
    ∃ l, w.tenantRoles o site t = .ok l ∧ Holds w l fun x => x.tenant = t := by
  obtain ⟨l, hl⟩ := rows_total inv o site
  exact ⟨⟨_, by unfold principalRoles; rw [hl]; rfl, holds_filter inv hl (by simp)⟩,
    ⟨_, by unfold tenantRoles; rw [hl]; rfl, holds_filter inv hl (by simp)⟩⟩

/-- The scopes of the listed assignments, in order. -/
def Scopes (w : V1) (ss : List Str) (P : TP → Prop) : Prop := ∃ l, Holds w l P ∧ ss = l.map (·.scope)

/-- C68. `GetScopesForPrincipal` fails exactly for unregistered principals; otherwise it gives the scope of every
assignment of the principal that has one. -/
theorem C68_scopes (inv : Inv w) (o : Ord) (site : List Val) (p : Str) :
    (¬ In w.principals p → w.scopesForPrincipal o site p = .ok none) ∧
    (In w.principals p → ∃ ss, w.scopesForPrincipal o site p = .ok (some ss) ∧
      Scopes w ss fun x => x.principal = p ∧ x.scope ≠ []) := by
  obtain ⟨l, hl⟩ := rows_total inv o site
  unfold scopesForPrincipal
  constructor
  · intro h; rw [in_iff_not.2 h]
  · intro h
    obtain ⟨a, ha⟩ := Option.isSome_iff_exists.1 (in_iff.2 h)
    rw [ha, hl]
    exact ⟨_, rfl, _, holds_filter inv hl (by simp), rfl⟩

/-- C68. `GetTenantScopesForPrincipal` fails exactly for unregistered principals or tenants; otherwise it gives the
scope of every assignment of the principal in the tenant that has one. -/
theorem C68_tenantScopes (inv : Inv w) (o : Ord) (site : List Val) (t p : Str) :
    (¬ (In w.principals p ∧ In w.tenants t) → w.tenantScopesForPrincipal o site t p = .ok none) ∧
    (In w.principals p → In w.tenants t → ∃ ss, w.tenantScopesForPrincipal o site t p = .ok (some ss) ∧
      Scopes w ss fun x => x.principal = p ∧ x.scope ≠ [] ∧ x.tenant = t) := by
  obtain ⟨l, hl⟩ := rows_total inv o site
  unfold tenantScopesForPrincipal
  constructor
  · intro h
    split
    · rfl
    · rename_i a ha
      rw [in_iff_not.2 fun ht => h ⟨in_iff.1 (by simp [ha]), ht⟩]
  · intro h ht
    obtain ⟨a, ha⟩ := Option.isSome_iff_exists.1 (in_iff.2 h)
    obtain ⟨b, hb⟩ := Option.isSome_iff_exists.1 (in_iff.2 ht)
    rw [ha, hb, hl]
    exact ⟨_, rfl, _, holds_filter inv hl (by simp), rfl⟩

/-- The permissions a role carries itself: every group with its attributes. -/
def OwnPermissions (h : RHeap) (r : Nat) (m : GoMap Str (List Attr)) : Prop :=
  ∀ k, ((m.get k).isSome ↔ ∃ g, GroupOf h r k g) ∧
    ∀ a, a ∈ (m.get k).getD [] ↔ ∃ g, GroupOf h r k g ∧ ∃ key, (key, a) ∈ g.perms

theorem getPermissions_total {h : RHeap} (ok : Spec.RHeap.OK h) (o : Ord) (site : List Val) {r : Nat}
    (hr : r < h.roles.length) : ∃ m, h.getPermissions o site r = .ok m := by
  have hr' : h.roles[r]? = some h.roles[r] := List.getElem?_eq_getElem hr
  rw [RHeap.getPermissions, hr']
  simp only
  have key : ∀ (l : List (Str × Nat)) (i : Nat) (acc : GoMap Str (List Attr)), (∀ e ∈ l, e.2 < h.groups.length) →
      ∃ m, RHeap.getPermissions.loop h o site i l acc = .ok m := by
    intro l
    induction l with
    | nil => intro i acc _; exact ⟨acc, rfl⟩
    | cons e l ih =>
      intro i acc hl
      rw [RHeap.getPermissions.loop, List.getElem?_eq_getElem (hl e (by simp))]
      exact ih _ _ fun x hx => hl x (by simp [hx])
  exact key _ _ _ fun e he => ok.perms _ (List.getElem_mem hr) e (Ord.mem_ord.1 he)

/-- C68. `GetRolePermissions` fails exactly for unregistered roles; otherwise it gives the role's own permissions. -/
theorem C68_rolePermissions (inv : Inv w) (o : Ord) (site : List Val) (r : Str) :
    (w.rolePermissions o site r = .ok none ∧ ¬ In w.roles r) ∨
    ∃ m a, w.rolePermissions o site r = .ok (some m) ∧ (r, a) ∈ w.roles ∧ OwnPermissions w.heap a m := by
  unfold rolePermissions
  cases h : w.roles.get r with
  | none => exact .inl ⟨rfl, in_iff_not.1 h⟩
  | some a =>
    obtain ⟨ro, hro, _⟩ := inv.roles r a h
    obtain ⟨m, hm⟩ := getPermissions_total inv.heap o site (RHeap.lt_of_get hro)
    exact .inr ⟨m, a, by simp [hm, Out.map], GoMap.get_some_mem h, C18_own_listing inv.heap hm⟩

theorem permissions_loop (inv : Inv w) {t p : Str} {l : List TP} {i : Nat} :
    ∃ r, Out.collectI (fun i (x : TP) =>
        if x.principal = p ∧ x.tenant = t ∧ x.role ≠ [] then
          match w.roles.get x.role with
          | none => .ok []
          | some a => (w.heap.getPermissions o (site ++ [.int 1, .int i]) a).map fun m => [(x, m)]
        else .ok []) i l = .ok r ∧
      r.map (·.1) = l.filter (fun x => decide (x.principal = p ∧ x.tenant = t ∧ x.role ≠ []) &&
        (w.roles.get x.role).isSome) ∧
      ∀ e ∈ r, ∃ a, (e.1.role, a) ∈ w.roles ∧ OwnPermissions w.heap a e.2 := by
  induction l generalizing i with
  | nil => exact ⟨[], rfl, rfl, by simp⟩
  | cons x l ih =>
    obtain ⟨r, h1, h2, h3⟩ := ih (i := i + 1)
    rw [Out.collectI, h1]
    by_cases hx : x.principal = p ∧ x.tenant = t ∧ x.role ≠ []
    · cases hr : w.roles.get x.role with
      | none => exact ⟨r, by simp [hx], by simp [hr, h2], h3⟩
      | some a =>
        obtain ⟨ro, hro, _⟩ := inv.roles _ _ hr
        obtain ⟨m, hm⟩ := getPermissions_total inv.heap o (site ++ [.int 1, .int i]) (RHeap.lt_of_get hro)
        refine ⟨(x, m) :: r, by simp [hx, hm, Out.map], by rw [List.filter_cons_of_pos (by simp [hx, hr])]; simp [h2], ?_⟩
        intro e he
        rcases List.mem_cons.1 he with rfl | he
        · exact ⟨a, GoMap.get_some_mem hr, C18_own_listing inv.heap hm⟩
        · exact h3 e he
    · exact ⟨r, by simp [hx], by rw [List.filter_cons_of_neg (by simp [hx])]; exact h2, h3⟩

/-- C68. `GetPermissionsForPrincipal` always returns, and gives one entry for every assignment of the principal in the
tenant with a registered role, with that role's own permissions. -/
theorem C68_permissions (inv : Inv w) (o : Ord) (site : List Val) (t p : Str) :
    ∃ r, w.permissionsForPrincipal o site t p = .ok r ∧
      Holds w (r.map (·.1)) (fun x => x.principal = p ∧ x.tenant = t ∧ x.role ≠ [] ∧ In w.roles x.role) ∧
      ∀ e ∈ r, ∃ a, (e.1.role, a) ∈ w.roles ∧ OwnPermissions w.heap a e.2 := by
  obtain ⟨l, hl⟩ := rows_total inv o (site ++ [.int 0])
  obtain ⟨r, h1, h2, h3⟩ := permissions_loop (o := o) (site := site) inv (t := t) (p := p) (l := l) (i := 0)
  refine ⟨r, by unfold permissionsForPrincipal; rw [hl]; exact h1, ?_, h3⟩
  rw [h2]
  exact holds_filter inv hl fun x => by
    rw [Bool.and_eq_true, in_iff, decide_eq_true_eq, and_assoc, and_assoc]

/-- C68. `GetTenantsForPrincipal` always returns and lists exactly the tenants of the principal's assignments. -/
theorem C68_tenants (inv : Inv w) (o : Ord) (site : List Val) (p : Str) :
    ∃ ts, w.tenantsForPrincipal o site p = .ok ts ∧ ∀ t, t ∈ ts ↔ ∃ x, Row w x ∧ x.principal = p ∧ x.tenant = t := by
  obtain ⟨ts, h⟩ := tenantsForPrincipal_total inv o site p
  exact ⟨ts, h, fun t => tenantsForPrincipal_mem h t⟩

/-- The claim: `GetTenantsForPrincipal` lists every tenant once. -/
def C68_full : Prop := ∀ (ops : List V1Op) (w : V1), V1Op.run {} ops = .ok w →
  ∀ (o : Ord) (site : List Val) (p : Str) (ts : List Str), w.tenantsForPrincipal o site p = .ok ts → ts.Nodup

/-- Two tenants, with two assignments in the first and one in the second stored between them. -/
def twoTenants : List V1Op := [
  .newTenant (str "t"), .newTenant (str "u"), .addTenant 0, .addTenant 1, .addPrincipal (str "p") 0,
  .addPrincipalRole (str "p") (str "r") 0 none none [], .addPrincipalRole (str "p") (str "r") 1 none none [],
  .addPrincipalRole (str "p") (str "q") 0 none none []]

theorem C68_counterexample : ∃ w, V1Op.run {} twoTenants = .ok w ∧
    w.tenantsForPrincipal .fwd [] (str "p") = .ok [str "t", str "u", str "t"] := Out.chk_ok (by decide +kernel)

theorem C68_full_false : ¬ C68_full := by
  intro hf
  obtain ⟨w, hw, h⟩ := C68_counterexample
  exact absurd (hf _ w hw _ _ _ _ h) (by decide)

theorem slicesCompact_const {t : Str} : ∀ {l : List Str}, (∀ x ∈ l, x = t) → slicesCompact l = if l = [] then [] else [t]
  | [], _ => rfl
  | [x], h => by simp [slicesCompact, h x (by simp)]
  | x :: y :: l, h => by
    have hx := h x (by simp)
    have hy := h y (by simp)
    subst hx
    have ih := slicesCompact_const (l := y :: l) fun z hz => h z (by simp [hz])
    rw [slicesCompact, if_pos hy.symm, ih]
    simp

/-- C68, each tenant once, for principals with assignments in at most one tenant. Missing: several tenants, for which it
depends on the iteration order. -/
theorem C68_once_partial {p t : Str} {ts : List Str} (h1 : ∀ x, Row w x → x.principal = p → x.tenant = t)
    (h : w.tenantsForPrincipal o site p = .ok ts) : ts = [] ∨ ts = [t] := by
  obtain ⟨l, hl, rfl⟩ := Out.map_eq_ok.1 h
  rw [slicesCompact_const (t := t)]
  · split
    · exact .inl rfl
    · exact .inr rfl
  · intro x hx
    obtain ⟨y, hy, rfl⟩ := List.mem_map.1 hx
    rw [List.mem_filter, rows_mem hl] at hy
    exact h1 y hy.1 (by simpa using hy.2)

/-- The getters on the state of `exOps`. -/
example : ∃ w, V1Op.run {} exOps = .ok w ∧ ((∀ x ∈ w.log, Clean x) ∧
    ((w.principalRoles .fwd [] (str "t") (str "p")).Chk fun l => l.length = 4) ∧
    ((w.tenantRoles .rev [] (str "t")).Chk fun l => l.length = 5) ∧
    w.scopesForPrincipal .fwd [] (str "p") = .ok (some [str "s", str "s"]) ∧
    w.scopesForPrincipal .fwd [] (str "nobody") = .ok none ∧
    w.tenantScopesForPrincipal .fwd [] (str "u") (str "p") = .ok (some []) ∧
    ((w.permissionsForPrincipal .fwd [] (str "t") (str "p")).Chk fun l => l.length = 4) ∧
    w.tenantsForPrincipal .fwd [] (str "p") = .ok [str "t"]) := Out.chk_ok (by decide +kernel)

/-! ## C69 -/

/-- C69, exact content of `GetImplicitPrincipalRoles`: the principal's assignments in the tenant, and all assignments,
of whatever principal, in the ids of the tenant's direct descendants. -/
theorem C69_exact (inv : Inv w) (o : Ord) (site : List Val) (t p : Str) :
    ∃ l, w.implicitPrincipalRoles o site t p = .ok l ∧ ∀ x, x ∈ l ↔
      RowsOf w p t x ∨ ∃ tn, TenantAt w t tn ∧ In tn.desc x.tenant ∧ Row w x := by
  obtain ⟨data, hd⟩ := principalRoles_total inv o (site ++ [.int 0]) t p
  have hdm := principalRoles_mem hd
  unfold implicitPrincipalRoles
  rw [hd]
  simp only [Out.bind_ok]
  cases ht : w.tenants.get t with
  | none =>
    refine ⟨data, rfl, fun x => ?_⟩
    rw [hdm]
    constructor
    · exact .inl
    · rintro (h | ⟨tn, h, _⟩)
      · exact h
      · obtain ⟨a, ha, _⟩ := (tenantAt_iff inv).1 h
        rw [ht] at ha; cases ha
  | some a =>
    obtain ⟨tn, h1, _⟩ := inv.tenants t a ht
    have hat : TenantAt w t tn := (tenantAt_iff inv).2 ⟨a, ht, h1⟩
    obtain ⟨more, hm⟩ := Out.collectI_total (i := 0) (xs := o.ord (site ++ [.int 1]) _ tn.desc)
      (f := fun i (e : Str × Nat) => w.tenantRoles o (site ++ [.int 2, .int i]) e.1)
      (fun j e _ => tenantRoles_total inv o _ _)
    have hmm := Out.collectI_mem (P := fun (e : Str × Nat) x => Row w x ∧ x.tenant = e.1)
      (fun j e _ ys hy y => tenantRoles_mem hy y) hm
    refine ⟨data ++ more, by simp only [withT, h1]; rw [hm]; rfl, fun x => ?_⟩
    rw [List.mem_append, hdm, hmm]
    refine or_congr_right ?_
    constructor
    · rintro ⟨⟨k, d⟩, he, h2, rfl⟩; exact ⟨tn, hat, ⟨d, Ord.mem_ord.1 he⟩, h2⟩
    · rintro ⟨tn2, h2, ⟨d, h3⟩, h4⟩
      rw [tenantAt_unique inv h2 hat] at h3
      exact ⟨(_, d), Ord.mem_ord.2 h3, h4, rfl⟩

/-- The claim: only assignments of the principal are listed. -/
def C69_full : Prop := ∀ (ops : List V1Op) (w : V1), V1Op.run {} ops = .ok w →
  ∀ (o : Ord) (site : List Val) (t p : Str) (l : List TP), w.implicitPrincipalRoles o site t p = .ok l →
    ∀ x ∈ l, x.principal = p

/-- Tenant `t` above `u` above `v`, each with an assignment of another principal. -/
def nested : List V1Op := [
  .newTenant (str "t"), .newTenant (str "u"), .newTenant (str "v"), .addTenant 0, .addTenant 1, .addTenant 2,
  .tAddDescendent 0 [1], .tAddDescendent 1 [2], .addPrincipal (str "p") 0,
  .addPrincipalRole (str "p") (str "a") 0 none none [], .addPrincipalRole (str "q") (str "b") 1 none none [],
  .addPrincipalRole (str "p") (str "c") 2 none none []]

/-- The assignment of `q` in `u` is listed for `p`, the assignment of `p` in the grandchild `v` is not. -/
theorem C69_counterexample : ∃ w, V1Op.run {} nested = .ok w ∧
    w.implicitPrincipalRoles .fwd [] (str "t") (str "p") = .ok [
      { tenant := str "t", principal := str "p", role := str "a", manage := true },
      { tenant := str "u", principal := str "q", role := str "b", manage := true }] := Out.chk_ok (by decide +kernel)

theorem C69_full_false : ¬ C69_full := by
  intro hf
  obtain ⟨w, hw, h⟩ := C69_counterexample
  exact absurd (hf _ w hw _ _ _ _ _ h _ (List.mem_cons_of_mem _ (List.mem_cons_self ..))) (by decide)

/-- C69 for tenants without descendants, and for tenants whose descendants hold assignments of the principal only.
Missing: descendants with assignments of others. -/
theorem C69_own_partial (inv : Inv w) {t p : Str} {l : List TP} (h : w.implicitPrincipalRoles o site t p = .ok l)
    (hd : ∀ tn d x, TenantAt w t tn → In tn.desc d → Row w x → x.tenant = d → x.principal = p) :
    ∀ x ∈ l, x.principal = p := by
  intro x hx
  obtain ⟨l', h1, h2⟩ := C69_exact inv o site t p
  rw [h] at h1; cases h1
  rcases (h2 x).1 hx with h3 | ⟨tn, h3, h4, h5⟩
  · exact h3.2.1
  · exact hd tn _ x h3 h4 h5 rfl

/-- Tenant object `d` is a direct descendant of `c`. -/
def DescOf (w : V1) (c d : Nat) : Prop := ∃ t k, w.tobjs[c]? = some t ∧ (k, d) ∈ t.desc

/-- One or more links down. -/
inductive Under (w : V1) : Nat → Nat → Prop where
  | child {c d : Nat} : DescOf w c d → Under w c d
  | step {c m d : Nat} : DescOf w c m → Under w m d → Under w c d

/-- The tenants with their links only, as a role heap (to reuse the lemmas about `GetDescendantRoles`). -/
def links (w : V1) : RHeap := { roles := w.tobjs.map fun t => { id := t.id, desc := t.desc } }

theorem links_child {c d : Nat} : Child w.links c d ↔ DescOf w c d := by
  unfold Child DescOf links
  simp only [List.getElem?_map, Option.map_eq_some_iff]
  constructor
  · rintro ⟨_, k, ⟨t, h1, rfl⟩, h2⟩; exact ⟨t, k, h1, h2⟩
  · rintro ⟨t, k, h1, h2⟩; exact ⟨_, k, ⟨t, h1, rfl⟩, h2⟩

theorem links_desc {c d : Nat} : Desc w.links c d ↔ Under w c d := by
  constructor
  · intro h
    induction h with
    | child h => exact .child (links_child.1 h)
    | step h _ ih => exact .step (links_child.1 h) ih
  · intro h
    induction h with
    | child h => exact .child (links_child.2 h)
    | step h _ ih => exact .step (links_child.2 h) ih

theorem descTenants_eq {n : Nat} {site : List Val} {c : Nat} :
    w.descTenants o n site c = w.links.descRoles o n site c := by
  induction n generalizing site c with
  | zero => rfl
  | succ n ih =>
    rw [descTenants, RHeap.descRoles, withT]
    simp only [links, List.getElem?_map]
    cases w.tobjs[c]? with
    | none => rfl
    | some t => simp only [Option.map_some, ih]; rfl

theorem links_ok (inv : Inv w) : Spec.RHeap.OK w.links := by
  refine ⟨fun r hr e he => ?_, fun r hr e he => ?_, fun r hr => ?_, fun r hr => ?_, fun g hg => ?_, fun g hg => ?_⟩
  · obtain ⟨t, ht, rfl⟩ := List.mem_map.1 hr
    obtain ⟨d, h1, _⟩ := (inv.tobjs t ht).desc e he
    simpa [links] using RHeap.lt_of_get h1
  · obtain ⟨t, ht, rfl⟩ := List.mem_map.1 hr
    simp at he
  · obtain ⟨t, ht, rfl⟩ := List.mem_map.1 hr
    exact (inv.tobjs t ht).descWF
  · obtain ⟨t, ht, rfl⟩ := List.mem_map.1 hr
    exact GoMap.wf_nil
  · simp [links] at hg
  · simp [links] at hg

/-- C69. `GetDescendantTenants` lists exactly the transitive descendants. -/
theorem C69_descendants {n : Nat} {c : Nat} {ds : List Nat} (h : w.descTenants o n site c = .ok ds) (d : Nat) :
    d ∈ ds ↔ Under w c d := by
  rw [descTenants_eq] at h
  rw [RHeap.descRoles_mem h, links_desc]

/-- C69. It returns exactly when no endless chain of descendants starts at the tenant. -/
theorem C69_returns (inv : Inv w) {c : Nat} (hc : c < w.tobjs.length) :
    (∃ n site ds, w.descTenants o n site c = .ok ds) ↔ Acc (fun d c => DescOf w c d) c := by
  have := C17_walk_iff (links_ok inv) (o := o) (r := c) (by simpa [links] using hc)
  simp only [links_child] at this
  simp only [descTenants_eq, this]

/-- C69: `AddDescendent` accepts a cycle; then the walk never returns. -/
theorem C69_cycle : ∃ w, V1Op.run {} [.newTenant (str "t"), .newTenant (str "u"), .tAddDescendent 0 [1],
      .tAddDescendent 1 [0]] = .ok w ∧ ∀ o n site ds, w.descTenants o n site 0 ≠ .ok ds := by
  refine ⟨_, rfl, fun o n site ds h => ?_⟩
  rw [descTenants_eq] at h
  refine C17_cycle ?_ _ _ _ h
  exact links_desc.2 (.step (m := 1) ⟨_, str "u", rfl, by decide⟩ (.child ⟨_, str "t", rfl, by decide⟩))

example : ∃ w, V1Op.run {} nested = .ok w ∧ w.descTenants .fwd 4 [] 0 = .ok [1, 2] := Out.chk_ok (by decide +kernel)

end V1
end Verif
