import Verif.Props.Manager

/-!
# Root manager: termination of `Authorize`, C29 - C35
-/

namespace Verif
open Spec

/-! ## When `Authorize` returns -/

/-- What has to hold for `Authorize(p, r)` to return: the tenants in the rows of `p` are strings, no
infinite chain of descendants below the tenants that `p` manages, the options are strings and, if the
request has an activity, the roles in the stored rows are strings, no infinite chain of roles, and no
pattern loops on the requested activity. -/
structure Returns (w : Mgr) (p : Str) (r : Request) : Prop where
  rows : ∀ row, Stored w row → row.principal = .str p → row.tenant ≠ .nil → ∃ t, row.tenant = .str t
  links : ∀ a c, Manages w p a → w.tenants.get a = some c → Acc (fun d c => TChild w.tobjs c d) c
  tenant : r.tenant = .nil ∨ ∃ s, r.tenant = .str s
  namespace_ : r.namespace_ = .nil ∨ ∃ s, r.namespace_ = .str s
  scope : r.scope = .nil ∨ ∃ s, r.scope = .str s
  act : HasActivity r →
    (∀ row, Stored w row → row.role = .nil ∨ ∃ s, row.role = .str s) ∧
    ∃ g act, r.group = .str g ∧ r.activity = .str act ∧
      ∀ k a, (k, a) ∈ w.roles → Acc (fun d c => Child w.heap c d) a ∧
        ∀ d, (d = a ∨ Desc w.heap a d) → ∀ gr, GroupOf w.heap d g gr → ∀ e ∈ gr.perms, ¬ Hangs e.1 act

namespace Mgr
variable {w : Mgr} {o : Ord}

theorem appendRoles_total {keep : Data → Bool} {l : List Data}
    (h : ∀ d ∈ l, d.role = .nil ∨ ∃ s, d.role = .str s) : ∃ rs, appendRoles keep l = .ok rs := by
  induction l with
  | nil => exact ⟨_, rfl⟩
  | cons d ds ih =>
    obtain ⟨rs, hrs⟩ := ih (fun e he => h e (by simp [he]))
    rw [appendRoles, hrs]
    split
    · rename_i hk
      rcases h d (by simp) with hd | ⟨s, hd⟩
      · rw [hd] at hk; simp at hk
      · rw [hd]; exact ⟨_, rfl⟩
    · exact ⟨_, rfl⟩

/-- All stored rows carry a string role or none. -/
def StrRoles (w : Mgr) : Prop := ∀ row, Stored w row → row.role = .nil ∨ ∃ s, row.role = .str s

theorem search_roles (inv : w.Inv) (hr : StrRoles w) {site : List Val} {f : Data} {cb : Data → Data → Bool} :
    ∀ d ∈ w.search o site f cb, d.role = .nil ∨ ∃ s, d.role = .str s :=
  fun d hd => hr d ((mem_search inv).1 hd).1

theorem collectRolesTN_total (inv : w.Inv) (hr : StrRoles w) {site : List Val} {p : Str} {t n : Val} :
    ∃ x, w.collectRolesTN o site p t n = .ok x := by
  obtain ⟨a, ha⟩ := appendRoles_total (keep := fun _ => true) (search_roles (o := o) inv hr
    (site := site ++ [.int 0]) (f := { tenant := t }) (cb := filterRoleByTenant))
  obtain ⟨b, hb⟩ := appendRoles_total (keep := fun d => d.namespace_ = .nil || d.namespace_ = n)
    (search_roles (o := o) inv hr (site := site ++ [.int 1]) (f := { principal := .str p, tenant := t, namespace_ := n })
      (cb := filterRoleForPrincipalByTenantAndNamespace))
  exact ⟨(b, a), by rw [collectRolesTN, rolesByTenant, ha, rolesForPrincipalTN]; simp only [Out.bind_ok]; rw [hb]; rfl⟩

theorem collectRolesTS_total (inv : w.Inv) (hr : StrRoles w) {site : List Val} {p : Str} {t n : Val} :
    ∃ x, w.collectRolesTS o site p t n = .ok x := by
  obtain ⟨a, ha⟩ := appendRoles_total (keep := fun _ => true) (search_roles (o := o) inv hr
    (site := site ++ [.int 0]) (f := { tenant := t }) (cb := filterRoleByTenant))
  obtain ⟨b, hb⟩ := appendRoles_total (keep := fun d => d.scope = .nil || d.scope = n)
    (search_roles (o := o) inv hr (site := site ++ [.int 1]) (f := { principal := .str p, tenant := t, scope := n })
      (cb := filterRoleForPrincipalByTenantAndScope))
  exact ⟨(b, a), by rw [collectRolesTS, rolesByTenant, ha, rolesForPrincipalTS]; simp only [Out.bind_ok]; rw [hb]; rfl⟩

theorem collectRolesTNS_total (inv : w.Inv) (hr : StrRoles w) {site : List Val} {p : Str} {t n s : Val} :
    ∃ x, w.collectRolesTNS o site p t n s = .ok x := by
  obtain ⟨a, ha⟩ := appendRoles_total (keep := fun _ => true) (search_roles (o := o) inv hr
    (site := site ++ [.int 0]) (f := { tenant := t }) (cb := filterRoleByTenant))
  obtain ⟨b, hb⟩ := appendRoles_total
    (keep := fun d => (d.namespace_ = .nil || d.namespace_ = n) && (d.scope = .nil || d.scope = s))
    (search_roles (o := o) inv hr (site := site ++ [.int 1])
      (f := { principal := .str p, tenant := t, namespace_ := n, scope := s })
      (cb := filterRoleForPrincipalByTenantNamespaceAndScope))
  exact ⟨(b, a), by rw [collectRolesTNS, rolesByTenant, ha, rolesForPrincipalTNS]; simp only [Out.bind_ok]; rw [hb]; rfl⟩

theorem collectRolesNS_total (inv : w.Inv) (hr : StrRoles w) {site : List Val} {p : Str} {n s : Val} :
    ∃ x, w.collectRolesNS o site p n s = .ok x := by
  have key : ∀ (site : List Val) (l : List Data) (i : Nat), ∃ x, w.collectRolesNSLoop o site p n s i l = .ok x := by
    intro site l
    induction l with
    | nil => intro i; exact ⟨_, rfl⟩
    | cons t ts ih =>
      intro i
      obtain ⟨x, hx⟩ := collectRolesTNS_total (o := o) inv hr (site := site ++ [.int i]) (p := p) (t := t.tenant) (n := n) (s := s)
      obtain ⟨y, hy⟩ := ih (i + 1)
      exact ⟨_, by rw [collectRolesNSLoop, hx, Out.bind_ok, hy]; rfl⟩
  exact key _ _ _

theorem pick_total {b : Bool} {x : Out (List Str × List Str)} {old : List Str × List Str} (h : ∃ y, x = .ok y) :
    ∃ y, pick b x old = .ok y := by
  unfold pick; split
  · exact h
  · exact ⟨_, rfl⟩

theorem selected_total (inv : w.Inv) (hr : StrRoles w) {site : List Val} {p : Str} {r : Request} {f : Flags} :
    ∃ x, w.selected o site p r f = .ok x := by
  unfold selected
  obtain ⟨x1, h1⟩ := pick_total (b := f.t) (old := ([], [])) ⟨_, collectRoles_spec (o := o) inv (site := site ++ [.int 0]) (p := p) (t := r.tenant)⟩
  rw [h1, Out.bind_ok]
  obtain ⟨x2, h2⟩ := pick_total (b := f.tn) (old := x1) (collectRolesTN_total (o := o) inv hr (site := site ++ [.int 1]) (p := p) (t := r.tenant) (n := r.namespace_))
  rw [h2, Out.bind_ok]
  obtain ⟨x3, h3⟩ := pick_total (b := f.ts) (old := x2) (collectRolesTS_total (o := o) inv hr (site := site ++ [.int 2]) (p := p) (t := r.tenant) (n := r.scope))
  rw [h3, Out.bind_ok]
  obtain ⟨x4, h4⟩ := pick_total (b := f.ns) (old := x3) (collectRolesNS_total (o := o) inv hr (site := site ++ [.int 3]) (p := p) (n := r.namespace_) (s := r.scope))
  rw [h4, Out.bind_ok]
  exact pick_total (collectRolesTNS_total inv hr)

theorem roleLoop_total {fuel : Nat} {r : Request} {g act : Str} (hg : r.group = .str g) (ha : r.activity = .str act)
    (hh : ∀ k a, (k, a) ∈ w.roles → ∀ site, ∃ b, w.heap.has o g act [] fuel site a = .ok b)
    {site : List Val} {l : List Str} {i : Nat} : ∃ b, w.roleLoop o fuel site r i [] l = .ok b := by
  induction l generalizing i with
  | nil => exact ⟨_, rfl⟩
  | cons x l ih =>
    rw [roleLoop]
    cases hx : w.roles.get x with
    | none => exact ih
    | some a =>
      obtain ⟨b, hb⟩ := hh x a (GoMap.get_some_mem hx) (site ++ [.int i])
      simp only [hg, ha]
      rw [show slicesCompact [] = [] from rfl, hb, Out.bind_ok]
      split
      · exact ⟨_, rfl⟩
      · exact ih

theorem check_total (inv : w.Inv) {fuel : Nat} {r : Request}
    (hact : HasActivity r → StrRoles w ∧ ∃ g act, r.group = .str g ∧ r.activity = .str act ∧
      ∀ k a, (k, a) ∈ w.roles → ∀ site, ∃ b, w.heap.has o g act [] fuel site a = .ok b)
    {site : List Val} {p : Str} {c : Val} (hc : c ≠ .nil ∨ r.tenant = .nil) :
    ∃ b, w.check o fuel site p { r with tenant := c } (flagsOf r) = .ok b := by
  unfold check
  split
  · exact ⟨_, rfl⟩
  · rename_i hn
    have hA : HasActivity r := by
      simpa [flagsOf, HasActivity] using hn
    obtain ⟨hs, g, act, e1, e2, hh⟩ := hact hA
    rw [checkActivity_eq]
    rw [if_neg (show ({ r with tenant := c } : Request).group ≠ .nil by simp [e1]),
      if_neg (show ({ r with tenant := c } : Request).activity ≠ .nil by simp [e2])]
    obtain ⟨x, hx⟩ := selected_total (o := o) inv hs (site := site) (p := p) (r := { r with tenant := c }) (f := flagsOf r)
    rw [hx, Out.bind_ok]
    have := (selected_spec inv hc hx).1
    split
    · exact ⟨_, rfl⟩
    · rw [this]
      exact roleLoop_total (r := { r with tenant := c }) (g := g) (act := act) e1 e2 hh

theorem fallback_total (inv : w.Inv) {fuel : Nat} {r : Request}
    (hact : HasActivity r → StrRoles w ∧ ∃ g act, r.group = .str g ∧ r.activity = .str act ∧
      ∀ k a, (k, a) ∈ w.roles → ∀ site, ∃ b, w.heap.has o g act [] fuel site a = .ok b)
    {site : List Val} {p : Str} {ts : List Str} {c : Val} {i : Nat} :
    ∃ b, w.fallback o fuel site p (flagsOf r) i { r with tenant := c } ts = .ok b := by
  induction ts generalizing c i with
  | nil => exact ⟨_, rfl⟩
  | cons t ts ih =>
    rw [fallback]
    split
    · exact ih
    · obtain ⟨b, hb⟩ := check_total inv hact (site := site ++ [.int i]) (p := p) (c := .str t) (.inl (by simp))
      simp only [hb, Out.bind_ok]
      split
      · exact ⟨_, rfl⟩
      · exact ih

theorem tenantChildren_total {fuel : Nat} {t : Str}
    (h : ∀ c, w.tenants.get t = some c → ∀ o site, ∃ ds, w.descendants o fuel site c = .ok ds) {site : List Val} :
    ∃ x, w.tenantChildren o fuel site t = .ok x := by
  unfold tenantChildren
  split
  · exact ⟨_, rfl⟩
  · split
    · exact ⟨_, rfl⟩
    · rename_i c hc
      obtain ⟨ds, hds⟩ := h c hc o site
      rw [hds]; exact ⟨_, rfl⟩

theorem descendants_hier {h : GoMap Str (List Val)} {fuel : Nat} {site : List Val} {c : Nat} :
    ({ w with hierarchy := h } : Mgr).descendants o fuel site c = w.descendants o fuel site c := by
  induction fuel generalizing site c with
  | zero => rfl
  | succ n ih =>
    rw [descendants, descendants]
    simp only [ih]

theorem implicitLoop_total {fuel : Nat} {w0 : Mgr} {rows : List Data} (hrow : ∀ row ∈ rows, ∃ t, row.tenant = .str t)
    (hd : ∀ row ∈ rows, row.manage = .bool true → ∀ t, row.tenant = .str t → ∀ c, w0.tenants.get t = some c →
      ∀ o site, ∃ ds, w0.descendants o fuel site c = .ok ds)
    {site : List Val} {i : Nat} {E : List Str} (inv : w.Inv) (hw : w = { w0 with hierarchy := w.hierarchy }) :
    ∃ x, implicitLoop o fuel site i rows E w = .ok x := by
  induction rows generalizing i E w with
  | nil => exact ⟨_, rfl⟩
  | cons row rows ih =>
    have ih := fun {i E} {w : Mgr} => ih (fun r hr => hrow r (by simp [hr])) (fun r hr => hd r (by simp [hr])) (i := i) (E := E) (w := w)
    obtain ⟨t, ht⟩ := hrow row (by simp)
    rw [implicitLoop, ht]
    simp only
    split
    · exact ih inv hw
    · split
      · rename_i hm
        obtain ⟨⟨l, w1⟩, h1⟩ := tenantChildren_total (w := w) (o := o) (fuel := fuel) (t := t) (site := site ++ [.int i]) (by
          intro c hc o' s
          rw [hw] at hc
          obtain ⟨ds, hds⟩ := hd row (by simp) hm t ht c hc o' s
          rw [hw, descendants_hier]; exact ⟨ds, hds⟩)
        rw [h1, Out.bind_ok]
        obtain ⟨c1, c2, c3, _⟩ := tenantChildren_spec inv h1
        obtain ⟨E', hE'⟩ := addDescs_total (E := E ++ [t]) (fun v hv => (c3 v hv).imp fun x h => h.1)
        simp only [hE', Out.bind_ok]
        exact ih c1 (by rw [c2]; rw [hw])
      · exact ih inv hw

theorem implicitTenants_total (inv : w.Inv) {p : Str}
    (hrows : ∀ row, Stored w row → row.principal = .str p → row.tenant ≠ .nil → ∃ t, row.tenant = .str t)
    (hlinks : ∀ a c, Manages w p a → w.tenants.get a = some c → Acc (fun d c => TChild w.tobjs c d) c) :
    ∃ n, ∀ m ≥ n, ∀ o site, ∃ x, w.implicitTenants o m site p = .ok x := by
  obtain ⟨n, hn⟩ := RHeap.bound_exists
    (P := fun (e : Str × Nat) n => Manages w p e.1 → ∀ m ≥ n, ∀ o site, ∃ ds, w.descendants o m site e.2 = .ok ds)
    (fun e n m hp hnm hm k hk => hp hm k (by omega)) w.tenants
    (fun e he => by
      by_cases hm : Manages w p e.1
      · have hg := (GoMap.mem_iff_get inv.regT).1 he
        obtain ⟨t, ht, _⟩ := inv.tenants _ _ hg
        obtain ⟨n, hn⟩ := descendants_total inv (hlinks e.1 e.2 hm hg) (RHeap.lt_of_get ht)
        exact ⟨n, fun _ => hn⟩
      · exact ⟨0, fun h => absurd h hm⟩)
  refine ⟨n, fun m hm o site => ?_⟩
  unfold implicitTenants
  split
  · exact ⟨_, rfl⟩
  · obtain ⟨x, hx⟩ := implicitLoop_total (o := o) (w := w) (w0 := w) (fuel := m) (site := site ++ [.int 1]) (i := 0) (E := [])
      (rows := w.search o (site ++ [.int 0]) { principal := .str p } filterTenantsByPrincipal)
      (fun row hr => by
        obtain ⟨a, b, c⟩ := (mem_rowsOf inv).1 hr; exact hrows row a b c)
      (fun row hr hman t ht c hc => by
        obtain ⟨a, b, _⟩ := (mem_rowsOf inv).1 hr
        exact hn (t, c) (GoMap.get_some_mem hc) ⟨row, a, b, ht, hman⟩ m hm)
      inv rfl
    rw [hx]; exact ⟨_, rfl⟩

theorem authorize_eq {fuel : Nat} {site : List Val} {p : Str} {opts : List Opt} :
    w.authorize o fuel site p opts =
      if (w.principals.get p).isNone then .ok (false, w)
      else
        (w.implicitTenants o fuel (site ++ [.int 0]) p).bind fun x =>
        if x.1.length = 0 then .ok (false, x.2)
        else
          (x.2.validateResources (requestOf opts)).bind fun v =>
          if !v then .ok (false, x.2)
          else
            (x.2.check o fuel (site ++ [.int 1]) p (requestOf opts) (flagsOf (requestOf opts))).bind fun b =>
            if b then .ok (true, x.2)
            else
              (x.2.fallback o fuel (site ++ [.int 2]) p (flagsOf (requestOf opts)) 0 (requestOf opts)
                (o.ord (site ++ [.int 3]) _ x.1)).map fun b => (b, x.2) := rfl

theorem validOne_total {m : GoMap Str Nat} {v : Val} (h : v = .nil ∨ ∃ s, v = .str s) : ∃ b, validOne m v = .ok b := by
  rcases h with rfl | ⟨s, rfl⟩ <;> exact ⟨_, rfl⟩

theorem validateResources_total {r : Request} (h1 : r.tenant = .nil ∨ ∃ s, r.tenant = .str s)
    (h2 : r.namespace_ = .nil ∨ ∃ s, r.namespace_ = .str s) (h3 : r.scope = .nil ∨ ∃ s, r.scope = .str s) :
    ∃ b, w.validateResources r = .ok b := by
  obtain ⟨a, ha⟩ := validOne_total (m := w.tenants) h1
  obtain ⟨b, hb⟩ := validOne_total (m := w.namespaces) h2
  obtain ⟨c, hc⟩ := validOne_total (m := w.scopes) h3
  unfold validateResources
  rw [ha, hb, hc]
  cases a <;> cases b <;> exact ⟨_, rfl⟩

end Mgr

/-- C27, C28. `Authorize` returns under `Returns`, with a stack bound that does not depend on the
iteration orders. -/
theorem C27_C28_returns {w : Mgr} (inv : w.Inv) {p : Str} {opts : List Opt} (hr : Returns w p (requestOf opts)) :
    ∃ n, ∀ m ≥ n, ∀ o site, ∃ b w', w.authorize o m site p opts = .ok (b, w') := by
  obtain ⟨n1, hn1⟩ := Mgr.implicitTenants_total inv hr.rows hr.links
  obtain ⟨n2, hn2⟩ : ∃ n2, ∀ m ≥ n2, HasActivity (requestOf opts) → ∃ g act, (requestOf opts).group = .str g ∧
      (requestOf opts).activity = .str act ∧
      ∀ o k a, (k, a) ∈ w.roles → ∀ site, ∃ b, w.heap.has o g act [] m site a = .ok b := by
    by_cases hA : HasActivity (requestOf opts)
    · obtain ⟨_, g, act, e1, e2, hroles⟩ := hr.act hA
      obtain ⟨n, hn⟩ := RHeap.bound_exists
        (P := fun (e : Str × Nat) n => ∀ m ≥ n, ∀ o site, ∃ b, w.heap.has o g act [] m site e.2 = .ok b)
        (fun e n m hp hnm k hk => hp k (by omega)) w.roles
        (fun e he => by
          obtain ⟨ro, hro, _⟩ := inv.roles _ _ ((GoMap.mem_iff_get inv.regR).1 he)
          obtain ⟨n, hn⟩ := C17_terminates inv.heap (hroles e.1 e.2 he).1 (RHeap.lt_of_get hro) (hroles e.1 e.2 he).2
          exact ⟨n, fun m hm o site => hn m hm [] o site⟩)
      exact ⟨n, fun m hm _ => ⟨g, act, e1, e2, fun o k a ha => hn (k, a) ha m hm o⟩⟩
    · exact ⟨0, fun _ _ h => absurd h hA⟩
  refine ⟨max n1 n2, fun m hm o site => ?_⟩
  obtain ⟨⟨I, w1⟩, h1⟩ := hn1 m (by omega) o (site ++ [.int 0])
  obtain ⟨i1, s1, _⟩ := Mgr.implicitTenants_inv inv h1
  rw [Mgr.authorize_eq]
  split
  · exact ⟨_, _, rfl⟩
  · rw [h1, Out.bind_ok]
    simp only
    have hact : HasActivity (requestOf opts) → Mgr.StrRoles w1 ∧ ∃ g act, (requestOf opts).group = .str g ∧
        (requestOf opts).activity = .str act ∧
        ∀ k a, (k, a) ∈ w1.roles → ∀ site, ∃ b, w1.heap.has o g act [] m site a = .ok b := by
      intro hA
      obtain ⟨g, act, e1, e2, hh⟩ := hn2 m (by omega) hA
      have hs := (hr.act hA).1
      rw [s1]
      exact ⟨hs, g, act, e1, e2, hh o⟩
    split
    · exact ⟨_, _, rfl⟩
    · obtain ⟨v, hv⟩ := Mgr.validateResources_total (w := w1) hr.tenant hr.namespace_ hr.scope
      rw [hv, Out.bind_ok]
      cases v with
      | false => exact ⟨_, _, rfl⟩
      | true =>
        simp only [Bool.not_true, Bool.false_eq_true, if_false]
        obtain ⟨b, hb⟩ := Mgr.check_total i1 hact (site := site ++ [.int 1]) (p := p) (c := (requestOf opts).tenant)
          (Classical.em _).symm
        have hb : w1.check o m (site ++ [.int 1]) p (requestOf opts) (flagsOf (requestOf opts)) = .ok b := hb
        rw [hb, Out.bind_ok]
        cases b with
        | true => exact ⟨_, _, rfl⟩
        | false =>
          obtain ⟨b2, hb2⟩ := Mgr.fallback_total i1 hact (site := site ++ [.int 2]) (p := p)
            (ts := o.ord (site ++ [.int 3]) _ I) (c := (requestOf opts).tenant) (i := 0)
          simp only [Bool.false_eq_true, if_false]
          refine ⟨b2, w1, ?_⟩
          rw [Out.map_eq_ok]
          exact ⟨b2, hb2, rfl⟩

/-! ## C29 -/

/-- C29 as claimed. -/
def C29_full : Prop := ∀ (ops : List MOp) (w w' : Mgr) (o : Ord) (fuel : Nat) (site : List Val) (p t : Str) (opts : List Opt),
  MOp.run {} ops = .ok w → (requestOf opts).tenant = .str t →
  w.authorize o fuel site p opts = .ok (true, w') →
  Member w p t ∨ ∃ a, Manages w p a ∧ Under w a t

/-- C29 is violated: `p` has a row in tenant a only and is granted tenant z. -/
theorem C29_counterexample : ∃ w, MOp.run {} exWorld = .ok w ∧
    ((w.authorize .fwd 9 [] (str "p") [.tenant (.str (str "z"))]).map (·.1) = .ok true ∧
     (∀ row ∈ survivors (rowKey dataKeys) w.log, row.tenant ≠ .str (str "z")) ∧
     (∀ t ∈ w.tobjs, ∀ e ∈ t.desc, e.1 ≠ str "z")) := Out.chk_ok (by decide +kernel)

theorem under_last {w : Mgr} (inv : w.Inv) {a x : Str} (h : Under w a x) : ∃ t ∈ w.tobjs, ∃ e ∈ t.desc, e.1 = x := by
  obtain ⟨c, _, d, t, hd, ht, rfl⟩ := h
  have : ∀ {c d}, TDesc w.tobjs c d → ∀ t, w.tobjs[d]? = some t → ∃ t' ∈ w.tobjs, ∃ e ∈ t'.desc, e.1 = t.id := by
    intro c d h
    induction h with
    | child hc =>
      obtain ⟨t', k, h1, h2⟩ := hc
      intro t ht
      obtain ⟨t3, h3, h4⟩ := inv.desc t' (List.mem_of_getElem? h1) _ h2
      simp only at h3 h4
      rw [ht] at h3; cases h3
      exact ⟨t', List.mem_of_getElem? h1, _, h2, h4.symm⟩
    | step _ _ ih => exact ih
  exact this hd t ht

theorem C29_full_false : ¬ C29_full := by
  intro hf
  obtain ⟨w, h1, h2, h3, h4⟩ := C29_counterexample
  obtain ⟨⟨b, w'⟩, h5, h6⟩ := Out.map_eq_ok.1 h2
  cases h6
  rcases hf exWorld w w' .fwd 9 [] (str "p") (str "z") _ h1 rfl h5 with ⟨row, a, _, b⟩ | ⟨a, _, b⟩
  · exact h3 row a b
  · obtain ⟨t, ht, e, he, hx⟩ := under_last (MOp.reachable_inv h1) b
    exact h4 t ht e he hx

/-- C29. What a tenant-only request really tests: the tenant is registered and `p` has a row in it or
in any implicit tenant. -/
theorem C29_tenant_only {w w' : Mgr} (inv : w.Inv) {o : Ord} {fuel : Nat} {site : List Val} {p t : Str}
    {opts : List Opt} {b : Bool} (ht : (requestOf opts).tenant = .str t) (hn : (requestOf opts).namespace_ = .nil)
    (hs : (requestOf opts).scope = .nil) (ha : (requestOf opts).activity = .nil)
    (h : w.authorize o fuel site p opts = .ok (b, w')) :
    b = true ↔ (∃ x, (p, x) ∈ w.principals) ∧ (∃ x, (t, x) ∈ w.tenants) ∧
      ∃ I, w'.pcache.get p = some I ∧ I ≠ [] ∧ (Member w p t ∨ ∃ t' ∈ I, Member w p t') := by
  rw [C27_no_activity inv (.inr ha) h]
  have hg : ∀ c, Grants w p c (requestOf opts) ↔ ∃ row, Stored w row ∧ row.principal = .str p ∧ row.tenant = c := by
    intro c; simp [Grants, ht, hn, hs]
  have hres : Resources w (requestOf opts) ↔ ∃ x, (t, x) ∈ w.tenants := by
    simp [Resources, Known, ht, hn, hs]
  simp only [hg, hres, ht]
  constructor
  · rintro ⟨h1, I, h2, h3, h4, c, hc, row, r1, r2, r3⟩
    refine ⟨h1, h4, I, h2, h3, ?_⟩
    rcases hc with rfl | ⟨t', ht', rfl⟩
    · exact .inl ⟨row, r1, r2, r3⟩
    · exact .inr ⟨t', ht', row, r1, r2, r3⟩
  · rintro ⟨h1, h4, I, h2, h3, hm⟩
    refine ⟨h1, I, h2, h3, h4, ?_⟩
    rcases hm with ⟨row, r1, r2, r3⟩ | ⟨t', ht', row, r1, r2, r3⟩
    · exact ⟨_, .inl rfl, row, r1, r2, r3⟩
    · exact ⟨_, .inr ⟨t', ht', rfl⟩, row, r1, r2, r3⟩

/-- C29. Hence, uncached, a tenant-only request for any registered tenant is granted to every
registered principal with a row in some tenant. -/
theorem C29_any_tenant {w w' : Mgr} (inv : w.Inv) {o : Ord} {fuel : Nat} {site : List Val} {p t t' : Str}
    {opts : List Opt} {b : Bool} (ht : (requestOf opts).tenant = .str t) (hn : (requestOf opts).namespace_ = .nil)
    (hs : (requestOf opts).scope = .nil) (ha : (requestOf opts).activity = .nil)
    (hp : ∃ x, (p, x) ∈ w.principals) (hreg : ∃ x, (t, x) ∈ w.tenants) (hm : Member w p t')
    (hfresh : w.pcache.get p = none)
    (h : w.authorize o fuel site p opts = .ok (b, w')) : b = true := by
  rw [C29_tenant_only inv ht hn hs ha h]
  refine ⟨hp, hreg, ?_⟩
  rcases Mgr.authorize_inv h with ⟨_, _, e⟩ | ⟨_, J, hJ⟩
  · obtain ⟨x, hx⟩ := hp
    rw [(GoMap.mem_iff_get inv.regP).1 hx] at e; cases e
  · obtain ⟨_, _, c, _⟩ := Mgr.implicitTenants_inv inv hJ
    have := (C24_implicit_sound inv hfresh hJ).1 t' hm
    exact ⟨J, c, List.ne_nil_of_mem this, .inr ⟨t', this, hm⟩⟩

/-- C29, partial: if `p` has no implicit tenant other than `t`, a granted request for `t` is decided
by the rules tried in `t`. Missing: principals with other implicit tenants (false, see
`C29_counterexample`). -/
theorem C29_isolated_partial {w w' : Mgr} (inv : w.Inv) {o : Ord} {fuel : Nat} {site : List Val} {p t : Str}
    {opts : List Opt} (ht : (requestOf opts).tenant = .str t)
    (hI : ∀ I, w'.pcache.get p = some I → ∀ x ∈ I, x = t)
    (h : w.authorize o fuel site p opts = .ok (true, w')) :
    Decides w p (.str t) (requestOf opts) ∧
    ∃ row ∈ w.log, row.principal = .str p ∧ ∃ a, row.tenant = .str a ∧
      (t = a ∨ (row.manage = .bool true ∧ Under w a t)) := by
  obtain ⟨_, I, h2, h3, _, c, hc, hd⟩ := (authorize_exact inv h).1 rfl
  constructor
  · rcases hc with rfl | ⟨t', ht', rfl⟩
    · rw [← ht]; exact hd
    · rw [← hI I h2 t' ht']; exact hd
  · rcases Mgr.authorize_inv h with ⟨_, e, _⟩ | ⟨_, J, hJ⟩
    · cases e
    · obtain ⟨_, _, c, _⟩ := Mgr.implicitTenants_inv inv hJ
      rw [h2] at c; cases c
      obtain ⟨x, hx⟩ := List.exists_mem_of_ne_nil I h3
      have := hI I h2 x hx; subst this
      exact C24_cached inv hJ x hx

/-- A principal with a single tenant. -/
def exSingle : List MOp := [
  .newTenant (str "a"), .addTenant 0, .addPrincipal (str "p") 0,
  .role (.newRole (str "r")), .addRole 0, .tAddPrincipalWithRole 0 (str "p") (str "r") false]

example : ∃ w, MOp.run {} exSingle = .ok w ∧
    (w.authorize .fwd 9 [] (str "p") [.tenant (.str (str "a"))]).map (fun x => (x.1, x.2.pcache.get (str "p"))) =
      .ok (true, some [str "a"]) := Out.chk_ok (by decide +kernel)

/-- `Returns` is met by a state with a role and a request with an activity. -/
example : ∃ w, MOp.run {} (exSingle ++ [.addNamespace (str "n") 0,
      .role (.addPerm 0 (str "g") [⟨str "/x/:id", str "GET"⟩])]) = .ok w ∧
    Returns w (str "p") (requestOf [.tenant (.str (str "a")), .namespace_ (.str (str "n")),
      .group (.str (str "g")), .activity (.str (str "/x/1 GET"))]) := by
  obtain ⟨w, h, h1, h2, h3, h4, h5⟩ := Out.chk_ok (x := MOp.run {} (exSingle ++ [.addNamespace (str "n") 0,
      .role (.addPerm 0 (str "g") [⟨str "/x/:id", str "GET"⟩])]))
    (P := fun w => (∀ row ∈ survivors (rowKey dataKeys) w.log, row.tenant = .str (str "a")) ∧
      (∀ row ∈ survivors (rowKey dataKeys) w.log, row.role = .str (str "r")) ∧
      (∀ t ∈ w.tobjs, t.desc = []) ∧ (∀ r ∈ w.heap.roles, r.desc = []) ∧
      (∀ g ∈ w.heap.groups, ∀ e ∈ g.perms, e.1 = str "/x/:id GET")) (by decide +kernel)
  refine ⟨w, h, ?_⟩
  constructor
  · intro row hr _ _; exact ⟨_, h1 row hr⟩
  · intro a c _ _
    constructor
    rintro d ⟨t, k, ht, hk⟩
    rw [h3 t (List.mem_of_getElem? ht)] at hk; cases hk
  · exact .inr ⟨_, rfl⟩
  · exact .inr ⟨_, rfl⟩
  · exact .inl rfl
  · intro _
    refine ⟨fun row hr => .inr ⟨_, h2 row hr⟩, _, _, rfl, rfl, fun k a _ => ⟨?_, ?_⟩⟩
    · constructor
      rintro d ⟨t, k, ht, hk⟩
      rw [h4 t (List.mem_of_getElem? ht)] at hk; cases hk
    · rintro d _ gr ⟨ro, ga, _, _, hg⟩ e he
      rw [h5 gr (List.mem_of_getElem? hg) e he, ← C03_diverges_iff_partial]
      decide +kernel

/-! ## C30 -/

/-- C30 as claimed. -/
def C30_full : Prop := ∀ (ops : List MOp) (w w' : Mgr) (o : Ord) (fuel : Nat) (site : List Val) (p t role g act : Str)
  (a : Nat) (row : Data) (b : Bool),
  MOp.run {} ops = .ok w → Stored w row → row.principal = .str p → row.tenant = .str t → row.role = .str role →
  (∃ x, (t, x) ∈ w.tenants) → (∃ x, (p, x) ∈ w.principals) → (role, a) ∈ w.roles → Granted w.heap [] g act a →
  w.pcache.get p = none →
  w.authorize o fuel site p [.tenant (.str t), .group (.str g), .activity (.str act)] = .ok (b, w') → b = true

/-- C30. A request with an activity but neither namespace nor scope is always denied. -/
theorem C30_always_denied {w w' : Mgr} (inv : w.Inv) {o : Ord} {fuel : Nat} {site : List Val} {p : Str}
    {opts : List Opt} {b : Bool} (hn : (requestOf opts).namespace_ = .nil) (hs : (requestOf opts).scope = .nil)
    (ha : HasActivity (requestOf opts)) (h : w.authorize o fuel site p opts = .ok (b, w')) : b = false := by
  rw [Bool.eq_false_iff]
  intro hb
  obtain ⟨_, I, _, _, _, c, _, g, act, _, _, row, role, a, _, hrow, _⟩ := (C28_activity inv ha h).1 hb
  simp [RoleRow, hn, hs] at hrow

theorem C30_counterexample : ∃ w, MOp.run {} exWorld = .ok w ∧
    ((w.authorize .fwd 9 [] (str "p") [.tenant (.str (str "a")), .group (.str (str "g")),
        .activity (.str (str "/x GET"))]).map (·.1) = .ok false ∧
     (⟨.str (str "a"), .nil, .nil, .str (str "p"), .str (str "r"), .bool true⟩ : Data) ∈ survivors (rowKey dataKeys) w.log ∧
     (str "a", 0) ∈ w.tenants ∧ (str "p", 0) ∈ w.principals ∧ (str "r", 0) ∈ w.roles ∧
     w.heap.has .fwd (str "g") (str "/x GET") [] 9 [] 0 = .ok true ∧ w.pcache.get (str "p") = none) :=
  Out.chk_ok (by decide +kernel)

theorem C30_full_false : ¬ C30_full := by
  intro hf
  obtain ⟨w, h1, h2, h3, h4, h5, h6, h7, h8⟩ := C30_counterexample
  obtain ⟨⟨b, w'⟩, h9, h10⟩ := Out.map_eq_ok.1 h2
  have := hf exWorld w w' .fwd 9 [] (str "p") (str "a") (str "r") (str "g") (str "/x GET") 0 _ b h1 h3 rfl rfl rfl
    ⟨0, h4⟩ ⟨0, h5⟩ h6 ((C16_has (MOp.reachable_inv h1).heap h7).1 rfl) h8 h9
  rw [show b = false from h10] at this; cases this

/-- C30, partial: with a namespace in the request, a role held in the requested tenant (tenant-wide,
i.e. in a row without namespace, or in that namespace) does grant its activities.
Missing: requests without namespace and scope (false, always denied). -/
theorem C30_role_grant_partial {w w' : Mgr} (inv : w.Inv) {o : Ord} {fuel : Nat} {site : List Val}
    {p t n role g act : Str} {a : Nat} {row : Data} {b : Bool}
    (hst : Stored w row) (hp : row.principal = .str p) (ht : row.tenant = .str t) (hr : row.role = .str role)
    (hn : row.namespace_ = .nil ∨ row.namespace_ = .str n)
    (regT : ∃ x, (t, x) ∈ w.tenants) (regN : ∃ x, (n, x) ∈ w.namespaces) (regP : ∃ x, (p, x) ∈ w.principals)
    (regR : (role, a) ∈ w.roles) (hg : Granted w.heap [] g act a)
    (hI : w.pcache.get p = none ∨ ∃ I, w.pcache.get p = some I ∧ I ≠ [])
    (h : w.authorize o fuel site p [.tenant (.str t), .namespace_ (.str n), .group (.str g), .activity (.str act)] = .ok (b, w')) :
    b = true := by
  rw [C28_activity inv ⟨by simp [requestOf, Opt.apply], by simp [requestOf, Opt.apply]⟩ h]
  refine ⟨regP, ?_⟩
  have : ∃ I, w'.pcache.get p = some I ∧ I ≠ [] := by
    rcases Mgr.authorize_inv h with ⟨_, _, e⟩ | ⟨_, J, hJ⟩
    · obtain ⟨x, hx⟩ := regP
      rw [(GoMap.mem_iff_get inv.regP).1 hx] at e; cases e
    · obtain ⟨_, _, c, _, hit⟩ := Mgr.implicitTenants_inv inv hJ
      rcases hI with hI | ⟨I, hI, hne⟩
      · exact ⟨J, c, List.ne_nil_of_mem ((C24_implicit_sound inv hI hJ).1 t ⟨row, hst, hp, ht⟩)⟩
      · exact ⟨J, c, by rw [(hit I hI).1]; exact hne⟩
  obtain ⟨I, h1, h2⟩ := this
  refine ⟨I, h1, h2, ?_, .str t, .inl rfl, g, act, rfl, rfl, row, role, a, hst, .inl ?_, hr, regR, hg⟩
  · obtain ⟨x, hx⟩ := regT
    obtain ⟨y, hy⟩ := regN
    exact ⟨.inr ⟨t, x, rfl, hx⟩, .inr ⟨n, y, rfl, hy⟩, .inl rfl⟩
  · refine ⟨by simp [requestOf, Opt.apply], by simp [requestOf, Opt.apply], rfl, ?_⟩
    rcases hn with hn | hn
    · exact .inr ⟨hn, ht, hp⟩
    · exact .inl hn

/-! ## C31 -/

/-- C31 as claimed. -/
def C31_full : Prop := ∀ (ops : List MOp) (w w' : Mgr) (o : Ord) (fuel : Nat) (site : List Val) (p : Str) (opts : List Opt),
  MOp.run {} ops = .ok w → HasActivity (requestOf opts) → w.authorize o fuel site p opts = .ok (true, w') →
  ∃ row role a, Stored w row ∧ row.principal = .str p ∧ row.role = .str role ∧ (role, a) ∈ w.roles

/-- q has role r in namespace n / scope s of tenant b; p has a scope in tenant a and no role at all. -/
def exBorrow : List MOp := [
  .newTenant (str "a"), .newTenant (str "b"), .addTenant 0, .addTenant 1,
  .addPrincipal (str "p") 0, .addPrincipal (str "q") 1, .addNamespace (str "n") 0, .addScope (str "s") 0, .addScope (str "u") 1,
  .role (.newRole (str "r")), .addRole 0, .role (.addPerm 0 (str "g") [⟨str "/x", str "GET"⟩]),
  .tAddScopeToPrincipal 0 (str "p") (str "u") false,
  .tAddPrincipalInNamespace 1 (str "q") (str "n") (str "r"),
  .addData ⟨.str (str "b"), .nil, .str (str "s"), .str (str "q"), .str (str "r"), .nil⟩]

/-- C31 is violated for tenant+namespace and for tenant+scope requests. -/
theorem C31_counterexample : ∃ w, MOp.run {} exBorrow = .ok w ∧
    ((w.authorize .fwd 9 [] (str "p") [.tenant (.str (str "a")), .namespace_ (.str (str "n")),
        .group (.str (str "g")), .activity (.str (str "/x GET"))]).map (·.1) = .ok true ∧
     (w.authorize .fwd 9 [] (str "p") [.tenant (.str (str "a")), .scope (.str (str "s")),
        .group (.str (str "g")), .activity (.str (str "/x GET"))]).map (·.1) = .ok true ∧
     (∀ row ∈ survivors (rowKey dataKeys) w.log, row.principal = .str (str "p") → row.role = .nil)) :=
  Out.chk_ok (by decide +kernel)

theorem C31_full_false : ¬ C31_full := by
  intro hf
  obtain ⟨w, h1, h2, _, h3⟩ := C31_counterexample
  obtain ⟨⟨b, w'⟩, h5, h6⟩ := Out.map_eq_ok.1 h2
  cases h6
  obtain ⟨row, role, a, r1, r2, r3, _⟩ := hf exBorrow w w' .fwd 9 [] (str "p") _ h1 ⟨by decide, by decide⟩ h5
  rw [h3 row r1 r2] at r3; cases r3

/-- C31, partial: with namespace and scope in the request (with or without a tenant) the granting role
is held by `p` in a row compatible with the requested namespace and scope.
Missing: tenant+namespace and tenant+scope requests (false). -/
theorem C31_own_role_partial {w w' : Mgr} (inv : w.Inv) {o : Ord} {fuel : Nat} {site : List Val} {p : Str}
    {opts : List Opt} (hn : (requestOf opts).namespace_ ≠ .nil) (hs : (requestOf opts).scope ≠ .nil)
    (ha : HasActivity (requestOf opts)) (h : w.authorize o fuel site p opts = .ok (true, w')) :
    ∃ row role a g act, Stored w row ∧ row.principal = .str p ∧ row.role = .str role ∧ (role, a) ∈ w.roles ∧
      (requestOf opts).group = .str g ∧ (requestOf opts).activity = .str act ∧ Granted w.heap [] g act a ∧
      (row.namespace_ = .nil ∨ row.namespace_ = (requestOf opts).namespace_) ∧
      (row.scope = .nil ∨ row.scope = (requestOf opts).scope) := by
  obtain ⟨_, I, _, _, _, c, _, g, act, e1, e2, row, role, a, h1, hrow, h2, h3, h4⟩ := (C28_activity inv ha h).1 rfl
  have : ∃ c, OwnRoleRow p c (requestOf opts).namespace_ (requestOf opts).scope row := by
    rcases hrow with ⟨_, _, h, _⟩ | ⟨_, h, _⟩ | ⟨_, _, _, h⟩ | ⟨_, _, _, own, _, _, _, h⟩
    · exact absurd h hs
    · exact absurd h hn
    · exact ⟨_, h⟩
    · exact ⟨_, h⟩
  obtain ⟨c', o1, o2, o3, _⟩ := this
  exact ⟨row, role, a, g, act, h1, o1, h2, h3, e1, e2, h4, o2, o3⟩

/-- C31, what is needed in the other two shapes: some stored row in the namespace (scope), of any
principal and in any tenant, or a tenant-wide row of `p`. -/
theorem C31_borrowed {w w' : Mgr} (inv : w.Inv) {o : Ord} {fuel : Nat} {site : List Val} {p : Str}
    {opts : List Opt} (ha : HasActivity (requestOf opts)) (h : w.authorize o fuel site p opts = .ok (true, w')) :
    ∃ row role a, Stored w row ∧ row.role = .str role ∧ (role, a) ∈ w.roles ∧
      (row.principal = .str p ∨
       ((requestOf opts).scope = .nil ∧ row.namespace_ = (requestOf opts).namespace_ ∧ row.namespace_ ≠ .nil) ∨
       ((requestOf opts).namespace_ = .nil ∧ row.scope = (requestOf opts).scope ∧ row.scope ≠ .nil)) := by
  obtain ⟨_, I, _, _, _, c, _, g, act, e1, e2, row, role, a, h1, hrow, h2, h3, h4⟩ := (C28_activity inv ha h).1 rfl
  refine ⟨row, role, a, h1, h2, h3, ?_⟩
  rcases hrow with ⟨_, q, h, h' | h'⟩ | ⟨_, h, q, h' | h'⟩ | ⟨_, _, _, h⟩ | ⟨_, _, _, own, _, _, _, h⟩
  · exact .inr (.inl ⟨h, h', by rw [h']; exact q⟩)
  · exact .inl h'.2.2
  · exact .inr (.inr ⟨h, h', by rw [h']; exact q⟩)
  · exact .inl h'.2.2
  · exact .inl h.1
  · exact .inl h.1

/-- Namespace and scope in the request: granted to the holder q of the role, not to p. -/
example : ∃ w, MOp.run {} (exBorrow ++ [.addData ⟨.str (str "b"), .str (str "n"), .str (str "s"), .str (str "q"), .str (str "r"), .nil⟩]) = .ok w ∧
    ((w.authorize .fwd 9 [] (str "q") [.tenant (.str (str "b")), .namespace_ (.str (str "n")), .scope (.str (str "s")),
        .group (.str (str "g")), .activity (.str (str "/x GET"))]).map (·.1) = .ok true ∧
     (w.authorize .fwd 9 [] (str "p") [.tenant (.str (str "b")), .namespace_ (.str (str "n")), .scope (.str (str "s")),
        .group (.str (str "g")), .activity (.str (str "/x GET"))]).map (·.1) = .ok false) :=
  Out.chk_ok (by decide +kernel)

/-! ## C33 -/

/-- C33. `Authorize` changes nothing but the two caches. -/
theorem C33_only_caches {w w' : Mgr} (inv : w.Inv) {o : Ord} {fuel : Nat} {site : List Val} {p : Str}
    {opts : List Opt} {b : Bool} (h : w.authorize o fuel site p opts = .ok (b, w')) :
    w' = { w with hierarchy := w'.hierarchy, pcache := w'.pcache } ∧
    (∀ q, q ≠ p → w'.pcache.get q = w.pcache.get q) := by
  rcases Mgr.authorize_inv h with ⟨e, _⟩ | ⟨_, I, hI⟩
  · subst e; exact ⟨rfl, fun _ _ => rfl⟩
  · obtain ⟨_, s, _, q, _⟩ := Mgr.implicitTenants_inv inv hI
    exact ⟨s, q⟩

/-- C33. A second call with the same arguments gives the same answer and changes nothing, whatever the
iteration orders. -/
theorem C33_repeatable {w w' w'' : Mgr} (inv : w.Inv) {o o' : Ord} {fuel fuel' : Nat} {site site' : List Val} {p : Str}
    {opts : List Opt} {b b' : Bool} (h : w.authorize o fuel site p opts = .ok (b, w'))
    (h' : w'.authorize o' fuel' site' p opts = .ok (b', w'')) : b' = b ∧ w'' = w' := by
  have key : ∀ {w w' : Mgr} {o fuel site b}, w.Inv → w.authorize o fuel site p opts = .ok (b, w') → w'.Inv ∧ Mgr.SameBut w w' := by
    intro w w' o fuel site b inv h
    rcases Mgr.authorize_inv h with ⟨e, _⟩ | ⟨_, I, hI⟩
    · subst e; exact ⟨inv, rfl⟩
    · obtain ⟨i, s, _⟩ := Mgr.implicitTenants_inv inv hI; exact ⟨i, s⟩
  obtain ⟨inv', s1⟩ := key inv h
  have hw : w'' = w' := by
    rcases Mgr.authorize_inv h' with ⟨e, _⟩ | ⟨hp, J, hJ⟩
    · exact e
    · rcases Mgr.authorize_inv h with ⟨e, _, hn⟩ | ⟨_, I, hI⟩
      · subst e; exact absurd hn hp
      · obtain ⟨_, _, c, _⟩ := Mgr.implicitTenants_inv inv hI
        obtain ⟨_, _, _, _, hit⟩ := Mgr.implicitTenants_inv inv' hJ
        exact (hit I c).2
  refine ⟨?_, hw⟩
  have e1 := authorize_exact inv h
  have e2 := authorize_exact inv' h'
  rw [hw] at e2
  simp only [decides_same s1, resources_same s1] at e2
  have : w'.principals = w.principals := by rw [s1]
  rw [this] at e2
  rw [Bool.eq_iff_iff, e1, e2]

/-- C33 for a pair of calls in the same state, when the tenants of `p` are already cached. -/
theorem C33_cached_deterministic {w w1 w2 : Mgr} (inv : w.Inv) {o o' : Ord} {fuel fuel' : Nat} {site site' : List Val}
    {p : Str} {opts : List Opt} {b b' : Bool} {I : List Str} (hc : w.pcache.get p = some I)
    (h : w.authorize o fuel site p opts = .ok (b, w1)) (h' : w.authorize o' fuel' site' p opts = .ok (b', w2)) :
    b' = b ∧ w1 = w ∧ w2 = w := by
  have key : ∀ {w' : Mgr} {o fuel site b}, w.authorize o fuel site p opts = .ok (b, w') → w' = w := by
    intro w' o fuel site b h
    rcases Mgr.authorize_inv h with ⟨e, _⟩ | ⟨_, J, hJ⟩
    · exact e
    · exact ((Mgr.implicitTenants_inv inv hJ).2.2.2.2 I hc).2
  have k1 := key h
  have k2 := key h'
  subst k1
  subst k2
  exact ⟨by rw [Bool.eq_iff_iff, authorize_exact inv h, authorize_exact inv h'], rfl, rfl⟩

/-- Both calls return in the state of C25, with different orders; the first answer is kept. -/
example : ∃ w, MOp.run {} exOrder = .ok w ∧
    (((w.authorize .rev 9 [] (str "p") [.tenant (.str (str "a")), .namespace_ (.str (str "n"))]).bind fun x =>
      x.2.authorize .fwd 9 [] (str "p") [.tenant (.str (str "a")), .namespace_ (.str (str "n"))]).map (·.1) = .ok true) :=
  Out.chk_ok (by decide +kernel)

/-! ## C34 -/

/-- C34. Requests without a tenant that name only a namespace, only a scope or nothing are denied. -/
theorem C34_incomplete {w w' : Mgr} (inv : w.Inv) {o : Ord} {fuel : Nat} {site : List Val} {p : Str}
    {opts : List Opt} {b : Bool} (ht : (requestOf opts).tenant = .nil)
    (hns : (requestOf opts).namespace_ = .nil ∨ (requestOf opts).scope = .nil)
    (h : w.authorize o fuel site p opts = .ok (b, w')) : b = false := by
  rw [Bool.eq_false_iff]
  intro hb
  obtain ⟨_, I, _, _, _, c, _, hd⟩ := (authorize_exact inv h).1 hb
  rcases hd with ⟨_, hd⟩ | ⟨g, act, _, _, row, role, a, _, hd, _⟩
  · rcases hns with e | e <;> simp [Grants, ht, e] at hd
  · rcases hns with e | e <;> simp [RoleRow, ht, e] at hd

/-- The same principal is granted the namespace+scope pair but none of the incomplete requests. -/
example : ∃ w, MOp.run {} (exWorld ++ [.tAddScopesToNamespace 0 (str "n") (str "s")]) = .ok w ∧
    ((w.authorize .fwd 9 [] (str "p") [.namespace_ (.str (str "n")), .scope (.str (str "s"))]).map (·.1) = .ok true ∧
     (w.authorize .fwd 9 [] (str "p") [.namespace_ (.str (str "n"))]).map (·.1) = .ok false ∧
     (w.authorize .fwd 9 [] (str "p") [.scope (.str (str "s"))]).map (·.1) = .ok false ∧
     (w.authorize .fwd 9 [] (str "p") []).map (·.1) = .ok false) :=
  Out.chk_ok (by decide +kernel)

end Verif
