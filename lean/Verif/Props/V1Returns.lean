import Verif.Props.V1
import Verif.Props.Authorize

/-!
# Package v1: when activity requests are answered, C97

Requests without group and activity are always answered (`C37_returns`).
-/

namespace Verif
open Spec

theorem Out.anyI_first {α : Type} {f : Nat → α → Out Bool} {xs : List α} {i : Nat} {b : Bool} (hne : xs ≠ [])
    (h : Out.anyI f i xs = .ok b) : ∃ x ∈ xs, ∃ j c, f j x = .ok c := by
  cases xs with
  | nil => exact absurd rfl hne
  | cons x xs =>
    unfold Out.anyI at h
    cases hc : f i x with
    | ok c => exact ⟨x, List.mem_cons_self .., i, c, hc⟩
    | panic => rw [hc] at h; cases h
    | diverge => rw [hc] at h; cases h

theorem Out.collectI_panic {α β : Type} {f : Nat → α → Out (List β)} {xs : List α} {i : Nat}
    (hf : ∀ j, ∀ x ∈ xs, f j x = .panic ∨ ∃ ys, f j x = .ok ys) {x : α} (hx : x ∈ xs) (hp : ∀ j, f j x = .panic) :
    Out.collectI f i xs = .panic := by
  induction xs generalizing i with
  | nil => cases hx
  | cons y ys ih =>
    unfold Out.collectI
    rcases hf i y (List.mem_cons_self ..) with h | ⟨zs, h⟩
    · rw [h]; rfl
    · rw [h, Out.bind_ok]
      rcases List.mem_cons.1 hx with rfl | hx
      · rw [hp i] at h; cases h
      · rw [ih (fun j z hz => hf j z (List.mem_cons_of_mem _ hz)) hx]; rfl

namespace V1
variable {w : V1} {o : Ord} {site : List Val}

/-- The request names an activity and nothing else. -/
def OnlyActivity (r : Request) : Prop := Shape r false false false false true

/-- The role ids the request asks for the activity. -/
def Asked (w : V1) (p : Str) (r : Request) (id : Str) : Prop :=
  (OnlyActivity r ∧ ∃ T t, (∃ x, RowsOf w p T x) ∧ TenantAt w T t ∧ AllowIn w t p T [] [] id) ∨
  (¬ OnlyActivity r ∧ ∃ x, RowsOf w p (toStr r.tenant) x ∧ x.role = id)

/-- What has to hold for the request to be answered: if it names only an activity, the tenants in which `p` is assigned
are registered; and below the roles asked there is no infinite chain and no pattern that loops on the activity. -/
structure Answers (w : V1) (p : Str) (r : Request) : Prop where
  tenants : OnlyActivity r → ∀ x, Row w x → x.principal = p → In w.tenants x.tenant
  roles : ∀ id a, Asked w p r id → (id, a) ∈ w.roles → Acc (fun d c => Child w.heap c d) a ∧
    ∀ d, (d = a ∨ Desc w.heap a d) → ∀ g, GroupOf w.heap d (toStr r.group) g → ∀ e ∈ g.perms, ¬ Hangs e.1 (toStr r.activity)

theorem answer_other {fuel : Nat} {p : Str} {r : Request} (hr : ¬ ResourceRequest r) (hp : In w.principals p) :
    (OnlyActivity r → w.answer o fuel site p r = w.authActivity o fuel site p (toStr r.activity)) ∧
    (¬ OnlyActivity r → w.answer o fuel site p r = w.authComplex o fuel site p r) := by
  obtain ⟨x, hx⟩ := Option.isSome_iff_exists.1 (in_iff.2 hp)
  unfold answer OnlyActivity Shape
  unfold ResourceRequest at hr
  rw [hx]
  by_cases h1 : r.tenant = .nil <;> by_cases h2 : r.namespace_ = .nil <;> by_cases h3 : r.scope = .nil <;>
    by_cases h4 : r.group = .nil <;> by_cases h5 : r.activity = .nil <;> simp [h1, h2, h3, h4, h5] at hr ⊢

theorem getAllowedRoles_total (inv : Inv w) {l : List TP} {n s : Str} (hl : ∀ x ∈ l, In w.tenants x.tenant) :
    ∃ r, w.getAllowedRoles o site (nilSlice l) n s = .ok r := by
  unfold nilSlice
  cases l with
  | nil => exact ⟨_, rfl⟩
  | cons x xs =>
    rw [if_neg (by simp)]
    obtain ⟨t, ht, _⟩ := tenantAt_of_in inv (hl x (List.mem_cons_self ..))
    obtain ⟨r, hr, _⟩ := C40_exact inv (xs := xs) (n := n) (s := s) ht o site
    exact ⟨r, hr⟩

theorem anyRole_total (inv : Inv w) {fuel : Nat} {ids allowed : List Str} {g act : Str}
    (h : ∀ id ∈ ids, ∀ a, (id, a) ∈ w.roles → ∀ o site, ∃ b, w.heap.has o g act allowed fuel site a = .ok b) :
    ∃ b, w.anyRole o fuel site (w.registeredRoles ids) g act allowed = .ok b := by
  refine Out.anyI_total fun i e he => ?_
  obtain ⟨h1, h2⟩ := (registeredRoles_mem inv).1 (Ord.mem_ord.1 he)
  exact h e.1 h1 e.2 h2 ..

/-- C97. Under `Answers` every request with a group or an activity is answered, with a stack bound that does not depend
on the iteration orders. -/
theorem C97_returns_partial (inv : Inv w) {p : Str} {opts : List Opt} (hr : ¬ ResourceRequest (requestOf opts))
    (ha : Answers w p (requestOf opts)) : ∃ n, ∀ m ≥ n, ∀ o site, ∃ b, w.authorize o m site p opts = .ok b := by
  show ∃ n, ∀ m ≥ n, ∀ o site, ∃ b, w.answer o m site p (requestOf opts) = .ok b
  generalize requestOf opts = r at hr ha
  by_cases hp : In w.principals p
  · obtain ⟨n, hn⟩ := RHeap.bound_exists
      (P := fun (e : Str × Nat) n => ∀ m ≥ n, Asked w p r e.1 → ∀ allowed o site, ∃ b,
        w.heap.has o (toStr r.group) (toStr r.activity) allowed m site e.2 = .ok b)
      (fun e n m hp hnm k hk => hp k (by omega)) w.roles
      (fun e he => by
        by_cases hu : Asked w p r e.1
        · obtain ⟨ro, hro, _⟩ := inv.roles _ _ ((GoMap.mem_iff_get inv.rolesWF).1 he)
          obtain ⟨k1, k2⟩ := ha.roles e.1 e.2 hu he
          obtain ⟨n, hn⟩ := C17_terminates inv.heap k1 (RHeap.lt_of_get hro) k2
          exact ⟨n, fun m hm _ => hn m hm⟩
        · exact ⟨0, fun _ _ h => absurd h hu⟩)
    refine ⟨n, fun m hm o site => ?_⟩
    obtain ⟨e1, e2⟩ := answer_other (o := o) (fuel := m) (site := site) hr hp
    by_cases hs : OnlyActivity r
    · rw [e1 hs]
      obtain ⟨ts, hts⟩ := tenantsForPrincipal_total inv o (site ++ [.int 0]) p
      obtain ⟨ids, hids⟩ : ∃ ids, Out.collectI (fun i t =>
          (w.principalRoles o (site ++ [.int 1, .int i]) t p).bind fun l =>
          (w.getAllowedRoles o (site ++ [.int 2, .int i]) (nilSlice l) [] []).map fun r => r.getD []) 0 ts = .ok ids := by
        refine Out.collectI_total fun i T _ => ?_
        obtain ⟨l, hl⟩ := principalRoles_total inv o (site ++ [.int 1, .int i]) T p
        obtain ⟨q, hq⟩ := getAllowedRoles_total (o := o) (site := site ++ [.int 2, .int i]) (l := l) (n := []) (s := []) inv
          fun x hx => by
            obtain ⟨h1, h2, _⟩ := (principalRoles_mem hl x).1 hx
            exact ha.tenants hs x h1 h2
        exact ⟨_, by rw [hl, Out.bind_ok, hq]; rfl⟩
      have hmem : ∀ id ∈ slicesCompact ids, Asked w p r id := fun id hid => by
        rw [Mgr.mem_slicesCompact, Out.collectI_mem (P := fun T id => ∃ t, (∃ x, RowsOf w p T x) ∧ TenantAt w T t ∧
          AllowIn w t p T [] [] id) ?_ hids] at hid
        · obtain ⟨T, _, h⟩ := hid; exact .inl ⟨hs, T, h⟩
        · intro _ T _ ys hy y
          obtain ⟨l, hl, hy⟩ := Out.bind_eq_ok.1 hy
          obtain ⟨r, hr, rfl⟩ := Out.map_eq_ok.1 hy
          exact getAllowedRoles_spec inv (principalRoles_mem hl) hr y
      have hg : toStr r.group = [] := by
        have : r.group = .nil := by
          have := hs.2.2.2.1
          simpa using this
        rw [this]; rfl
      unfold authActivity
      rw [hts, Out.bind_ok, hids, Out.bind_ok]
      exact anyRole_total inv fun id hid a hia o site => by
        have := hn (id, a) hia m hm (hmem id hid) (slicesCompact ids) o site
        rwa [hg] at this
    · rw [e2 hs]
      unfold authComplex
      simp only
      cases ht : w.tenants.get (toStr r.tenant) with
      | none => exact ⟨_, rfl⟩
      | some c =>
        obtain ⟨t, hc, hid⟩ := inv.tenants _ _ ht
        obtain ⟨l, hl⟩ := principalRoles_total inv o (site ++ [.int 0]) (toStr r.tenant) p
        simp only [withT, hc]
        rw [hl, Out.bind_ok]
        have hlm := principalRoles_mem hl
        split
        · exact ⟨_, rfl⟩
        · split
          · exact ⟨_, rfl⟩
          · split
            · exact ⟨_, rfl⟩
            · obtain ⟨q, hq⟩ := getAllowedRoles_total (o := o) (site := site ++ [.int 1]) (l := l) (n := toStr r.namespace_)
                (s := toStr r.scope) inv fun x hx => by
                  rw [((hlm x).1 hx).2.2]; exact in_iff.1 (by simp [ht])
              obtain ⟨ids, hids⟩ : ∃ ids, w.allowedRoleIDs o (site ++ [.int 2]) t (q.getD []) = .ok ids := by
                refine Out.collectI_total fun i e he => ?_
                obtain ⟨ro, hro, _⟩ := (inv.tobjs t (mem_of_get hc)).roles e (Ord.mem_ord.1 he)
                exact ⟨_, by rw [hro]⟩
              rw [hq, Out.bind_ok, hids, Out.bind_ok]
              refine anyRole_total inv fun id hid a hia o site => hn (id, a) hia m hm (.inr ⟨hs, ?_⟩) ids o site
              obtain ⟨x, hx, rfl⟩ := List.mem_map.1 hid
              exact ⟨x, (hlm x).1 hx, rfl⟩
  · exact ⟨0, fun m _ o site => ⟨false, by unfold answer; rw [in_iff_not.2 hp]⟩⟩

/-- C97. An assignment in a tenant that is not registered makes every request that names only an activity panic. -/
theorem C97_panics (inv : Inv w) {p : Str} {opts : List Opt} (hr : OnlyActivity (requestOf opts)) (hp : In w.principals p)
    {x : TP} (hx : Row w x) (hxp : x.principal = p) (ht : ¬ In w.tenants x.tenant) (o : Ord) (fuel : Nat) (site : List Val) :
    w.authorize o fuel site p opts = .panic := by
  show w.answer o fuel site p (requestOf opts) = .panic
  generalize requestOf opts = r at hr
  have hnr : ¬ ResourceRequest r := fun h => (hr.2.2.2.2.2 rfl) h.2.1
  rw [(answer_other (o := o) (fuel := fuel) (site := site) hnr hp).1 hr]
  obtain ⟨ts, hts⟩ := tenantsForPrincipal_total inv o (site ++ [.int 0]) p
  unfold authActivity
  rw [hts, Out.bind_ok, Out.collectI_panic (x := x.tenant) ?_ ((tenantsForPrincipal_mem hts _).2 ⟨x, hx, hxp, rfl⟩) ?_]
  · rfl
  · intro j T hT
    obtain ⟨l, hl⟩ := principalRoles_total inv o (site ++ [.int 1, .int j]) T p
    rw [hl, Out.bind_ok]
    by_cases hin : In w.tenants T
    · obtain ⟨q, hq⟩ := getAllowedRoles_total (o := o) (site := site ++ [.int 2, .int j]) (l := l) (n := []) (s := []) inv
        fun y hy => by rw [((principalRoles_mem hl y).1 hy).2.2]; exact hin
      exact .inr ⟨_, by rw [hq]; rfl⟩
    · left
      obtain ⟨y, hy⟩ := (tenantsForPrincipal_mem hts T).1 hT
      have hm := (principalRoles_mem hl y).2 hy
      cases l with
      | nil => cases hm
      | cons z zs =>
        have hz := ((principalRoles_mem hl z).1 (List.mem_cons_self ..)).2.2
        unfold nilSlice
        rw [if_neg (by simp), (C40_edges w o _ [] []).2.2 z zs (hz ▸ hin)]; rfl
  · intro j
    obtain ⟨l, hl⟩ := principalRoles_total inv o (site ++ [.int 1, .int j]) x.tenant p
    rw [hl, Out.bind_ok]
    have hm := (principalRoles_mem hl x).2 ⟨hx, hxp, rfl⟩
    cases l with
    | nil => cases hm
    | cons z zs =>
      have hz := ((principalRoles_mem hl z).1 (List.mem_cons_self ..)).2.2
      unfold nilSlice
      rw [if_neg (by simp), (C40_edges w o _ [] []).2.2 z zs (hz ▸ ht)]; rfl

/-- C97. If the principal's registered roles in the tenant all have the group without the activity, but are their own
descendants, the request is never answered, whatever the stack. -/
theorem C97_cycle (inv : Inv w) {p : Str} {opts : List Opt} (hr : ¬ ResourceRequest (requestOf opts))
    (hs : ¬ OnlyActivity (requestOf opts)) (hp : In w.principals p) {t : T1Obj}
    (ht : TenantAt w (toStr (requestOf opts).tenant) t)
    (hn : toStr (requestOf opts).namespace_ ≠ [] → In t.namespaces (toStr (requestOf opts).namespace_))
    (hsc : toStr (requestOf opts).scope ≠ [] → In t.scopes (toStr (requestOf opts).scope))
    (hx : ∃ x, RowsOf w p (toStr (requestOf opts).tenant) x ∧ In w.roles x.role)
    (hall : ∀ x a, RowsOf w p (toStr (requestOf opts).tenant) x → (x.role, a) ∈ w.roles → Desc w.heap a a ∧
      (∃ g, GroupOf w.heap a (toStr (requestOf opts).group) g) ∧
      ¬ OwnGrant w.heap a (toStr (requestOf opts).group) (toStr (requestOf opts).activity))
    (o : Ord) (fuel : Nat) (site : List Val) (b : Bool) : w.authorize o fuel site p opts ≠ .ok b := by
  show w.answer o fuel site p (requestOf opts) ≠ .ok b
  generalize requestOf opts = r at *
  intro h
  rw [(answer_other (o := o) (fuel := fuel) (site := site) hr hp).2 hs] at h
  unfold authComplex at h
  simp only at h
  obtain ⟨c, hc, hto⟩ := (tenantAt_iff inv).1 ht
  rw [hc] at h
  simp only [withT, hto] at h
  obtain ⟨l, hl, h⟩ := Out.bind_eq_ok.1 h
  have hlm := principalRoles_mem hl
  obtain ⟨x, hx, a, hxa⟩ := hx
  rw [if_neg (fun e => by have := (hlm x).2 hx; rw [e] at this; cases this), if_neg (fun e => in_iff_not.1 e.2 (hn e.1)),
    if_neg (fun e => in_iff_not.1 e.2 (hsc e.1))] at h
  obtain ⟨al, _, h⟩ := Out.bind_eq_ok.1 h
  obtain ⟨ids, _, h⟩ := Out.bind_eq_ok.1 h
  obtain ⟨e, he, j, c', hh⟩ := Out.anyI_first (List.ne_nil_of_mem
    (Ord.mem_ord.2 ((registeredRoles_mem inv).2 ⟨List.mem_map.2 ⟨x, (hlm x).2 hx, rfl⟩, hxa⟩))) h
  obtain ⟨h1, h2⟩ := (registeredRoles_mem inv).1 (Ord.mem_ord.1 he)
  obtain ⟨y, hy, hye⟩ := List.mem_map.1 h1
  obtain ⟨k1, ⟨g, k2⟩, k3⟩ := hall y e.2 ((hlm y).1 hy) (by rw [hye]; exact h2)
  rcases C17_cycle_has inv.heap k1 hh with ⟨_, k⟩ | ⟨_, k⟩
  · exact k3 k
  · exact k g k2

/-- C97 as intended: every request is answered. -/
def C97_full : Prop := ∀ (ops : List V1Op) (w : V1), V1Op.run {} ops = .ok w → ∀ (p : Str) (opts : List Opt),
  ∃ n, ∀ m ≥ n, ∀ o site, ∃ b, w.authorize o m site p opts = .ok b

/-- `p` is assigned in tenant "u", which is not registered. -/
def exUnregistered : List V1Op := [.newTenant (str "u"), .addPrincipal (str "p") 0,
  .addPrincipalRole (str "p") (str "r") 0 none none []]

theorem C97_panic_counterexample : ∃ w, V1Op.run {} exUnregistered = .ok w ∧ ∀ o fuel site,
    w.authorize o fuel site (str "p") [.activity (.str (str "/a GET"))] = .panic := by
  obtain ⟨w, hw, h1, h2, h3⟩ := Out.chk_ok (x := V1Op.run {} exUnregistered) (P := fun w =>
    w.principalRoles .fwd [] (str "u") (str "p") = .ok [{ tenant := str "u", principal := str "p", role := str "r", manage := true }] ∧
    (w.principals.get (str "p")).isSome = true ∧ w.tenants.get (str "u") = none) (by decide +kernel)
  refine ⟨w, hw, fun o fuel site => ?_⟩
  have hx := (principalRoles_mem h1 _).1 (List.mem_singleton.2 rfl)
  refine C97_panics (V1Op.reachable_inv hw) ?_ (in_iff.1 h2) hx.1 rfl (in_iff_not.1 h3) o fuel site
  unfold OnlyActivity Shape
  decide

theorem C97_full_false : ¬ C97_full := fun hf => by
  obtain ⟨w, hw, h⟩ := C97_panic_counterexample
  obtain ⟨n, hn⟩ := hf _ w hw (str "p") [.activity (.str (str "/a GET"))]
  obtain ⟨b, hb⟩ := hn n (Nat.le_refl _) .fwd []
  rw [h] at hb; cases hb

/-- Role "r" and its descendant "q" are descendants of each other; `p` has "r" in tenant "t". -/
def exCycle : List V1Op := [.newTenant (str "t"), .addTenant 0, .role (.newRole (str "r")), .role (.newRole (str "q")),
  .addRole 0, .role (.addPerm 0 (str "g") [⟨str "/a", str "GET"⟩]), .role (.addDesc 0 [1]), .role (.addDesc 1 [0]),
  .tAddRole 0 [0], .addPrincipal (str "p") 0, .tAddPrincipal 0 (str "p") [str "r"]]

/-- C97. The role's own activity is granted; any other activity of the group is never answered. -/
theorem C97_cycle_counterexample : ∃ w, V1Op.run {} exCycle = .ok w ∧
    w.authorize .fwd 9 [] (str "p") [.tenant (.str (str "t")), .group (.str (str "g")), .activity (.str (str "/a GET"))] = .ok true ∧
    ∀ o fuel site b, w.authorize o fuel site (str "p")
      [.tenant (.str (str "t")), .group (.str (str "g")), .activity (.str (str "/b GET"))] ≠ .ok b := by
  obtain ⟨w, hw, h0, h1, h2, h3, h4, h5, h6⟩ := Out.chk_ok (x := V1Op.run {} exCycle) (P := fun w =>
    w.authorize .fwd 9 [] (str "p") [.tenant (.str (str "t")), .group (.str (str "g")), .activity (.str (str "/a GET"))] = .ok true ∧
    w.principalRoles .fwd [] (str "t") (str "p") = .ok [{ tenant := str "t", principal := str "p", role := str "r", manage := true }] ∧
    (w.principals.get (str "p")).isSome = true ∧ w.tenants = [(str "t", 0)] ∧ w.roles = [(str "r", 0)] ∧ w.tobjs.length = 1 ∧
    w.heap = { roles := [{ id := str "r", perms := [(str "g", 0)], desc := [(str "q", 1)] }, { id := str "q", desc := [(str "r", 0)] }],
               groups := [{ id := str "g", perms := [(str "/a GET", ⟨str "/a", str "GET"⟩)] }] }) (by decide +kernel)
  refine ⟨w, hw, h0, fun o fuel site b => ?_⟩
  have inv := V1Op.reachable_inv hw
  have hx := (principalRoles_mem h1 _).1 (List.mem_singleton.2 rfl)
  obtain ⟨t, ht⟩ : ∃ t, w.tobjs[0]? = some t := ⟨_, List.getElem?_eq_getElem (by omega)⟩
  refine C97_cycle (opts := [.tenant (.str (str "t")), .group (.str (str "g")), .activity (.str (str "/b GET"))])
    inv (t := t) ?_ ?_ (in_iff.1 h2) ⟨0, by rw [h3]; exact List.mem_singleton.2 rfl, ht⟩ ?_ ?_ ⟨_, hx, 0, ?_⟩ ?_ o fuel site b
  · unfold ResourceRequest; decide
  · unfold OnlyActivity Shape; decide
  · exact fun h => absurd rfl h
  · exact fun h => absurd rfl h
  · rw [h4]; exact List.mem_singleton.2 rfl
  · intro x a _ ha
    rw [h4] at ha
    obtain rfl : a = 0 := (Prod.mk.inj (List.mem_singleton.1 ha)).2
    rw [h6]
    refine ⟨.step (c := 1) ⟨_, str "q", rfl, by decide⟩ (.child ⟨_, str "r", rfl, by decide⟩), ?_, ?_⟩
    · exact ⟨_, _, 0, rfl, List.mem_singleton.2 rfl, rfl⟩
    · rintro ⟨g, ⟨ro, k, hro, hk, hg⟩, pat, at', hp, hm⟩
      cases hro
      cases List.mem_singleton.1 hk
      cases hg
      cases List.mem_singleton.1 hp
      rcases hm with hm | hm
      · exact absurd hm (by decide)
      · exact ((matchResource_false_iff _ _).1 (show matchResource (str "/b GET") (str "/a GET") = .ok false by decide +kernel)).1 hm

/-- A heap in which every descendant was created after its parent and no permission contains a '*'. -/
theorem answers_plain {h : RHeap} (h1 : ∀ a b, Child h a b → a < b) (h2 : ∀ g ∈ h.groups, ∀ e ∈ g.perms, 42 ∉ e.1)
    (hl : ∀ a b, Child h a b → b < h.roles.length) (a : Nat) (grp act : Str) :
    Acc (fun d c => Child h c d) a ∧
    ∀ d, (d = a ∨ Desc h a d) → ∀ g, GroupOf h d grp g → ∀ e ∈ g.perms, ¬ Hangs e.1 act := by
  refine ⟨?_, fun d _ g ⟨_, _, _, _, hg⟩ e he => not_hangs_of_no_star (h2 g (List.mem_of_getElem? hg) e he)⟩
  have key : ∀ n a, h.roles.length ≤ a + n → Acc (fun d c => Child h c d) a := by
    intro n
    induction n with
    | zero => exact fun a ha => .intro _ fun d hd => by have := h1 a d hd; have := hl a d hd; omega
    | succ n ih => exact fun a ha => .intro _ fun d hd => ih d (by have := h1 a d hd; omega)
  exact key _ a (Nat.le_add_left ..)

/-- The state of `exOps` meets the hypotheses of `C97_returns_partial` for every request, and the answers differ. -/
theorem C97_example : ∃ w, V1Op.run {} exOps = .ok w ∧ (∀ r, Answers w (str "p") r) ∧
    w.authorize .fwd 9 [] (str "p") [.activity (.str (str "/a GET"))] = .ok true ∧
    w.authorize .fwd 9 [] (str "p") [.activity (.str (str "/b GET"))] = .ok false ∧
    w.authorize .fwd 9 [] (str "p") [.tenant (.str (str "t")), .group (.str (str "g")), .activity (.str (str "/a GET"))] = .ok true := by
  obtain ⟨w, hw, h1, h2, h3, h4, h5, h6⟩ := Out.chk_ok (x := V1Op.run {} exOps) (P := fun w =>
    w.authorize .fwd 9 [] (str "p") [.activity (.str (str "/a GET"))] = .ok true ∧
    w.authorize .fwd 9 [] (str "p") [.activity (.str (str "/b GET"))] = .ok false ∧
    w.authorize .fwd 9 [] (str "p") [.tenant (.str (str "t")), .group (.str (str "g")), .activity (.str (str "/a GET"))] = .ok true ∧
    w.tenantsForPrincipal .fwd [] (str "p") = .ok [str "t"] ∧ w.tenants = [(str "t", 0), (str "u", 1)] ∧
    w.heap = { roles := [{ id := str "r", perms := [(str "g", 0), ([], 2)], desc := [(str "q", 1)] }, { id := str "q", perms := [(str "g", 1)] }],
               groups := [{ id := str "g", perms := [(str "/a GET", ⟨str "/a", str "GET"⟩)] },
                          { id := str "g", perms := [(str "/b GET", ⟨str "/b", str "GET"⟩)] },
                          { id := [], perms := [(str "/a GET", ⟨str "/a", str "GET"⟩)] }] }) (by decide +kernel)
  refine ⟨w, hw, fun r => ⟨fun _ x hx hp => ?_, fun id a _ _ => ?_⟩, h1, h2, h3⟩
  · have := (tenantsForPrincipal_mem h4 x.tenant).2 ⟨x, hx, hp, rfl⟩
    rw [List.mem_singleton.1 this, h5]
    exact ⟨0, List.mem_cons_self ..⟩
  · have hc : ∀ a b, Child w.heap a b → a = 0 ∧ b = 1 := by
      rintro a b ⟨ro, k, hro, hk⟩
      rw [h6] at hro
      match a with
      | 0 => cases hro; cases List.mem_singleton.1 hk; exact ⟨rfl, rfl⟩
      | 1 => cases hro; cases hk
      | a + 2 => cases hro
    refine answers_plain (fun a b h => ?_) (by rw [h6]; decide) (fun a b h => ?_) a _ _
    · obtain ⟨rfl, rfl⟩ := hc a b h; omega
    · obtain ⟨rfl, rfl⟩ := hc a b h; rw [h6]; decide

end V1
end Verif
