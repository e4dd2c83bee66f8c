import Verif.Lemmas.V1Ops
import Verif.Props.Manager

/-!
# Package v1: C36 - C43
-/

namespace Verif
open Spec
namespace V1
variable {w : V1} {o : Ord} {site : List Val}

/-! ## C36: stored assignments -/

/-- C36. An assignment whose ids contain no `_` is read back as stored, and only such assignments are. -/
theorem C36_roundtrip {x : TP} : decode (encode x) = .ok x ↔ Clean x := by
  constructor
  · intro h
    obtain ⟨_, _, c, _⟩ := decode_iff.1 h
    exact c
  · exact fun c => decode_iff.2 (fields_encode c)

/-- Decoding a stored text never panics, whatever the ids are. -/
theorem C36_decodes (x : TP) : ∃ y, decode (encode x) = .ok y := decode_encode_total x

/-- C36 at the level of states: when no id ever assigned contains `_`, the assignments seen by every query are
exactly those passed to `AddPrincipalRole`. -/
theorem C36_rows (inv : Inv w) (hc : ∀ x ∈ w.log, Clean x) {x : TP} : Row w x ↔ x ∈ w.log := by
  constructor
  · rintro ⟨h, hm, hf⟩
    obtain ⟨y, hy, rfl⟩ := (inv.tps h).1 hm
    rw [fields_unique hf (fields_encode (hc y hy))]
    exact hy
  · exact fun hx => ⟨encode x, (inv.tps _).2 ⟨x, hx, rfl⟩, fields_encode (hc x hx)⟩

/-- The unrestricted claim. -/
def C36_full : Prop := ∀ x : TP, decode (encode x) = .ok x

/-- Assigning role `viewer` to principal `a_admin` is read back as principal `a` with role `admin`. -/
theorem C36_counterexample :
    decode (encode { tenant := str "t", principal := str "a_admin", role := str "viewer", manage := true }) =
      .ok { tenant := str "viewer", principal := str "a", role := str "admin", namespace_ := str "t" } := by decide

/-- Two different assignments can be the same stored text. -/
theorem C36_collision :
    encode { tenant := str "t", principal := str "a_b", role := str "c", manage := true } =
      encode { tenant := str "c_t", principal := str "a", role := str "b", manage := true } := by decide

theorem C36_full_false : ¬ C36_full := fun h => by
  have := h { tenant := str "t", principal := str "a_admin", role := str "viewer", manage := true }
  rw [C36_counterexample] at this
  exact absurd this (by decide)

example : Clean { tenant := str "t", principal := str "a", role := str "r" } := by
  unfold Clean NoUnderscore; decide

/-! ## Queries -/

theorem rows_total (inv : Inv w) (o : Ord) (site : List Val) : ∃ l, w.rows o site = .ok l := by
  refine Out.collectI_total (fun _ h hh => ?_)
  obtain ⟨x, _, rfl⟩ := (inv.tps h).1 (Ord.mem_ord.1 hh)
  obtain ⟨y, hy⟩ := decode_encode_total x
  exact ⟨[y], by rw [hy]; rfl⟩

theorem rows_mem {l : List TP} (h : w.rows o site = .ok l) (x : TP) : x ∈ l ↔ Row w x := by
  have := Out.collectI_mem (P := fun h x => Fields h x) (fun _ h _ ys he y => by
    obtain ⟨z, hz, rfl⟩ := Out.map_eq_ok.1 he
    rw [List.mem_singleton, ← decode_iff, hz]
    simp [eq_comm]) h x
  rw [this]
  simp [Row]

theorem principalRoles_total (inv : Inv w) (o : Ord) (site : List Val) (t p : Str) :
    ∃ l, w.principalRoles o site t p = .ok l := by
  obtain ⟨l, hl⟩ := rows_total inv o site
  exact ⟨_, by unfold principalRoles; rw [hl]; rfl⟩

theorem principalRoles_mem {t p : Str} {l : List TP} (h : w.principalRoles o site t p = .ok l) (x : TP) :
    x ∈ l ↔ RowsOf w p t x := by
  obtain ⟨l', h1, rfl⟩ := Out.map_eq_ok.1 h
  simp [rows_mem h1, RowsOf]

theorem tenantRoles_total (inv : Inv w) (o : Ord) (site : List Val) (t : Str) :
    ∃ l, w.tenantRoles o site t = .ok l := by
  obtain ⟨l, hl⟩ := rows_total inv o site
  exact ⟨_, by unfold tenantRoles; rw [hl]; rfl⟩

theorem tenantRoles_mem {t : Str} {l : List TP} (h : w.tenantRoles o site t = .ok l) (x : TP) :
    x ∈ l ↔ Row w x ∧ x.tenant = t := by
  obtain ⟨l', h1, rfl⟩ := Out.map_eq_ok.1 h
  simp [rows_mem h1]

theorem tenantsForPrincipal_total (inv : Inv w) (o : Ord) (site : List Val) (p : Str) :
    ∃ l, w.tenantsForPrincipal o site p = .ok l := by
  obtain ⟨l, hl⟩ := rows_total inv o site
  exact ⟨_, by unfold tenantsForPrincipal; rw [hl]; rfl⟩

theorem tenantsForPrincipal_mem {p : Str} {l : List Str} (h : w.tenantsForPrincipal o site p = .ok l) (t : Str) :
    t ∈ l ↔ ∃ x, RowsOf w p t x := by
  obtain ⟨l', h1, rfl⟩ := Out.map_eq_ok.1 h
  rw [Mgr.mem_slicesCompact]
  simp [rows_mem h1, RowsOf, and_assoc]

theorem tenantAt_iff (inv : Inv w) {id : Str} {t : T1Obj} :
    TenantAt w id t ↔ ∃ a, w.tenants.get id = some a ∧ w.tobjs[a]? = some t := by
  unfold TenantAt
  simp only [GoMap.mem_iff_get inv.tenantsWF]

theorem tenantAt_unique (inv : Inv w) {id : Str} {t t' : T1Obj} (h : TenantAt w id t) (h' : TenantAt w id t') :
    t = t' := by
  obtain ⟨a, h1, h2⟩ := (tenantAt_iff inv).1 h
  obtain ⟨b, h3, h4⟩ := (tenantAt_iff inv).1 h'
  rw [h1] at h3; cases h3
  rw [h2] at h4; cases h4; rfl

theorem tenantAt_of_in (inv : Inv w) {id : Str} (h : In w.tenants id) : ∃ t, TenantAt w id t ∧ t.id = id := by
  obtain ⟨a, ha⟩ := h
  rw [GoMap.mem_iff_get inv.tenantsWF] at ha
  obtain ⟨t, ht, hid⟩ := inv.tenants _ _ ha
  exact ⟨t, (tenantAt_iff inv).2 ⟨a, ha, ht⟩, hid⟩

/-! ## C37: resource requests -/

theorem authNamespace_spec (inv : Inv w) {p n : Str} {b : Bool} (h : w.authNamespace o site p n = .ok b) :
    b = true ↔ ∃ x t, Row w x ∧ x.principal = p ∧ TenantAt w x.tenant t ∧ In t.namespaces n := by
  obtain ⟨ts, h1, h2⟩ := Out.bind_eq_ok.1 h
  rw [Out.anyI_spec (P := fun T => ∃ t, TenantAt w T t ∧ In t.namespaces n) ?_ h2]
  · constructor
    · rintro ⟨T, hT, t, h3, h4⟩
      obtain ⟨x, h5, h6, rfl⟩ := (tenantsForPrincipal_mem h1 T).1 hT
      exact ⟨x, t, h5, h6, h3, h4⟩
    · rintro ⟨x, t, h3, h4, h5, h6⟩
      exact ⟨x.tenant, (tenantsForPrincipal_mem h1 _).2 ⟨x, h3, h4, rfl⟩, t, h5, h6⟩
  · intro _ T _ c hc
    split at hc
    · rename_i e
      cases hc
      simp only [Bool.false_eq_true, false_iff, not_exists, not_and]
      intro t ht
      obtain ⟨a, ha, _⟩ := (tenantAt_iff inv).1 ht
      rw [e] at ha; cases ha
    · rename_i a ha
      obtain ⟨t, ht, hc⟩ := withT_eq_ok.1 hc
      cases hc
      have hat : TenantAt w T t := (tenantAt_iff inv).2 ⟨a, ha, ht⟩
      rw [in_iff]
      exact ⟨fun h => ⟨t, hat, h⟩, fun ⟨t', h1, h2⟩ => tenantAt_unique inv hat h1 ▸ h2⟩

theorem authScope_spec (inv : Inv w) {p s : Str} {b : Bool} (h : w.authScope o site p s = .ok b) :
    b = true ↔ ∃ x t, Row w x ∧ x.principal = p ∧ TenantAt w x.tenant t ∧ In t.scopes s ∧ x.scope = s := by
  obtain ⟨ts, h1, h2⟩ := Out.bind_eq_ok.1 h
  rw [Out.anyI_spec (P := fun T => ∃ t x, TenantAt w T t ∧ In t.scopes s ∧ RowsOf w p T x ∧ x.scope = s) ?_ h2]
  · constructor
    · rintro ⟨T, hT, t, x, h3, h4, ⟨h5, h6, rfl⟩, h7⟩
      exact ⟨x, t, h5, h6, h3, h4, h7⟩
    · rintro ⟨x, t, h3, h4, h5, h6, h7⟩
      exact ⟨x.tenant, (tenantsForPrincipal_mem h1 _).2 ⟨x, h3, h4, rfl⟩, t, x, h5, h6, ⟨h3, h4, rfl⟩, h7⟩
  · intro _ T _ c hc
    split at hc
    · rename_i e
      cases hc
      simp only [Bool.false_eq_true, false_iff, not_exists, not_and]
      intro t _ ht
      obtain ⟨a, ha, _⟩ := (tenantAt_iff inv).1 ht
      rw [e] at ha; cases ha
    · rename_i a ha
      obtain ⟨t, ht, hc⟩ := withT_eq_ok.1 hc
      have hat : TenantAt w T t := (tenantAt_iff inv).2 ⟨a, ha, ht⟩
      obtain ⟨t2, ht2, hid⟩ := inv.tenants _ _ ha
      rw [ht] at ht2; cases ht2
      rw [hid] at hc
      split at hc
      · rename_i hs
        replace hs := in_iff.1 hs
        obtain ⟨l, hl, rfl⟩ := Out.map_eq_ok.1 hc
        simp only [List.any_eq_true, decide_eq_true_eq, principalRoles_mem hl]
        constructor
        · rintro ⟨x, h3, h4⟩; exact ⟨t, x, hat, hs, h3, h4⟩
        · rintro ⟨_, x, _, _, h3, h4⟩; exact ⟨x, h3, h4⟩
      · rename_i hs
        cases hc
        simp only [Bool.false_eq_true, false_iff, not_exists, not_and]
        intro t' x h3 h4
        exact absurd (in_iff.2 (tenantAt_unique inv hat h3 ▸ h4)) hs

theorem authTN_spec {p t n : Str} {b : Bool} (h : w.authTN o site p t n = .ok b) :
    b = true ↔ ∃ x, Row w x ∧ x.principal = p ∧ x.tenant = t ∧ x.namespace_ = n := by
  obtain ⟨l, hl, rfl⟩ := Out.map_eq_ok.1 h
  simp [principalRoles_mem hl, RowsOf, and_assoc]

theorem authTS_spec {p t s : Str} {b : Bool} (h : w.authTS o site p t s = .ok b) :
    b = true ↔ ∃ x, Row w x ∧ x.principal = p ∧ x.tenant = t ∧ x.scope = s := by
  obtain ⟨l, hl, rfl⟩ := Out.map_eq_ok.1 h
  simp [principalRoles_mem hl, RowsOf, and_assoc]

theorem authNS_spec {p n s : Str} {b : Bool} (h : w.authNS o site p n s = .ok b) :
    b = true ↔ ∃ x, Row w x ∧ x.principal = p ∧ x.namespace_ = n ∧ x.scope = s := by
  obtain ⟨ts, h1, h2⟩ := Out.bind_eq_ok.1 h
  rw [Out.anyI_spec (P := fun T => ∃ x, RowsOf w p T x ∧ x.namespace_ = n ∧ x.scope = s) ?_ h2]
  · constructor
    · rintro ⟨T, hT, x, ⟨h3, h4, _⟩, h5⟩; exact ⟨x, h3, h4, h5⟩
    · rintro ⟨x, h3, h4, h5⟩
      exact ⟨x.tenant, (tenantsForPrincipal_mem h1 _).2 ⟨x, h3, h4, rfl⟩, x, ⟨h3, h4, rfl⟩, h5⟩
  · intro _ T _ c hc
    obtain ⟨l, hl, rfl⟩ := Out.map_eq_ok.1 hc
    simp [principalRoles_mem hl]

theorem authTNS_spec {p t n s : Str} {b : Bool} (h : w.authTNS o site p t n s = .ok b) :
    b = true ↔ ∃ x, Row w x ∧ x.tenant = t ∧ x.namespace_ = n ∧ x.scope = s := by
  obtain ⟨l, hl, h⟩ := Out.bind_eq_ok.1 h
  split at h
  · rename_i e
    cases h
    simp only [List.any_eq_true, decide_eq_true_eq, principalRoles_mem hl] at e
    obtain ⟨x, ⟨h1, _, h2⟩, h3⟩ := e
    simp only [true_iff]
    exact ⟨x, h1, h2, h3⟩
  · obtain ⟨l2, hl2, rfl⟩ := Out.map_eq_ok.1 h
    simp [tenantRoles_mem hl2, and_assoc]

/-- The requests of C37: something is named, but neither a group nor an activity. -/
def ResourceRequest (r : Request) : Prop :=
  r.group = .nil ∧ r.activity = .nil ∧ ¬ (r.tenant = .nil ∧ r.namespace_ = .nil ∧ r.scope = .nil)

/-- C37. Exact decision of every request without group and activity, for every iteration order. -/
theorem C37_exact (inv : Inv w) {fuel : Nat} {p : Str} {opts : List Opt} {b : Bool}
    (hr : ResourceRequest (requestOf opts)) (h : w.authorize o fuel site p opts = .ok b) :
    b = true ↔ In w.principals p ∧ Grants1 w p (requestOf opts) := by
  have h : w.answer o fuel site p (requestOf opts) = .ok b := h
  generalize requestOf opts = r at h hr
  obtain ⟨hg, ha, hn⟩ := hr
  unfold answer at h
  split at h
  · rename_i e
    cases h
    simp [in_iff_not.1 e]
  · rename_i x e
    have hp : In w.principals p := in_iff.1 (by simp [e])
    simp only [hp, true_and, hg, ha, and_true] at h ⊢
    unfold Grants1 Shape
    by_cases h1 : r.tenant = .nil <;> by_cases h2 : r.namespace_ = .nil <;> by_cases h3 : r.scope = .nil <;>
      simp only [h1, h2, h3, hg, ha, ne_eq, not_true_eq_false, not_false_eq_true, true_and, and_true, false_and, and_false,
        if_true, if_false, Bool.false_eq_true, iff_true, iff_false, or_false, false_or, iff_self] at h hn ⊢
    · exact authScope_spec inv h
    · exact authNamespace_spec inv h
    · exact authNS_spec h
    · cases h; exact in_iff
    · exact authTS_spec h
    · exact authTN_spec h
    · exact authTNS_spec h

/-- C37. These requests are always answered: no panic, no endless loop. -/
theorem C37_returns (inv : Inv w) {p : Str} {opts : List Opt} (hr : ResourceRequest (requestOf opts)) (o : Ord)
    (fuel : Nat) (site : List Val) : ∃ b, w.authorize o fuel site p opts = .ok b := by
  show ∃ b, w.answer o fuel site p (requestOf opts) = .ok b
  generalize requestOf opts = r at hr
  obtain ⟨hg, ha, hn⟩ := hr
  have tot : ∀ (l : List Str) (f : Nat → T1Obj → Out Bool), (∀ i t, ∃ b, f i t = .ok b) →
      ∃ b, Out.anyI (fun i T => match w.tenants.get T with
        | none => .ok false
        | some c => w.withT c fun t => f i t) 0 l = .ok b := by
    intro l f hf
    refine Out.anyI_total (fun i T _ => ?_)
    cases e : w.tenants.get T with
    | none => exact ⟨_, rfl⟩
    | some a =>
      obtain ⟨t, ht, _⟩ := inv.tenants _ _ e
      obtain ⟨b, hb⟩ := hf i t
      exact ⟨b, by simp only [withT, ht, hb]⟩
  unfold answer
  cases e : w.principals.get p with
  | none => exact ⟨_, rfl⟩
  | some x =>
    simp only [hg, ha, and_true]
    by_cases h1 : r.tenant = .nil <;> by_cases h2 : r.namespace_ = .nil <;> by_cases h3 : r.scope = .nil <;>
      simp only [h1, h2, h3, ne_eq, not_true_eq_false, not_false_eq_true, and_true, and_false, if_true, if_false] at hn ⊢
    · obtain ⟨ts, hts⟩ := tenantsForPrincipal_total inv o (site ++ [.int 0]) p
      unfold authScope
      rw [hts]
      refine tot ts _ (fun i t => ?_)
      split
      · obtain ⟨l, hl⟩ := principalRoles_total inv o (site ++ [.int 1, .int i]) t.id p
        exact ⟨_, by rw [hl]; rfl⟩
      · exact ⟨_, rfl⟩
    · obtain ⟨ts, hts⟩ := tenantsForPrincipal_total inv o (site ++ [.int 0]) p
      unfold authNamespace
      rw [hts]
      exact tot ts (fun _ t => .ok (t.namespaces.get _).isSome) (fun i t => ⟨_, rfl⟩)
    · obtain ⟨ts, hts⟩ := tenantsForPrincipal_total inv o (site ++ [.int 0]) p
      unfold authNS
      rw [hts]
      refine Out.anyI_total (fun i T _ => ?_)
      obtain ⟨l, hl⟩ := principalRoles_total inv o (site ++ [.int 1, .int i]) T p
      exact ⟨_, by rw [hl]; rfl⟩
    · exact ⟨_, rfl⟩
    · obtain ⟨l, hl⟩ := principalRoles_total inv o site (toStr r.tenant) p
      exact ⟨_, by unfold authTS; rw [hl]; rfl⟩
    · obtain ⟨l, hl⟩ := principalRoles_total inv o site (toStr r.tenant) p
      exact ⟨_, by unfold authTN; rw [hl]; rfl⟩
    · obtain ⟨l, hl⟩ := principalRoles_total inv o (site ++ [.int 0]) (toStr r.tenant) p
      obtain ⟨l2, hl2⟩ := tenantRoles_total inv o (site ++ [.int 1]) (toStr r.tenant)
      unfold authTNS
      rw [hl, Out.bind_ok]
      split
      · exact ⟨_, rfl⟩
      · exact ⟨_, by rw [hl2]; rfl⟩

/-- Tenants `t`, `u`; namespace `n`; scopes `s`, `z`; roles `r`, `q` with `r` above `q`; principal `p` has `r`
in `t` for scope `s`; principals `x`, `y` have nothing, `y` is unknown. -/
def exOps : List V1Op := [
  .newTenant (str "t"), .newTenant (str "u"), .newNamespace (str "n"),
  .addTenant 0, .addTenant 1, .addNamespace 0,
  .role (.newRole (str "r")), .role (.newRole (str "q")), .addRole 0, .addRole 1,
  .role (.addPerm 0 (str "g") [⟨str "/a", str "GET"⟩]), .role (.addPerm 1 (str "g") [⟨str "/b", str "GET"⟩]),
  .role (.addPerm 0 [] [⟨str "/a", str "GET"⟩]),
  .role (.addDesc 0 [1]),
  .addPrincipal (str "p") 0, .addPrincipal (str "x") 1,
  .tAddRole 0 [0, 1], .tAddScopes 0 [(str "s", 0), (str "z", 1)], .tAddNamespace 0 [0],
  .tSetDefaultNamespace 0 (str "n"), .tAddScopesToNamespace 0 (str "n") [str "s"],
  .tAddPrincipal 0 (str "p") [str "r"], .tAssignScopesWithRole .fwd [] 0 (str "p") (str "r") [str "s"]]

/-- The hypotheses of C37 are met and both answers occur. -/
example : ∃ w, V1Op.run {} exOps = .ok w ∧ (
    w.authorize .fwd 9 [] (str "p") [.tenant (.str (str "t")), .namespace_ (.str (str "n"))] = .ok true ∧
    w.authorize .rev 9 [] (str "p") [.tenant (.str (str "t")), .scope (.str (str "s"))] = .ok true ∧
    w.authorize .fwd 9 [] (str "p") [.tenant (.str (str "t")), .scope (.str (str "z"))] = .ok false ∧
    w.authorize .fwd 9 [] (str "p") [.namespace_ (.str (str "n"))] = .ok true ∧
    w.authorize .fwd 9 [] (str "p") [.scope (.str (str "s"))] = .ok true ∧
    w.authorize .fwd 9 [] (str "x") [.scope (.str (str "s"))] = .ok false ∧
    w.authorize .fwd 9 [] (str "p") [.namespace_ (.str (str "n")), .scope (.str (str "s"))] = .ok true ∧
    w.authorize .fwd 9 [] (str "y") [.tenant (.str (str "t"))] = .ok false) := Out.chk_ok (by decide +kernel)

/-! ## C38: tenant requests -/

/-- The property: a tenant request is granted only to principals assigned in the tenant. -/
def C38_full : Prop := ∀ (ops : List V1Op) (w : V1), V1Op.run {} ops = .ok w →
  ∀ (o : Ord) (fuel : Nat) (site : List Val) (p t : Str), w.authorize o fuel site p [.tenant (.str t)] = .ok true →
    ∃ x, RowsOf w p t x

/-- What holds: a tenant request is granted exactly if principal and tenant are registered. -/
theorem C38_exact_partial (w : V1) (o : Ord) (fuel : Nat) (site : List Val) (p t : Str) :
    ∃ b, w.authorize o fuel site p [.tenant (.str t)] = .ok b ∧ (b = true ↔ In w.principals p ∧ In w.tenants t) := by
  show ∃ b, w.answer o fuel site p { tenant := .str t } = .ok b ∧ _
  unfold answer
  cases e : w.principals.get p with
  | none => exact ⟨false, rfl, by simp [in_iff_not.1 e]⟩
  | some x =>
    refine ⟨_, rfl, ?_⟩
    rw [in_iff]
    have hp : In w.principals p := in_iff.1 (by simp [e])
    simp [hp, toStr]

/-- Principal `x` of `exOps` is assigned nothing and is granted tenant `t`. -/
theorem C38_full_false : ¬ C38_full := by
  intro hf
  obtain ⟨w, hw, h1, h2⟩ := Out.chk_ok (x := V1Op.run {} exOps)
    (P := fun w => w.authorize .fwd 9 [] (str "x") [.tenant (.str (str "t"))] = .ok true ∧
      ((w.rows .fwd []).Chk fun l => ∀ y ∈ l, y.principal ≠ str "x")) (by decide +kernel)
  obtain ⟨l, hl, hn⟩ := Out.chk_ok h2
  obtain ⟨x, hx, hp, _⟩ := hf _ w hw _ _ _ _ _ h1
  exact hn x ((rows_mem hl x).2 hx) hp

/-! ## C39: own assignments -/

/-- An assignment of `p` that meets the named parts of the request. -/
def OwnMatch (w : V1) (p : Str) (r : Request) : Prop :=
  ∃ x, Row w x ∧ x.principal = p ∧ (r.tenant ≠ .nil → x.tenant = toStr r.tenant) ∧
    (r.scope ≠ .nil → x.scope = toStr r.scope) ∧
    (r.namespace_ ≠ .nil → x.namespace_ = toStr r.namespace_ ∨
      ∃ t, TenantAt w x.tenant t ∧ In t.namespaces (toStr r.namespace_))

/-- The property: requests naming a namespace or a scope use the principal's own assignments. -/
def C39_full : Prop := ∀ (ops : List V1Op) (w : V1), V1Op.run {} ops = .ok w →
  ∀ (o : Ord) (fuel : Nat) (site : List Val) (p : Str) (opts : List Opt), ResourceRequest (requestOf opts) →
    ((requestOf opts).namespace_ ≠ .nil ∨ (requestOf opts).scope ≠ .nil) →
    w.authorize o fuel site p opts = .ok true → OwnMatch w p (requestOf opts)

/-- C39 for every shape but tenant + namespace + scope. -/
theorem C39_partial (inv : Inv w) {fuel : Nat} {p : Str} {opts : List Opt} (hr : ResourceRequest (requestOf opts))
    (hs : (requestOf opts).namespace_ ≠ .nil ∨ (requestOf opts).scope ≠ .nil)
    (hne : ¬ ((requestOf opts).tenant ≠ .nil ∧ (requestOf opts).namespace_ ≠ .nil ∧ (requestOf opts).scope ≠ .nil))
    (h : w.authorize o fuel site p opts = .ok true) : OwnMatch w p (requestOf opts) := by
  have := ((C37_exact inv hr h).1 rfl).2
  generalize requestOf opts = r at *
  rcases this with ⟨sh, _⟩ | ⟨sh, x, t, h1, h2, h3, h4⟩ | ⟨sh, x, t, h1, h2, h3, h4, h5⟩ | ⟨sh, x, h1, h2, h3, h4⟩ |
    ⟨sh, x, h1, h2, h3, h4⟩ | ⟨sh, x, h1, h2, h3, h4⟩ | ⟨sh, _⟩ <;> unfold Shape at sh <;>
    simp only [iff_true, iff_false, Bool.false_eq_true] at sh
  · rcases hs with hs | hs
    · exact absurd hs sh.2.1
    · exact absurd hs sh.2.2.1
  · exact ⟨x, h1, h2, fun h => absurd h sh.1, fun h => absurd h sh.2.2.1, fun _ => .inr ⟨t, h3, h4⟩⟩
  · exact ⟨x, h1, h2, fun h => absurd h sh.1, fun _ => h5, fun h => absurd h sh.2.1⟩
  · exact ⟨x, h1, h2, fun _ => h3, fun h => absurd h sh.2.2.1, fun _ => .inl h4⟩
  · exact ⟨x, h1, h2, fun _ => h3, fun _ => h4, fun h => absurd h sh.2.1⟩
  · exact ⟨x, h1, h2, fun h => absurd h sh.1, fun _ => h4, fun _ => .inl h3⟩
  · exact absurd ⟨sh.1, sh.2.1, sh.2.2.1⟩ hne

/-- C39 for tenant + namespace + scope: some assignment in the tenant matches, possibly of another principal. -/
theorem C39_tns_partial (inv : Inv w) {fuel : Nat} {p : Str} {opts : List Opt} (hr : ResourceRequest (requestOf opts))
    (hs : (requestOf opts).tenant ≠ .nil ∧ (requestOf opts).namespace_ ≠ .nil ∧ (requestOf opts).scope ≠ .nil)
    (h : w.authorize o fuel site p opts = .ok true) :
    ∃ x, Row w x ∧ x.tenant = toStr (requestOf opts).tenant ∧ x.namespace_ = toStr (requestOf opts).namespace_ ∧
      x.scope = toStr (requestOf opts).scope := by
  have := ((C37_exact inv hr h).1 rfl).2
  generalize requestOf opts = r at *
  rcases this with ⟨sh, _⟩ | ⟨sh, _⟩ | ⟨sh, _⟩ | ⟨sh, _⟩ | ⟨sh, _⟩ | ⟨sh, _⟩ | ⟨_, h⟩ <;>
    first
    | exact h
    | (unfold Shape at sh; simp only [iff_true, iff_false, Bool.false_eq_true] at sh; simp_all)

/-- Principal `x` of `exOps` is assigned nothing and is granted scope `s` of namespace `n` in tenant `t`. -/
theorem C39_full_false : ¬ C39_full := by
  intro hf
  obtain ⟨w, hw, h1, h2⟩ := Out.chk_ok (x := V1Op.run {} exOps)
    (P := fun w => w.authorize .fwd 9 [] (str "x")
        [.tenant (.str (str "t")), .namespace_ (.str (str "n")), .scope (.str (str "s"))] = .ok true ∧
      ((w.rows .fwd []).Chk fun l => ∀ y ∈ l, y.principal ≠ str "x")) (by decide +kernel)
  obtain ⟨l, hl, hn⟩ := Out.chk_ok h2
  obtain ⟨x, hx, hp, _⟩ := hf _ w hw _ _ _ _ _ ⟨rfl, rfl, by decide⟩ (by decide) h1
  exact hn x ((rows_mem hl x).2 hx) hp

/-! ## C40: `GetAllowedRoles` -/

theorem namespaceLists_spec (inv : Inv w) {c : Nat} {t : T1Obj} (ht : w.tobjs[c]? = some t) (o : Ord) (site : List Val) (n : Str) :
    ∃ l, w.namespaceLists o site t n = .ok l ∧ (∀ s, s ∈ l.1 ↔ NsScope w t n s) ∧ (∀ r, r ∈ l.2 ↔ NsRole w t n r) := by
  have tok := inv.tobjs t (mem_of_get ht)
  unfold namespaceLists NsScope NsRole
  simp only [GoMap.mem_iff_get tok.nsWF]
  cases e : t.namespaces.get n with
  | none => exact ⟨_, rfl, by simp, by simp⟩
  | some a =>
    obtain ⟨no, hno, _⟩ := tok.namespaces _ (GoMap.get_some_mem e)
    simp only [hno]
    refine ⟨_, rfl, fun s => ?_, fun s => ?_⟩
    · simp [In, hno]
    · simp [In, hno]

theorem pickRoles_spec {t : T1Obj} {l : List TP} {n s : Str} {nss nrs : List Str}
    (hS : ∀ s, s ∈ nss ↔ NsScope w t n s) (hR : ∀ r, r ∈ nrs ↔ NsRole w t n r)
    (h1 : s ≠ [] → In t.scopes s) (h2 : n ≠ [] → In t.namespaces n) :
    (pickRoles t l n s nss nrs = none ↔ Refused w t (· ∈ l) n s) ∧
    ∀ ids, pickRoles t l n s nss nrs = some ids → (∀ id, id ∈ ids ↔ Candidate w t (· ∈ l) n s id) := by
  have hcand : ∀ id, id ∈ (if n ≠ [] ∧ s ≠ [] ∧ 0 < (l.filter fun y => y.namespace_ ≠ [] ∧ y.scope ≠ []).length then
        (if 0 < nrs.length then nrs else (l.filter fun y => y.namespace_ = [] ∧ y.scope = []).map (·.role)) ++
          ((l.filter fun y => y.namespace_ ≠ [] ∧ y.scope ≠ []).filter fun y => y.namespace_ = n ∧ y.scope = s).map (·.role)
      else (if 0 < nrs.length then nrs else (l.filter fun y => y.namespace_ = [] ∧ y.scope = []).map (·.role))) ↔
      Candidate w t (· ∈ l) n s id := by
    intro id
    have hbase : id ∈ (if 0 < nrs.length then nrs else (l.filter fun y => y.namespace_ = [] ∧ y.scope = []).map (·.role)) ↔
        NsRole w t n id ∨ ((∀ j, ¬ NsRole w t n j) ∧ ∃ y, y ∈ l ∧ y.namespace_ = [] ∧ y.scope = [] ∧ y.role = id) := by
      split
      · rename_i hl
        obtain ⟨r, hr⟩ := List.exists_mem_of_length_pos hl
        rw [hR]
        constructor
        · exact .inl
        · rintro (h | ⟨h, _⟩)
          · exact h
          · exact absurd ((hR r).1 hr) (h r)
      · rename_i hl
        have hno : ∀ j, ¬ NsRole w t n j := fun j hj => hl (List.length_pos_of_mem ((hR j).2 hj))
        simp [hno, and_assoc]
    have hextra : ∀ y, (y ∈ (l.filter fun y => y.namespace_ ≠ [] ∧ y.scope ≠ []).filter fun y => y.namespace_ = n ∧ y.scope = s) ↔
        n ≠ [] ∧ s ≠ [] ∧ y ∈ l ∧ y.namespace_ = n ∧ y.scope = s := by
      intro y
      simp only [List.mem_filter, decide_eq_true_eq]
      constructor
      · rintro ⟨⟨k1, k2, k3⟩, rfl, rfl⟩; exact ⟨k2, k3, k1, rfl, rfl⟩
      · rintro ⟨k2, k3, k1, rfl, rfl⟩; exact ⟨⟨k1, k2, k3⟩, rfl, rfl⟩
    unfold Candidate
    rw [← or_assoc, ← hbase]
    split
    · rw [List.mem_append, List.mem_map]
      simp only [hextra]
      constructor
      · rintro (h | ⟨y, ⟨h1, h2, h3, h4, h5⟩, h6⟩)
        · exact .inl h
        · exact .inr ⟨h1, h2, y, h3, h4, h5, h6⟩
      · rintro (h | ⟨h1, h2, y, h3, h4, h5, h6⟩)
        · exact .inl h
        · exact .inr ⟨y, ⟨h1, h2, h3, h4, h5⟩, h6⟩
    · rename_i hc
      constructor
      · exact .inl
      · rintro (h | ⟨h1, h2, y, h3, h4, h5, h6⟩)
        · exact h
        · refine absurd ⟨h1, h2, List.length_pos_of_mem (a := y) ?_⟩ hc
          simp only [List.mem_filter, decide_eq_true_eq]
          exact ⟨h3, h4 ▸ h1, h5 ▸ h2⟩
  have hsc : (s ∉ (l.filter fun y => y.scope ≠ []).map (·.scope) ∧ (l.filter fun y => y.namespace_ = [] ∧ y.scope = []).length = 0) ↔
      ((¬ ∃ y, y ∈ l ∧ s ≠ [] ∧ y.scope = s) ∧ ¬ ∃ y, y ∈ l ∧ y.namespace_ = [] ∧ y.scope = []) := by
    refine and_congr (not_congr ?_) ?_
    · simp only [List.mem_map, List.mem_filter, decide_eq_true_eq]
      constructor
      · rintro ⟨y, ⟨k1, k2⟩, rfl⟩; exact ⟨y, k1, k2, rfl⟩
      · rintro ⟨y, k1, k2, rfl⟩; exact ⟨y, ⟨k1, k2⟩, rfl⟩
    · rw [List.length_eq_zero_iff, List.filter_eq_nil_iff]
      simp
  have hns : (0 < nss.length ∧ s ∉ nss) ↔ ((∃ j, NsScope w t n j) ∧ ¬ NsScope w t n s) := by
    rw [hS]
    refine and_congr_left' ⟨fun h => ?_, fun ⟨j, hj⟩ => List.length_pos_of_mem ((hS j).2 hj)⟩
    obtain ⟨r, hr⟩ := List.exists_mem_of_length_pos h
    exact ⟨r, (hS r).1 hr⟩
  have hns1 : ¬ (s ≠ [] ∧ ¬ In t.scopes s) := fun h => h.2 (h1 h.1)
  have hns2 : ¬ (n ≠ [] ∧ ¬ In t.namespaces n) := fun h => h.2 (h2 h.1)
  unfold Refused pickRoles
  simp only [or_iff_right hns1, or_iff_right hns2]
  rw [← or_assoc, ← hsc, ← hns]
  split
  · rename_i e
    refine ⟨⟨fun _ => .inl e, fun _ => rfl⟩, fun ids h => by cases h⟩
  · rename_i e
    rw [or_iff_right e]
    generalize (if n ≠ [] ∧ s ≠ [] ∧ 0 < (l.filter fun y => y.namespace_ ≠ [] ∧ y.scope ≠ []).length then
        (if 0 < nrs.length then nrs else (l.filter fun y => y.namespace_ = [] ∧ y.scope = []).map (·.role)) ++
          ((l.filter fun y => y.namespace_ ≠ [] ∧ y.scope ≠ []).filter fun y => y.namespace_ = n ∧ y.scope = s).map (·.role)
      else (if 0 < nrs.length then nrs else (l.filter fun y => y.namespace_ = [] ∧ y.scope = []).map (·.role))) = A
      at hcand ⊢
    split
    · rename_i e2
      constructor
      · simp only [reduceCtorEq, false_iff, not_exists, not_and, not_not]
        intro id hid
        exact in_iff.1 (e2 id ((hcand id).2 hid))
      · rintro ids hh id
        cases hh
        rw [Mgr.mem_slicesCompact, hcand]
    · rename_i e2
      refine ⟨⟨fun _ => ?_, fun _ => rfl⟩, fun ids h => by cases h⟩
      simp only [Classical.not_forall] at e2
      obtain ⟨id, h3, h4⟩ := e2
      exact ⟨id, (hcand id).1 h3, fun h => h4 (in_iff.2 h)⟩

/-- C40. `GetAllowedRoles` for a non-nil list of assignments, whatever they are: nil exactly in the cases of
`Refused`, else exactly the roles of `Candidate`, each of them a role of the tenant. -/
theorem C40_exact (inv : Inv w) {x : TP} {xs : List TP} {n s : Str} {t : T1Obj} (ht : TenantAt w x.tenant t)
    (o : Ord) (site : List Val) :
    ∃ r, w.getAllowedRoles o site (some (x :: xs)) n s = .ok r ∧
      (r = none ↔ Refused w t (· ∈ x :: xs) n s) ∧
      ∀ ids, r = some ids → ∀ id, id ∈ ids ↔ Candidate w t (· ∈ x :: xs) n s id := by
  obtain ⟨c, hc, ht⟩ := (tenantAt_iff inv).1 ht
  simp only [getAllowedRoles, hc, withT, ht]
  split
  · rename_i e
    refine ⟨none, rfl, ⟨fun _ => ?_, fun _ => rfl⟩, fun _ h => by cases h⟩
    rw [in_iff_not, in_iff_not] at e
    rcases e with e | e
    · exact .inl e
    · exact .inr (.inl e)
  · rename_i e
    rw [in_iff_not, in_iff_not] at e
    obtain ⟨l, hl, hS, hR⟩ := namespaceLists_spec inv ht o site n
    rw [hl]
    refine ⟨_, rfl, ?_⟩
    have := pickRoles_spec (w := w) (t := t) (l := x :: xs) (n := n) (s := s) hS hR
      (fun h => Classical.byContradiction fun k => e (.inl ⟨h, k⟩)) (fun h => Classical.byContradiction fun k => e (.inr ⟨h, k⟩))
    exact this

/-- C40. A role of the result is a role of the tenant. -/
theorem C40_roles_of_tenant (inv : Inv w) {x : TP} {xs : List TP} {n s : Str} {t : T1Obj} (ht : TenantAt w x.tenant t)
    {ids : List Str} (h : w.getAllowedRoles o site (some (x :: xs)) n s = .ok (some ids)) :
    ∀ id ∈ ids, In t.roles id := by
  intro id hid
  obtain ⟨r, hr, h1, h2⟩ := C40_exact inv (xs := xs) (n := n) (s := s) ht o site
  rw [h] at hr; cases hr
  have hn : ¬ Refused w t (· ∈ x :: xs) n s := fun k => by simpa using h1.2 k
  refine Classical.byContradiction fun k => hn ?_
  exact .inr (.inr (.inr (.inr ⟨id, (h2 ids rfl id).1 hid, k⟩)))

/-- C40. The remaining inputs: nil gives nil; an empty list and an unregistered tenant panic. -/
theorem C40_edges (w : V1) (o : Ord) (site : List Val) (n s : Str) :
    w.getAllowedRoles o site none n s = .ok none ∧
    w.getAllowedRoles o site (some []) n s = .panic ∧
    ∀ x xs, ¬ In w.tenants x.tenant → w.getAllowedRoles o site (some (x :: xs)) n s = .panic := by
  refine ⟨rfl, rfl, fun x xs h => ?_⟩
  simp only [getAllowedRoles, in_iff_not.2 h]

/-- Both outcomes occur. -/
example : ∃ w, V1Op.run {} exOps = .ok w ∧ (
    w.getAllowedRoles .fwd [] (some [{ tenant := str "t", principal := str "p", role := str "r" }]) (str "n") (str "s") =
      .ok (some [str "r"]) ∧
    w.getAllowedRoles .fwd [] (some [{ tenant := str "t", principal := str "p", role := str "r" }]) (str "n") (str "z") =
      .ok none) := Out.chk_ok (by decide +kernel)

/-! ## C41: activity requests -/

theorem registeredRoles_get (w : V1) (ids : List Str) (id : Str) :
    (w.registeredRoles ids).get id = if id ∈ ids then w.roles.get id else none := by
  have key : ∀ (m : GoMap Str Nat), (∀ k a, m.get k = some a → w.roles.get k = some a) →
      (ids.foldl (fun m r => match w.roles.get r with
        | some a => m.set r a
        | none => m) m).get id = if id ∈ ids then w.roles.get id else m.get id := by
    induction ids with
    | nil => simp
    | cons r rs ih =>
      intro m hm
      rw [List.foldl_cons, ih]
      · by_cases h : id ∈ rs
        · simp [h]
        · by_cases h2 : id = r
          · subst h2
            simp only [h, if_false, List.mem_cons, true_or, if_true]
            cases e : w.roles.get id with
            | none =>
              simp only
              cases e2 : m.get id with
              | none => rfl
              | some a => rw [hm id a e2] at e; cases e
            | some a => simp
          · simp only [h, if_false, List.mem_cons, h2, or_self]
            cases e : w.roles.get r with
            | none => rfl
            | some a => simp only [GoMap.get_set]; rw [if_neg (fun e => h2 e.symm)]
      · intro k a hk
        cases e : w.roles.get r with
        | none => rw [e] at hk; exact hm k a hk
        | some b =>
          rw [e] at hk
          simp only [GoMap.get_set] at hk
          split at hk
          · rename_i e2; subst e2; cases hk; exact e
          · exact hm k a hk
  have := key [] (by simp)
  rw [GoMap.get_nil] at this
  exact this

theorem registeredRoles_wf (w : V1) (ids : List Str) : GoMap.WF (w.registeredRoles ids) := by
  have key : ∀ (m : GoMap Str Nat), GoMap.WF m → GoMap.WF (ids.foldl (fun m r => match w.roles.get r with
        | some a => m.set r a
        | none => m) m) := by
    induction ids with
    | nil => exact fun _ h => h
    | cons r rs ih =>
      intro m hm
      rw [List.foldl_cons]
      apply ih
      cases w.roles.get r with
      | none => exact hm
      | some a => exact GoMap.wf_set hm _ _
  exact key [] GoMap.wf_nil

theorem registeredRoles_mem (inv : Inv w) {ids : List Str} {e : Str × Nat} :
    e ∈ w.registeredRoles ids ↔ e.1 ∈ ids ∧ e ∈ w.roles := by
  obtain ⟨k, a⟩ := e
  rw [GoMap.mem_iff_get (registeredRoles_wf w ids), GoMap.mem_iff_get inv.rolesWF, registeredRoles_get]
  by_cases h : k ∈ ids <;> simp [h]

theorem anyRole_spec (inv : Inv w) {fuel : Nat} {ids : List Str} {g act : Str} {allowed : List Str} {b : Bool}
    (h : w.anyRole o fuel site (w.registeredRoles ids) g act allowed = .ok b) :
    b = true ↔ ∃ id ∈ ids, ∃ a, (id, a) ∈ w.roles ∧ Granted w.heap allowed g act a := by
  rw [Out.anyI_spec (P := fun e : Str × Nat => Granted w.heap allowed g act e.2) ?_ h]
  · constructor
    · rintro ⟨⟨id, a⟩, h1, h2⟩
      obtain ⟨h3, h4⟩ := (registeredRoles_mem inv).1 (Ord.mem_ord.1 h1)
      exact ⟨id, h3, a, h4, h2⟩
    · rintro ⟨id, h1, a, h2, h3⟩
      exact ⟨(id, a), Ord.mem_ord.2 ((registeredRoles_mem inv).2 ⟨h1, h2⟩), h3⟩
  · intro _ e _ c hc
    exact RHeap.has_spec inv.heap hc

theorem granted_congr {h : RHeap} {A B : List Str} (hAB : ∀ x, x ∈ A ↔ x ∈ B) {g act : Str} {a : Nat} :
    Granted h A g act a ↔ Granted h B g act a := by
  have : (A = []) ↔ (B = []) := by
    rw [List.eq_nil_iff_forall_not_mem, List.eq_nil_iff_forall_not_mem]
    exact forall_congr' fun x => not_congr (hAB x)
  unfold Granted
  simp only [hAB, this]

theorem refused_congr {t : T1Obj} {R S : TP → Prop} (h : ∀ x, R x ↔ S x) {n s : Str} :
    Refused w t R n s ↔ Refused w t S n s := by
  have : R = S := funext fun x => propext (h x)
  rw [this]

theorem candidate_congr {t : T1Obj} {R S : TP → Prop} (h : ∀ x, R x ↔ S x) {n s id : Str} :
    Candidate w t R n s id ↔ Candidate w t S n s id := by
  have : R = S := funext fun x => propext (h x)
  rw [this]

/-- The allow-list computed for the assignments of `p` in tenant `T`. -/
theorem getAllowedRoles_spec (inv : Inv w) {p T n s : Str} {l : List TP} (hl : ∀ x, x ∈ l ↔ RowsOf w p T x)
    {r : Option (List Str)} (h : w.getAllowedRoles o site (nilSlice l) n s = .ok r) :
    ∀ id, id ∈ r.getD [] ↔ ∃ t, (∃ x, RowsOf w p T x) ∧ TenantAt w T t ∧ AllowIn w t p T n s id := by
  intro id
  unfold nilSlice at h
  cases l with
  | nil =>
    cases h
    simp only [Option.getD_none, List.not_mem_nil, false_iff, not_exists, not_and]
    intro _ ⟨x, hx⟩
    exact absurd ((hl x).2 hx) (by simp)
  | cons x xs =>
    rw [if_neg (by simp)] at h
    have hx : RowsOf w p T x := (hl x).1 (List.mem_cons_self ..)
    by_cases hin : In w.tenants x.tenant
    · obtain ⟨t, ht, _⟩ := tenantAt_of_in inv hin
      obtain ⟨r', hr', h1, h2⟩ := C40_exact inv (xs := xs) (n := n) (s := s) ht o site
      rw [h] at hr'; cases hr'
      have ht' : TenantAt w T t := hx.2.2 ▸ ht
      rw [refused_congr hl] at h1
      have key : id ∈ r.getD [] ↔ AllowIn w t p T n s id := by
        unfold AllowIn
        rw [← h1]
        cases r with
        | none => simp
        | some ids =>
          rw [Option.getD_some, h2 ids rfl id, candidate_congr hl]
          simp
      rw [key]
      exact ⟨fun h => ⟨t, ⟨x, hx⟩, ht', h⟩, fun ⟨t2, _, h3, h4⟩ => tenantAt_unique inv ht' h3 ▸ h4⟩
    · rw [(C40_edges w o site n s).2.2 x xs hin] at h
      cases h

theorem authActivity_spec (inv : Inv w) {fuel : Nat} {p act : Str} {b : Bool}
    (h : w.authActivity o fuel site p act = .ok b) : b = true ↔ ActivityGrant w p act := by
  obtain ⟨ts, h1, h⟩ := Out.bind_eq_ok.1 h
  obtain ⟨ids, h2, h⟩ := Out.bind_eq_ok.1 h
  have hids : ∀ id, id ∈ slicesCompact ids ↔
      ∃ T t, (∃ x, RowsOf w p T x) ∧ TenantAt w T t ∧ AllowIn w t p T [] [] id := by
    intro id
    rw [Mgr.mem_slicesCompact, Out.collectI_mem (P := fun T id => ∃ t, (∃ x, RowsOf w p T x) ∧ TenantAt w T t ∧
      AllowIn w t p T [] [] id) ?_ h2]
    · constructor
      · rintro ⟨T, _, h⟩; exact ⟨T, h⟩
      · rintro ⟨T, t, hx, h⟩; exact ⟨T, (tenantsForPrincipal_mem h1 T).2 hx, t, hx, h⟩
    · intro _ T _ ys hy y
      obtain ⟨l, hl, hy⟩ := Out.bind_eq_ok.1 hy
      obtain ⟨r, hr, rfl⟩ := Out.map_eq_ok.1 hy
      exact getAllowedRoles_spec inv (principalRoles_mem hl) hr y
  rw [anyRole_spec inv h]
  constructor
  · exact fun h => ⟨_, hids, h⟩
  · rintro ⟨L, hL, id, h3, a, h4, h5⟩
    have hc : ∀ x, x ∈ L ↔ x ∈ slicesCompact ids := fun x => (hL x).trans (hids x).symm
    exact ⟨id, (hc id).1 h3, a, h4, (granted_congr hc).1 h5⟩

theorem allowedRoleIDs_spec (inv : Inv w) {c : Nat} {t : T1Obj} (ht : w.tobjs[c]? = some t) {roles ids : List Str}
    (h : w.allowedRoleIDs o site t roles = .ok ids) (id : Str) : id ∈ ids ↔ In t.roles id ∧ id ∈ roles := by
  have tok := inv.tobjs t (mem_of_get ht)
  rw [Out.collectI_mem (P := fun (e : Str × Nat) id => e.1 = id ∧ id ∈ roles) ?_ h]
  · constructor
    · rintro ⟨⟨k, a⟩, h1, rfl, h2⟩; exact ⟨⟨a, Ord.mem_ord.1 h1⟩, h2⟩
    · rintro ⟨⟨a, h1⟩, h2⟩; exact ⟨(id, a), Ord.mem_ord.2 h1, rfl, h2⟩
  · intro _ e he ys hy y
    obtain ⟨ro, hro, hid⟩ := tok.roles e (Ord.mem_ord.1 he)
    simp only [hro] at hy
    cases hy
    simp only [List.mem_map, List.mem_filter, decide_eq_true_eq, hid]
    constructor
    · rintro ⟨z, ⟨h1, rfl⟩, rfl⟩; exact ⟨rfl, h1⟩
    · rintro ⟨rfl, h1⟩; exact ⟨_, ⟨h1, rfl⟩, rfl⟩

theorem authComplex_spec (inv : Inv w) {fuel : Nat} {p : Str} {r : Request} {b : Bool}
    (h : w.authComplex o fuel site p r = .ok b) : b = true ↔ ComplexGrant w p r := by
  unfold authComplex at h
  simp only at h
  split at h
  · rename_i e
    cases h
    simp only [Bool.false_eq_true, false_iff]
    rintro ⟨t, ht, _⟩
    obtain ⟨a, ha, _⟩ := (tenantAt_iff inv).1 ht
    rw [e] at ha; cases ha
  · rename_i c hc
    obtain ⟨t, ht, h⟩ := withT_eq_ok.1 h
    have hat : TenantAt w (toStr r.tenant) t := (tenantAt_iff inv).2 ⟨c, hc, ht⟩
    obtain ⟨l, hl, h⟩ := Out.bind_eq_ok.1 h
    have hl := principalRoles_mem hl
    split at h
    · rename_i e
      cases h
      simp only [Bool.false_eq_true, false_iff]
      rintro ⟨_, _, _, _, _, _, x, _, hx, _⟩
      exact absurd ((hl x).2 hx) (by simp [e])
    · split at h
      · rename_i e
        cases h
        simp only [Bool.false_eq_true, false_iff]
        rintro ⟨t', h1, h2, _⟩
        cases tenantAt_unique inv hat h1
        exact in_iff_not.1 e.2 (h2 e.1)
      · rename_i e1
        split at h
        · rename_i e
          cases h
          simp only [Bool.false_eq_true, false_iff]
          rintro ⟨t', h1, _, h2, _⟩
          cases tenantAt_unique inv hat h1
          exact in_iff_not.1 e.2 (h2 e.1)
        · rename_i e2
          obtain ⟨al, h1, h⟩ := Out.bind_eq_ok.1 h
          obtain ⟨ids, h2, h⟩ := Out.bind_eq_ok.1 h
          have hids : ∀ id, id ∈ ids ↔ AllowIn w t p (toStr r.tenant) (toStr r.namespace_) (toStr r.scope) id := by
            intro id
            rw [allowedRoleIDs_spec inv ht h2, getAllowedRoles_spec inv hl h1]
            constructor
            · rintro ⟨_, t', _, h3, h4⟩
              cases tenantAt_unique inv hat h3; exact h4
            · intro h3
              obtain ⟨x, hx⟩ : ∃ x, x ∈ l := List.exists_mem_of_ne_nil _ (by assumption)
              refine ⟨?_, t, ⟨x, (hl x).1 hx⟩, hat, h3⟩
              exact Classical.byContradiction fun k => h3.1 (.inr (.inr (.inr (.inr ⟨id, h3.2, k⟩))))
          rw [anyRole_spec inv h]
          constructor
          · rintro ⟨id, h3, a, h4, h5⟩
            obtain ⟨x, h6, rfl⟩ := List.mem_map.1 h3
            exact ⟨t, hat, fun h => Classical.byContradiction fun k => e1 ⟨h, in_iff_not.2 k⟩,
              fun h => Classical.byContradiction fun k => e2 ⟨h, in_iff_not.2 k⟩, ids, hids, x, a, (hl x).1 h6, h4, h5⟩
          · rintro ⟨t', h3, _, _, L, h4, x, a, h5, h6, h7⟩
            cases tenantAt_unique inv hat h3
            exact ⟨x.role, List.mem_map.2 ⟨x, (hl x).2 h5, rfl⟩, a, h6,
              (granted_congr fun id => (h4 id).trans (hids id).symm).1 h7⟩

/-- C41. Exact decision of every request with a group or an activity (and of the empty request), whenever it
returns, for every iteration order. -/
theorem C41_exact (inv : Inv w) {fuel : Nat} {p : Str} {opts : List Opt} {b : Bool}
    (hr : ¬ ResourceRequest (requestOf opts)) (h : w.authorize o fuel site p opts = .ok b) :
    b = true ↔ In w.principals p ∧
      ((Shape (requestOf opts) false false false false true ∧ ActivityGrant w p (toStr (requestOf opts).activity)) ∨
       (¬ Shape (requestOf opts) false false false false true ∧ ComplexGrant w p (requestOf opts))) := by
  have h : w.answer o fuel site p (requestOf opts) = .ok b := h
  generalize requestOf opts = r at h hr
  unfold answer at h
  split at h
  · rename_i e
    cases h
    simp [in_iff_not.1 e]
  · rename_i x e
    have hp : In w.principals p := in_iff.1 (by simp [e])
    simp only [hp, true_and]
    unfold ResourceRequest at hr
    unfold Shape
    by_cases h4 : r.group = .nil <;> by_cases h5 : r.activity = .nil
    · have : r.tenant = .nil ∧ r.namespace_ = .nil ∧ r.scope = .nil := by
        simpa [h4, h5] using hr
      obtain ⟨h1, h2, h3⟩ := this
      simp only [h1, h2, h3, h4, h5, ne_eq, not_true_eq_false, false_and, and_false, if_false] at h
      rw [authComplex_spec inv h]
      simp [h5]
    · by_cases h1 : r.tenant = .nil <;> by_cases h2 : r.namespace_ = .nil <;> by_cases h3 : r.scope = .nil <;>
        simp only [h1, h2, h3, h4, h5, ne_eq, not_true_eq_false, not_false_eq_true, and_true, and_false, if_true,
          if_false] at h
      · rw [authActivity_spec inv h]; simp [h1, h2, h3, h4, h5]
      all_goals (rw [authComplex_spec inv h]; simp [h1, h2, h3])
    all_goals
      simp only [h4, ne_eq, and_false, false_and, if_false] at h
      rw [authComplex_spec inv h]; simp [h4]

/-- A resource request is never also a C41 request, so C37 and C41 cover all requests. Both answers occur. -/
example : ∃ w, V1Op.run {} exOps = .ok w ∧ (
    w.authorize .fwd 9 [] (str "p") [.tenant (.str (str "t")), .group (.str (str "g")), .activity (.str (str "/a GET"))] =
      .ok true ∧
    w.authorize .fwd 9 [] (str "p") [.tenant (.str (str "t")), .group (.str (str "g")), .activity (.str (str "/b GET"))] =
      .ok false ∧
    w.authorize .fwd 9 [] (str "p") [.tenant (.str (str "u")), .group (.str (str "g")), .activity (.str (str "/a GET"))] =
      .ok false ∧
    w.authorize .fwd 9 [] (str "p") [.activity (.str (str "/a GET"))] = .ok true) := Out.chk_ok (by decide +kernel)

/-! ## C42: refusals -/

/-- The property: when no role may be used for the request, the activity request is denied. -/
def C42_full : Prop := ∀ (ops : List V1Op) (w : V1), V1Op.run {} ops = .ok w →
  ∀ (o : Ord) (fuel : Nat) (site : List Val) (p T n s g act : Str) (t : T1Obj), TenantAt w T t →
    (∀ id, ¬ AllowIn w t p T n s id) →
    w.authorize o fuel site p [.tenant (.str T), .namespace_ (.str n), .scope (.str s), .group (.str g), .activity (.str act)]
      ≠ .ok true

/-- C42, what holds: once the allow-list is not empty, a grant comes from a role of the principal in that tenant
itself or from a descendant of one that is on the list. -/
theorem C42_partial (inv : Inv w) {fuel : Nat} {p : Str} {opts : List Opt} {t : T1Obj}
    (hr : ¬ ResourceRequest (requestOf opts)) (hs : ¬ Shape (requestOf opts) false false false false true)
    (ht : TenantAt w (toStr (requestOf opts).tenant) t)
    (hne : ∃ id, AllowIn w t p (toStr (requestOf opts).tenant) (toStr (requestOf opts).namespace_)
      (toStr (requestOf opts).scope) id)
    (h : w.authorize o fuel site p opts = .ok true) :
    ∃ x a, RowsOf w p (toStr (requestOf opts).tenant) x ∧ (x.role, a) ∈ w.roles ∧
      (OwnGrant w.heap a (toStr (requestOf opts).group) (toStr (requestOf opts).activity) ∨
        ∃ d dr, Desc w.heap a d ∧ w.heap.roles[d]? = some dr ∧
          AllowIn w t p (toStr (requestOf opts).tenant) (toStr (requestOf opts).namespace_) (toStr (requestOf opts).scope) dr.id ∧
          OwnGrant w.heap d (toStr (requestOf opts).group) (toStr (requestOf opts).activity)) := by
  rcases ((C41_exact inv hr h).1 rfl).2 with ⟨k, _⟩ | ⟨_, t', h1, _, _, L, hL, x, a, h2, h3, _, h4⟩
  · exact absurd k hs
  · cases tenantAt_unique inv ht h1
    refine ⟨x, a, h2, h3, ?_⟩
    rcases h4 with h4 | ⟨d, dr, h5, h6, h7, h8⟩
    · exact .inl h4
    · obtain ⟨id, hid⟩ := hne
      rcases h7 with rfl | h7
      · exact absurd ((hL id).2 hid) (by simp)
      · exact .inr ⟨d, dr, h5, h6, (hL _).1 h7, h8⟩

/-- `p` holds `r` in tenant `t` for scope `s` only. -/
def exScoped : List V1Op := [
  .newTenant (str "t"), .addTenant 0,
  .role (.newRole (str "r")), .addRole 0, .role (.addPerm 0 (str "g") [⟨str "/a", str "GET"⟩]),
  .addPrincipal (str "p") 0, .tAddRole 0 [0], .tAddScopes 0 [(str "s", 0), (str "z", 1)],
  .addPrincipalRole (str "p") (str "r") 0 none (some (str "s")) []]

/-- C42 fails: for scope `z` no role may be used, yet the request is granted. -/
theorem C42_full_false : ¬ C42_full := by
  intro hf
  obtain ⟨w, hw, h1, h2, h3⟩ := Out.chk_ok (x := V1Op.run {} exScoped)
    (P := fun w => w.authorize .fwd 9 [] (str "p") [.tenant (.str (str "t")), .namespace_ (.str []), .scope (.str (str "z")),
        .group (.str (str "g")), .activity (.str (str "/a GET"))] = .ok true ∧
      ((w.rows .fwd []).Chk fun l => ∀ y ∈ l, y.scope = str "s") ∧ (w.tenants.get (str "t")).isSome) (by decide +kernel)
  have inv := V1Op.reachable_inv hw
  obtain ⟨l, hl, hn⟩ := Out.chk_ok h2
  obtain ⟨t, ht, _⟩ := tenantAt_of_in inv (in_iff.1 h3)
  refine hf _ w hw _ _ _ _ _ _ _ _ _ t ht (fun id hid => hid.1 (.inr (.inr (.inl ⟨?_, ?_⟩)))) h1
  · rintro ⟨y, hy, _, e⟩
    have := hn y ((rows_mem hl y).2 hy.1)
    rw [this] at e
    exact absurd e (by decide)
  · rintro ⟨y, hy, _, e⟩
    have := hn y ((rows_mem hl y).2 hy.1)
    rw [this] at e
    exact absurd e (by decide)

end V1
end Verif
