import Verif.Props.Authorize

/-!
# Exactly when a principal without roles is granted an activity (C31)
-/

namespace Verif
open Spec

/-- Some stored row, of whatever principal and tenant, is in the requested namespace (scope) and its role grants the activity;
the request names a tenant and not both namespace and scope. -/
def BorrowsFrom (w : Mgr) (r : Request) : Prop :=
  r.tenant ≠ .nil ∧ ∃ g act row role a, r.group = .str g ∧ r.activity = .str act ∧ Stored w row ∧ row.role = .str role ∧
    (role, a) ∈ w.roles ∧ Granted w.heap [] g act a ∧
    ((r.scope = .nil ∧ r.namespace_ ≠ .nil ∧ row.namespace_ = r.namespace_) ∨
     (r.namespace_ = .nil ∧ r.scope ≠ .nil ∧ row.scope = r.scope))

/-- C31. A principal without a registered role is granted an activity exactly when it is registered, has a tenant, what it names
is registered and somebody's role can be borrowed. Its own tenants and the tenant it names do not matter. -/
theorem C31_exact {w w' : Mgr} (inv : w.Inv) {o : Ord} {fuel : Nat} {site : List Val} {p : Str} {opts : List Opt} {b : Bool}
    (ha : HasActivity (requestOf opts))
    (own : ∀ row role a, Stored w row → row.principal = .str p → row.role = .str role → (role, a) ∉ w.roles)
    (h : w.authorize o fuel site p opts = .ok (b, w')) :
    b = true ↔ (∃ x, (p, x) ∈ w.principals) ∧ (∃ I, w'.pcache.get p = some I ∧ I ≠ []) ∧ Resources w (requestOf opts) ∧
      BorrowsFrom w (requestOf opts) := by
  rw [C28_activity inv ha h]
  constructor
  · rintro ⟨h1, I, h2, h3, h4, c, h5, g, act, e1, e2, row, role, a, h6, hrow, h7, h8, h9⟩
    refine ⟨h1, ⟨I, h2, h3⟩, h4, ?_⟩
    have mine : row.principal = .str p → False := fun hp => own row role a h6 hp h7 h8
    rcases hrow with ⟨k1, k2, k3, k4 | k4⟩ | ⟨k1, k2, k3, k4 | k4⟩ | ⟨_, _, _, k⟩ | ⟨_, _, _, _, _, _, _, k⟩
    · exact ⟨k1, g, act, row, role, a, e1, e2, h6, h7, h8, h9, .inl ⟨k3, k2, k4⟩⟩
    · exact (mine k4.2.2).elim
    · exact ⟨k1, g, act, row, role, a, e1, e2, h6, h7, h8, h9, .inr ⟨k2, k3, k4⟩⟩
    · exact (mine k4.2.2).elim
    · exact (mine k.1).elim
    · exact (mine k.1).elim
  · rintro ⟨h1, ⟨I, h2, h3⟩, h4, k1, g, act, row, role, a, e1, e2, h6, h7, h8, h9, hk⟩
    refine ⟨h1, I, h2, h3, h4, _, .inl rfl, g, act, e1, e2, row, role, a, h6, ?_, h7, h8, h9⟩
    rcases hk with ⟨k3, k2, k4⟩ | ⟨k2, k3, k4⟩
    · exact .inl ⟨k1, k2, k3, .inl k4⟩
    · exact .inr (.inl ⟨k1, k2, k3, .inl k4⟩)

/-- C31. What one principal borrows, every registered principal with a stored row in some tenant borrows, unless an empty list
of tenants is cached for it (C32). -/
theorem C31_everyone {w w' : Mgr} (inv : w.Inv) {o : Ord} {fuel : Nat} {site : List Val} {p t : Str} {opts : List Opt} {b : Bool}
    (reg : ∃ x, (p, x) ∈ w.principals) (mem : Member w p t) (hc : w.pcache.get p ≠ some []) (hr : Resources w (requestOf opts))
    (hb : BorrowsFrom w (requestOf opts)) (h : w.authorize o fuel site p opts = .ok (b, w')) : b = true := by
  obtain ⟨k1, g, act, row, role, a, e1, e2, h6, h7, h8, h9, hk⟩ := hb
  rw [C28_activity inv ⟨by rw [e1]; exact fun h => (by cases h), by rw [e2]; exact fun h => (by cases h)⟩ h]
  refine ⟨reg, ?_⟩
  have : ∃ I, w'.pcache.get p = some I ∧ I ≠ [] := by
    rcases Mgr.authorize_inv h with ⟨_, _, e⟩ | ⟨_, J, hJ⟩
    · obtain ⟨x, hx⟩ := reg
      rw [(GoMap.mem_iff_get inv.regP).1 hx] at e; cases e
    · obtain ⟨_, _, c, _, hit⟩ := Mgr.implicitTenants_inv inv hJ
      refine ⟨J, c, ?_⟩
      cases hI : w.pcache.get p with
      | none => exact List.ne_nil_of_mem ((C24_implicit_sound inv hI hJ).1 t mem)
      | some I => rw [(hit I hI).1]; exact fun e => hc (by rw [hI, e])
  obtain ⟨I, h2, h3⟩ := this
  refine ⟨I, h2, h3, hr, _, .inl rfl, g, act, e1, e2, row, role, a, h6, ?_, h7, h8, h9⟩
  rcases hk with ⟨k3, k2, k4⟩ | ⟨k2, k3, k4⟩
  · exact .inl ⟨k1, k2, k3, .inl k4⟩
  · exact .inr (.inl ⟨k1, k2, k3, .inl k4⟩)

/-- In `exBorrow`, p has no role and borrows that of q, naming a tenant that neither of the two is in. -/
example : ∃ w, MOp.run {} (exBorrow ++ [.newTenant (str "c"), .addTenant 2]) = .ok w ∧
    ((w.authorize .fwd 9 [] (str "p") [.tenant (.str (str "c")), .namespace_ (.str (str "n")),
        .group (.str (str "g")), .activity (.str (str "/x GET"))]).map (·.1) = .ok true ∧
     (∀ row ∈ survivors (rowKey dataKeys) w.log, row.principal = .str (str "p") → row.role = .nil) ∧
     (∀ row ∈ survivors (rowKey dataKeys) w.log, row.tenant ≠ .str (str "c"))) :=
  Out.chk_ok (by decide +kernel)

end Verif
