import Verif.Props.V1

/-!
# Package v1: what an empty list of allowed roles means (C42)
-/

namespace Verif
open Spec
namespace V1
variable {w : V1} {o : Ord} {site : List Val}

/-- C42. When no role may be used for a request (whatever the reason), it is answered as if there was no restriction: it is granted
exactly if a role of the principal in the tenant, or any descendant of one, has the permission. -/
theorem C42_empty (inv : Inv w) {fuel : Nat} {p : Str} {opts : List Opt} {t : T1Obj} {b : Bool}
    (hr : ¬ ResourceRequest (requestOf opts)) (hs : ¬ Shape (requestOf opts) false false false false true)
    (ht : TenantAt w (toStr (requestOf opts).tenant) t)
    (hno : ∀ id, ¬ AllowIn w t p (toStr (requestOf opts).tenant) (toStr (requestOf opts).namespace_) (toStr (requestOf opts).scope) id)
    (h : w.authorize o fuel site p opts = .ok b) :
    b = true ↔ In w.principals p ∧ (toStr (requestOf opts).namespace_ ≠ [] → In t.namespaces (toStr (requestOf opts).namespace_)) ∧
      (toStr (requestOf opts).scope ≠ [] → In t.scopes (toStr (requestOf opts).scope)) ∧
      ∃ x a, RowsOf w p (toStr (requestOf opts).tenant) x ∧ (x.role, a) ∈ w.roles ∧
        (∃ g, GroupOf w.heap a (toStr (requestOf opts).group) g) ∧
        ∃ d, (d = a ∨ Desc w.heap a d) ∧ OwnGrant w.heap d (toStr (requestOf opts).group) (toStr (requestOf opts).activity) := by
  rw [C41_exact inv hr h]
  refine and_congr Iff.rfl ⟨?_, ?_⟩
  · rintro (⟨k, _⟩ | ⟨_, t', h1, h2, h3, L, hL, x, a, h4, h5, h6, h7⟩)
    · exact absurd k hs
    · cases tenantAt_unique inv ht h1
      refine ⟨h2, h3, x, a, h4, h5, h6, ?_⟩
      rcases h7 with h7 | ⟨d, dr, h7, _, _, h8⟩
      · exact ⟨a, .inl rfl, h7⟩
      · exact ⟨d, .inr h7, h8⟩
  · rintro ⟨h2, h3, x, a, h4, h5, h6, d, h7, h8⟩
    refine .inr ⟨hs, t, ht, h2, h3, [], fun id => ⟨fun hm => absurd hm (by simp), fun hm => absurd hm (hno id)⟩, x, a, h4, h5, h6, ?_⟩
    rcases h7 with rfl | h7
    · exact .inl h8
    · have h8' := h8
      obtain ⟨_, ⟨dr, _, h9, _⟩, _⟩ := h8'
      exact .inr ⟨d, dr, h7, h9, .inl rfl, h8⟩

/-- C42. Scope "z" has no roles: granted through the role held for scope "s", but only what that role may do. -/
example : ∃ w, V1Op.run {} exScoped = .ok w ∧
    w.authorize .fwd 9 [] (str "p") [.tenant (.str (str "t")), .scope (.str (str "z")), .group (.str (str "g")),
      .activity (.str (str "/a GET"))] = .ok true ∧
    w.authorize .fwd 9 [] (str "p") [.tenant (.str (str "t")), .scope (.str (str "z")), .group (.str (str "g")),
      .activity (.str (str "/b GET"))] = .ok false ∧
    w.authorize .fwd 9 [] (str "p") [.tenant (.str (str "t")), .scope (.str (str "y")), .group (.str (str "g")),
      .activity (.str (str "/a GET"))] = .ok false := Out.chk_ok (by decide +kernel)

end V1
end Verif
