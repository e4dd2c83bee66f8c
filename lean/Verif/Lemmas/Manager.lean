import Verif.Spec.Manager
import Verif.Props.Trie
import Verif.Props.Utils
import Verif.Props.Role

set_option linter.unusedSimpArgs false

namespace Verif
open Spec

/-- Representation invariant of a manager. -/
structure Mgr.Inv (w : Mgr) : Prop where
  trie : TrieInv dataKeys w.log w.trie
  heap : Spec.RHeap.OK w.heap
  regT : GoMap.WF w.tenants
  regN : GoMap.WF w.namespaces
  regS : GoMap.WF w.scopes
  regP : GoMap.WF w.principals
  regR : GoMap.WF w.roles
  regA : GoMap.WF w.attributes
  regG : GoMap.WF w.attrGroups
  roles : ∀ k a, w.roles.get k = some a → ∃ ro, w.heap.roles[a]? = some ro ∧ ro.id = k
  groups : ∀ k a, w.attrGroups.get k = some a → ∃ g, w.heap.groups[a]? = some g ∧ g.id = k
  tenants : ∀ k a, w.tenants.get k = some a → ∃ t, w.tobjs[a]? = some t ∧ t.id = k ∧ t.managed = true
  desc : ∀ t ∈ w.tobjs, ∀ e ∈ t.desc, ∃ d, w.tobjs[e.2]? = some d ∧ d.id = e.1
  descWF : ∀ t ∈ w.tobjs, GoMap.WF t.desc
  hier : ∀ a l, w.hierarchy.get a = some l → ∀ v ∈ l, ∃ x, v = .str x ∧ Under w a x
  pc : ∀ p I, w.pcache.get p = some I → ∀ x ∈ I, ∃ row ∈ w.log, row.principal = .str p ∧
    ∃ t, row.tenant = .str t ∧ (x = t ∨ (row.manage = .bool true ∧ Under w t x))

namespace Mgr
variable {w : Mgr} {o : Ord}

/-! ## Searches -/

theorem mem_search (inv : w.Inv) {site : List Val} {f d : Data} {cb : Data → Data → Bool} :
    d ∈ w.search o site f cb ↔ Stored w d ∧ cb f d = true := by
  rw [search, Trie.searchFunc, (inv.trie.search o site (cb f)).mem_iff, List.mem_filter]; rfl

theorem matchTenant_iff {row f : Data} : matchTenant row f = true ↔ row.tenant ≠ .nil ∧ row.tenant = f.tenant := by
  unfold matchTenant isNil; by_cases h : row.tenant = .nil <;> simp [h]
theorem matchNamespace_iff {row f : Data} :
    matchNamespace row f = true ↔ row.namespace_ ≠ .nil ∧ row.namespace_ = f.namespace_ := by
  unfold matchNamespace isNil; by_cases h : row.namespace_ = .nil <;> simp [h]
theorem matchScope_iff {row f : Data} : matchScope row f = true ↔ row.scope ≠ .nil ∧ row.scope = f.scope := by
  unfold matchScope isNil; by_cases h : row.scope = .nil <;> simp [h]
theorem matchPrincipal_iff {row f : Data} :
    matchPrincipal row f = true ↔ row.principal ≠ .nil ∧ row.principal = f.principal := by
  unfold matchPrincipal isNil; by_cases h : row.principal = .nil <;> simp [h]
theorem matchRole_iff {row f : Data} : matchRole row f = true ↔ row.role ≠ .nil ∧ row.role = f.role := by
  unfold matchRole isNil; by_cases h : row.role = .nil <;> simp [h]

theorem isNil_iff {v : Val} : isNil v = true ↔ v = .nil := by simp [isNil]

theorem ite_false_iff {c X : Bool} : ((if c = true then false else X) = true) ↔ (c = false ∧ X = true) := by
  cases c <;> simp

theorem mem_tenantsByPrincipal (inv : w.Inv) {site : List Val} {p v : Val} :
    v ∈ w.tenantsByPrincipal o site p ↔
      ∃ row, Stored w row ∧ row.principal ≠ .nil ∧ row.principal = p ∧ row.tenant ≠ .nil ∧ row.tenant = v := by
  rw [tenantsByPrincipal, searchFuncWrapper, (C12_compact _).2.1]
  simp only [List.mem_map, mem_search inv, filterTenantsByPrincipal, Bool.and_eq_true, matchPrincipal_iff,
    Bool.not_eq_true', isNil, decide_eq_false_iff_not]
  constructor
  · rintro ⟨d, ⟨h1, ⟨h2, h3⟩, h4⟩, h5⟩; exact ⟨d, h1, h2, h3, h4, h5⟩
  · rintro ⟨d, h1, h2, h3, h4, h5⟩; exact ⟨d, ⟨h1, ⟨h2, h3⟩, h4⟩, h5⟩

theorem contains_iff {e : Val} {l : List Val} : contains e l = true ↔ e ∈ l := by
  simp [C12_contains]

theorem mem_getIDs {field : Data → Val} {l : List Data} {seen data : List Val} {v : Val}
    (hs : ∀ x, x ∈ seen ↔ x ∈ data) :
    v ∈ getIDs field seen data l ↔ v ∈ data ∨ ∃ d ∈ l, field d = v := by
  induction l generalizing seen data with
  | nil => simp [getIDs]
  | cons r rs ih =>
    rw [getIDs]
    split
    · rename_i hm
      rw [ih hs]
      constructor
      · rintro (h | ⟨d, hd, e⟩)
        · exact .inl h
        · exact .inr ⟨d, by simp [hd], e⟩
      · rintro (h | ⟨d, hd, e⟩)
        · exact .inl h
        · rcases List.mem_cons.1 hd with rfl | hd
          · exact .inl (e ▸ (hs _).1 hm)
          · exact .inr ⟨d, hd, e⟩
    · rw [ih (by intro x; simp [hs x, or_comm])]
      constructor
      · rintro (h | ⟨d, hd, e⟩)
        · rcases List.mem_append.1 h with h | h
          · exact .inl h
          · exact .inr ⟨r, by simp, (List.mem_singleton.1 h).symm⟩
        · exact .inr ⟨d, by simp [hd], e⟩
      · rintro (h | ⟨d, hd, e⟩)
        · exact .inl (by simp [h])
        · rcases List.mem_cons.1 hd with rfl | hd
          · exact .inl (by simp [e])
          · exact .inr ⟨d, hd, e⟩

theorem mem_concatI {α : Type} {f : Nat → α → List Data} {P : α → Data → Prop} {l : List α} {i : Nat}
    (hf : ∀ j, ∀ x ∈ l, ∀ d, d ∈ f j x ↔ P x d) {d : Data} : d ∈ concatI f i l ↔ ∃ x ∈ l, P x d := by
  induction l generalizing i with
  | nil => simp [concatI]
  | cons x xs ih =>
    rw [concatI, List.mem_append, hf i x (by simp), ih (fun j y hy => hf j y (by simp [hy]))]
    simp

/-! ## `checkNoActivity` -/

theorem filterTN_iff {p : Str} {c : Val} {row : Data} (hc : c ≠ .nil) :
    filterNamespaceForPrincipalByTenant { tenant := c, principal := .str p } row = true ↔
      row.namespace_ ≠ .nil ∧ row.tenant = c ∧ ForP p row := by
  unfold filterNamespaceForPrincipalByTenant
  rw [ite_false_iff]
  simp only [isNil, hc, Bool.and_eq_true, matchTenant_iff, Bool.or_eq_true, matchPrincipal_iff, ForP]
  simp only [decide_false, Bool.false_and, Bool.false_or, decide_eq_false_iff_not, decide_eq_true_eq]
  constructor
  · rintro ⟨h1, ⟨h2, h3⟩, h4 | ⟨h4, h5⟩⟩
    · exact ⟨h1, h3, .inl h4⟩
    · exact ⟨h1, h3, .inr h5⟩
  · rintro ⟨h1, h2, h3⟩
    refine ⟨h1, ⟨h2 ▸ hc, h2⟩, ?_⟩
    rcases h3 with h3 | h3
    · exact .inl h3
    · exact .inr ⟨by rw [h3]; simp, h3⟩

theorem filterTS_iff {p : Str} {c : Val} {row : Data} (hc : c ≠ .nil) :
    filterScopeForPrincipalByTenant { tenant := c, principal := .str p } row = true ↔
      row.scope ≠ .nil ∧ row.tenant = c ∧ ForP p row := by
  unfold filterScopeForPrincipalByTenant
  rw [ite_false_iff]
  simp only [isNil, hc, Bool.and_eq_true, matchTenant_iff, Bool.or_eq_true, matchPrincipal_iff, ForP]
  simp only [decide_false, Bool.false_and, Bool.false_or, decide_eq_false_iff_not, decide_eq_true_eq]
  constructor
  · rintro ⟨h1, ⟨h2, h3⟩, h4 | ⟨h4, h5⟩⟩
    · exact ⟨h1, h3, .inl h4⟩
    · exact ⟨h1, h3, .inr h5⟩
  · rintro ⟨h1, h2, h3⟩
    refine ⟨h1, ⟨h2 ▸ hc, h2⟩, ?_⟩
    rcases h3 with h3 | h3
    · exact .inl h3
    · exact .inr ⟨by rw [h3]; simp, h3⟩

theorem filterTNS_iff {p : Str} {c n : Val} {row : Data} (hc : c ≠ .nil) :
    filterScopeForPrincipalByTenantAndNamespace { principal := .str p, tenant := c, namespace_ := n } row = true ↔
      row.scope ≠ .nil ∧ ScopeRow p c n row.scope row := by
  unfold filterScopeForPrincipalByTenantAndNamespace
  rw [ite_false_iff]
  simp only [isNil, hc, Bool.and_eq_true, matchTenant_iff, Bool.or_eq_true, matchPrincipal_iff,
    matchNamespace_iff, ScopeRow]
  simp only [decide_false, Bool.false_and, Bool.false_or, decide_eq_false_iff_not, decide_eq_true_eq]
  constructor
  · rintro ⟨h1, ⟨h2, h3⟩, (⟨h4, h5⟩ | ⟨⟨h4, h5⟩, h6⟩) | ⟨h4, h5⟩⟩
    · exact ⟨h1, h3, trivial, .inr ⟨h5, .inl h4⟩⟩
    · exact ⟨h1, h3, trivial, .inr ⟨h6, .inr h5⟩⟩
    · exact ⟨h1, h3, trivial, .inl h5⟩
  · rintro ⟨h1, h2, -, h3⟩
    refine ⟨h1, ⟨h2 ▸ hc, h2⟩, ?_⟩
    rcases h3 with h3 | ⟨h3, h4⟩
    · exact .inr ⟨by rw [h3]; simp, h3⟩
    · by_cases hn : row.namespace_ = .nil
      · exact .inl (.inl ⟨hn, h3⟩)
      · exact .inl (.inr ⟨⟨hn, h4.resolve_left hn⟩, h3⟩)

theorem checkNoActivity_spec (inv : w.Inv) {site : List Val} {p : Str} {r : Request} {c : Val}
    (hc : c ≠ .nil ∨ r.tenant = .nil) :
    w.checkNoActivity o site p { r with tenant := c } (flagsOf r) = true ↔ Grants w p c r := by
  have hnil : ∀ {s : Str}, Val.str s ≠ Val.nil := by intro s h; cases h
  unfold checkNoActivity flagsOf Grants
  by_cases ht : r.tenant = .nil
  · by_cases hn : r.namespace_ = .nil
    · simp [ht, hn]
    · by_cases hs : r.scope = .nil
      · simp [ht, hn, hs]
      · simp only [ht, hn, hs, ne_eq, not_true, not_false_iff, decide_true, decide_false, Bool.false_and,
          Bool.and_self, Bool.and_false, Bool.false_eq_true, if_false, if_true, false_and, true_and, false_or]
        rw [contains_iff, mem_getIDs (by simp), scopeForPrincipalByNamespace]
        simp only [List.not_mem_nil, false_or]
        simp only [mem_concatI (P := fun t d => Stored w d ∧
          filterScopeForPrincipalByTenantAndNamespace
            { principal := .str p, tenant := t, namespace_ := r.namespace_ } d = true)
          (fun j x _ d => mem_search inv), mem_tenantsByPrincipal inv]
        constructor
        · rintro ⟨d, ⟨t, ⟨own, a1, a2, a3, a4, rfl⟩, b1, b2⟩, rfl'⟩
          obtain ⟨c1, c2⟩ := (filterTNS_iff a4).1 b2
          rw [rfl'] at c2
          exact ⟨own, d, a1, a3, a4, b1, c2⟩
        · rintro ⟨own, d, a1, a3, a4, b1, c2⟩
          have hsc : d.scope = r.scope := c2.2.1
          refine ⟨d, ⟨own.tenant, ⟨own, a1, by rw [a3]; exact hnil, a3, a4, rfl⟩, b1, ?_⟩, hsc⟩
          refine (filterTNS_iff a4).2 ⟨by rw [hsc]; exact hs, ?_⟩
          rw [hsc]; exact c2
  · have hc : c ≠ .nil := hc.resolve_right ht
    by_cases hn : r.namespace_ = .nil
    · by_cases hs : r.scope = .nil
      · simp only [ht, hn, hs, ne_eq, not_true, not_false_iff, decide_true, decide_false, Bool.false_and,
          Bool.and_self, Bool.and_false, Bool.false_eq_true, if_false, if_true, false_and, true_and, and_false,
          or_false]
        rw [contains_iff, mem_tenantsByPrincipal inv]
        constructor
        · rintro ⟨row, a1, a2, a3, a4, a5⟩; exact ⟨row, a1, a3, a5⟩
        · rintro ⟨row, a1, a3, a5⟩
          exact ⟨row, a1, by rw [a3]; exact hnil, a3, by rw [a5]; exact hc, a5⟩
      · simp only [ht, hn, hs, ne_eq, not_true, not_false_iff, decide_true, decide_false, Bool.false_and,
          Bool.and_self, Bool.and_false, Bool.false_eq_true, if_false, if_true, false_and, true_and, and_false,
          or_false, false_or]
        rw [contains_iff, mem_getIDs (by simp), scopesForPrincipalByTenant]
        simp only [List.not_mem_nil, false_or, mem_search inv, filterTS_iff hc]
        constructor
        · rintro ⟨d, ⟨a1, a2, a3, a4⟩, a5⟩; exact ⟨d, a1, a4, a3, a5⟩
        · rintro ⟨d, a1, a4, a3, a5⟩; exact ⟨d, ⟨a1, by rw [a5]; exact hs, a3, a4⟩, a5⟩
    · by_cases hs : r.scope = .nil
      · simp only [ht, hn, hs, ne_eq, not_true, not_false_iff, decide_true, decide_false, Bool.false_and,
          Bool.and_self, Bool.and_false, Bool.false_eq_true, if_false, if_true, false_and, true_and, and_false,
          or_false, false_or]
        rw [contains_iff, mem_getIDs (by simp), namespacesForPrincipalByTenant]
        simp only [List.not_mem_nil, false_or, mem_search inv, filterTN_iff hc]
        constructor
        · rintro ⟨d, ⟨a1, a2, a3, a4⟩, a5⟩; exact ⟨d, a1, a4, a3, a5⟩
        · rintro ⟨d, a1, a4, a3, a5⟩; exact ⟨d, ⟨a1, by rw [a5]; exact hn, a3, a4⟩, a5⟩
      · simp only [ht, hn, hs, ne_eq, not_true, not_false_iff, decide_true, decide_false, Bool.false_and,
          Bool.and_self, Bool.and_false, Bool.false_eq_true, if_false, if_true, false_and, true_and, and_false,
          or_false, false_or]
        rw [contains_iff, mem_getIDs (by simp), scopesForPrincipalByTenantAndNamespace]
        simp only [List.not_mem_nil, false_or, mem_search inv, filterTNS_iff hc]
        constructor
        · rintro ⟨d, ⟨a1, a2, a3⟩, a5⟩; rw [a5] at a3; exact ⟨d, a1, a3⟩
        · rintro ⟨d, a1, a3⟩
          have hsc : d.scope = r.scope := a3.2.1
          exact ⟨d, ⟨a1, by rw [hsc]; exact hs, by rw [hsc]; exact a3⟩, hsc⟩

/-! ## `checkActivity` -/

theorem rolesByTenant_nil (inv : w.Inv) {site : List Val} {t : Val} : w.rolesByTenant o site t = [] := by
  apply List.eq_nil_iff_forall_not_mem.2
  intro d hd
  obtain ⟨_, h⟩ := (mem_search inv).1 hd
  simp only [filterRoleByTenant, Bool.and_eq_true, matchRole_iff] at h
  exact h.2.1 h.2.2

theorem mem_appendRoles {keep : Data → Bool} {l : List Data} {rs : List Str}
    (h : appendRoles keep l = .ok rs) (s : Str) :
    s ∈ rs ↔ ∃ d ∈ l, keep d = true ∧ d.role = .str s := by
  induction l generalizing rs with
  | nil => cases h; simp
  | cons d ds ih =>
    rw [appendRoles] at h
    split at h
    · rename_i hk
      simp only [Bool.and_eq_true, ne_eq, decide_not, Bool.not_eq_true', decide_eq_false_iff_not] at hk
      split at h
      · rename_i x hx
        obtain ⟨rs', h1, rfl⟩ := Out.map_eq_ok.1 h
        rw [List.mem_cons, ih h1]
        constructor
        · rintro (rfl | ⟨e, he, h2⟩)
          · exact ⟨d, by simp, hk.1, hx⟩
          · exact ⟨e, by simp [he], h2⟩
        · rintro ⟨e, he, h2, h3⟩
          rcases List.mem_cons.1 he with rfl | he
          · rw [hx] at h3; cases h3; exact .inl rfl
          · exact .inr ⟨e, he, h2, h3⟩
      · cases h
    · rename_i hk
      rw [ih h]
      constructor
      · rintro ⟨e, he, h2⟩; exact ⟨e, by simp [he], h2⟩
      · rintro ⟨e, he, h2, h3⟩
        rcases List.mem_cons.1 he with rfl | he
        · exact absurd (by simp [h2, h3]) hk
        · exact ⟨e, he, h2, h3⟩

theorem collectRoles_spec (inv : w.Inv) {site : List Val} {p : Str} {t : Val} :
    w.collectRoles o site p t = .ok ([], []) := by
  unfold collectRoles
  simp [rolesByTenant_nil inv, appendRoles]

theorem collectRolesTN_spec (inv : w.Inv) {site : List Val} {p : Str} {t n : Val} {x : List Str × List Str}
    (ht : t ≠ .nil) (hn : n ≠ .nil) (h : w.collectRolesTN o site p t n = .ok x) :
    x.2 = [] ∧ ∀ s, s ∈ x.1 ↔ ∃ row, Stored w row ∧ row.role = .str s ∧
      (row.namespace_ = n ∨ (row.namespace_ = .nil ∧ row.tenant = t ∧ row.principal = .str p)) := by
  rw [collectRolesTN, rolesByTenant_nil inv] at h
  simp only [appendRoles, Out.bind_ok] at h
  obtain ⟨rs, h1, rfl⟩ := Out.map_eq_ok.1 h
  refine ⟨rfl, fun s => ?_⟩
  simp only [mem_appendRoles h1, rolesForPrincipalTN, mem_search inv]
  unfold filterRoleForPrincipalByTenantAndNamespace
  simp only [ite_false_iff]
  simp only [isNil, Bool.or_eq_true, Bool.and_eq_true, matchTenant_iff, matchPrincipal_iff,
    matchNamespace_iff, ht, decide_false, Bool.false_and, Bool.false_or, decide_eq_false_iff_not, decide_eq_true_eq]
  constructor
  · rintro ⟨d, ⟨a1, a2, a3⟩, a4, a5⟩
    refine ⟨d, a1, a5, ?_⟩
    rcases a4 with a4 | a4
    · rcases a3 with ⟨⟨_, a6⟩, _, a7⟩ | ⟨a6, _⟩
      · exact .inr ⟨a4, a6, a7⟩
      · exact absurd a4 a6
    · exact .inl a4
  · rintro ⟨d, a1, a5, a4⟩
    have hr : d.role ≠ .nil := by rw [a5]; simp
    rcases a4 with a4 | ⟨a4, a6, a7⟩
    · exact ⟨d, ⟨a1, hr, .inr ⟨by rw [a4]; exact hn, a4⟩⟩, .inr a4, a5⟩
    · exact ⟨d, ⟨a1, hr, .inl ⟨⟨by rw [a6]; exact ht, a6⟩, by rw [a7]; simp, a7⟩⟩, .inl a4, a5⟩

theorem collectRolesTS_spec (inv : w.Inv) {site : List Val} {p : Str} {t n : Val} {x : List Str × List Str}
    (ht : t ≠ .nil) (hn : n ≠ .nil) (h : w.collectRolesTS o site p t n = .ok x) :
    x.2 = [] ∧ ∀ s, s ∈ x.1 ↔ ∃ row, Stored w row ∧ row.role = .str s ∧
      (row.scope = n ∨ (row.scope = .nil ∧ row.tenant = t ∧ row.principal = .str p)) := by
  rw [collectRolesTS, rolesByTenant_nil inv] at h
  simp only [appendRoles, Out.bind_ok] at h
  obtain ⟨rs, h1, rfl⟩ := Out.map_eq_ok.1 h
  refine ⟨rfl, fun s => ?_⟩
  simp only [mem_appendRoles h1, rolesForPrincipalTS, mem_search inv]
  unfold filterRoleForPrincipalByTenantAndScope
  simp only [ite_false_iff]
  simp only [isNil, Bool.or_eq_true, Bool.and_eq_true, matchTenant_iff, matchPrincipal_iff,
    matchScope_iff, ht, decide_false, Bool.false_and, Bool.false_or, decide_eq_false_iff_not, decide_eq_true_eq]
  constructor
  · rintro ⟨d, ⟨a1, a2, a3⟩, a4, a5⟩
    refine ⟨d, a1, a5, ?_⟩
    rcases a4 with a4 | a4
    · rcases a3 with ⟨⟨_, a6⟩, _, a7⟩ | ⟨a6, _⟩
      · exact .inr ⟨a4, a6, a7⟩
      · exact absurd a4 a6
    · exact .inl a4
  · rintro ⟨d, a1, a5, a4⟩
    have hr : d.role ≠ .nil := by rw [a5]; simp
    rcases a4 with a4 | ⟨a4, a6, a7⟩
    · exact ⟨d, ⟨a1, hr, .inr ⟨by rw [a4]; exact hn, a4⟩⟩, .inr a4, a5⟩
    · exact ⟨d, ⟨a1, hr, .inl ⟨⟨by rw [a6]; exact ht, a6⟩, by rw [a7]; simp, a7⟩⟩, .inl a4, a5⟩

theorem collectRolesTNS_spec (inv : w.Inv) {site : List Val} {p : Str} {t n sc : Val} {x : List Str × List Str}
    (ht : t ≠ .nil) (hn : n ≠ .nil) (hs : sc ≠ .nil) (h : w.collectRolesTNS o site p t n sc = .ok x) :
    x.2 = [] ∧ ∀ s, s ∈ x.1 ↔ ∃ row, Stored w row ∧ row.role = .str s ∧ OwnRoleRow p t n sc row := by
  rw [collectRolesTNS, rolesByTenant_nil inv] at h
  simp only [appendRoles, Out.bind_ok] at h
  obtain ⟨rs, h1, rfl⟩ := Out.map_eq_ok.1 h
  refine ⟨rfl, fun s => ?_⟩
  simp only [mem_appendRoles h1, rolesForPrincipalTNS, mem_search inv]
  unfold filterRoleForPrincipalByTenantNamespaceAndScope OwnRoleRow
  simp only [ite_false_iff]
  simp only [isNil, Bool.or_eq_true, Bool.and_eq_true, matchTenant_iff, matchPrincipal_iff,
    matchNamespace_iff, matchScope_iff, ht, decide_false, Bool.false_and, Bool.false_or,
    decide_eq_false_iff_not, decide_eq_true_eq]
  constructor
  · rintro ⟨d, ⟨a1, a2, a3⟩, ⟨a4, a5⟩, a6⟩
    refine ⟨d, a1, a6, ?_, a4, a5, ?_⟩
    · rcases a3 with (⟨_, _, h⟩ | ⟨_, _, h⟩) | ⟨_, _, h⟩ <;> exact h
    · rcases a3 with (⟨⟨_, h⟩, _⟩ | ⟨⟨_, h⟩, _⟩) | ⟨⟨_, h⟩, _⟩
      · exact .inl h
      · exact .inr (.inl h)
      · exact .inr (.inr h)
  · rintro ⟨d, a1, a6, a7, a4, a5, a3⟩
    have hr : d.role ≠ .nil := by rw [a6]; simp
    have hp : d.principal ≠ .nil ∧ d.principal = .str p := ⟨by rw [a7]; simp, a7⟩
    refine ⟨d, ⟨a1, hr, ?_⟩, ⟨a4, a5⟩, a6⟩
    rcases a3 with h | h | h
    · exact .inl (.inl ⟨⟨by rw [h]; exact ht, h⟩, hp⟩)
    · exact .inl (.inr ⟨⟨by rw [h]; exact hn, h⟩, hp⟩)
    · exact .inr ⟨⟨by rw [h]; exact hs, h⟩, hp⟩

theorem collectRolesNSLoop_spec (inv : w.Inv) {site : List Val} {p : Str} {n sc : Val}
    (hn : n ≠ .nil) (hs : sc ≠ .nil) {ts : List Data} (hts : ∀ t ∈ ts, t.tenant ≠ .nil) {i : Nat}
    {x : List Str × List Str} (h : w.collectRolesNSLoop o site p n sc i ts = .ok x) :
    x.2 = [] ∧ ∀ s, s ∈ x.1 ↔ ∃ t ∈ ts, ∃ row, Stored w row ∧ row.role = .str s ∧ OwnRoleRow p t.tenant n sc row := by
  induction ts generalizing i x with
  | nil => cases h; simp
  | cons t ts ih =>
    rw [collectRolesNSLoop, Out.bind_eq_ok] at h
    obtain ⟨y, h1, h2⟩ := h
    obtain ⟨z, h3, rfl⟩ := Out.map_eq_ok.1 h2
    obtain ⟨a1, a2⟩ := collectRolesTNS_spec inv (hts t (by simp)) hn hs h1
    obtain ⟨b1, b2⟩ := ih (fun t' ht' => hts t' (by simp [ht'])) h3
    refine ⟨by simp [a1, b1], fun s => ?_⟩
    simp only [List.mem_append, a2, b2, List.mem_cons, exists_eq_or_imp]

theorem collectRolesNS_spec (inv : w.Inv) {site : List Val} {p : Str} {n sc : Val}
    (hn : n ≠ .nil) (hs : sc ≠ .nil) {x : List Str × List Str} (h : w.collectRolesNS o site p n sc = .ok x) :
    x.2 = [] ∧ ∀ s, s ∈ x.1 ↔ ∃ own row, Stored w own ∧ own.principal = .str p ∧ own.tenant ≠ .nil ∧
      Stored w row ∧ row.role = .str s ∧ OwnRoleRow p own.tenant n sc row := by
  have hm : ∀ t, t ∈ w.getTenants o (site ++ [.int 0]) (.str p) ↔
      Stored w t ∧ t.principal = .str p ∧ t.tenant ≠ .nil := by
    intro t
    simp only [getTenants, mem_search inv, filterTenantsByPrincipal, Bool.and_eq_true, matchPrincipal_iff,
      Bool.not_eq_true', isNil, decide_eq_false_iff_not]
    constructor
    · rintro ⟨a, ⟨_, b⟩, c⟩; exact ⟨a, b, c⟩
    · rintro ⟨a, b, c⟩; exact ⟨a, ⟨by rw [b]; simp, b⟩, c⟩
  obtain ⟨h1, h2⟩ := collectRolesNSLoop_spec inv hn hs (fun t ht => ((hm t).1 ht).2.2) h
  refine ⟨h1, fun s => ?_⟩
  rw [h2]
  constructor
  · rintro ⟨t, ht, row, b1, b2, b3⟩
    obtain ⟨a1, a2, a3⟩ := (hm t).1 ht
    exact ⟨t, row, a1, a2, a3, b1, b2, b3⟩
  · rintro ⟨t, row, a1, a2, a3, b1, b2, b3⟩
    exact ⟨t, (hm t).2 ⟨a1, a2, a3⟩, row, b1, b2, b3⟩

theorem mem_slicesCompact {l : List Str} {s : Str} : s ∈ slicesCompact l ↔ s ∈ l := by
  induction l with
  | nil => simp [slicesCompact]
  | cons x l ih =>
    cases l with
    | nil => simp [slicesCompact]
    | cons y l =>
      rw [slicesCompact]
      split
      · rename_i h; subst h; rw [ih]; simp
      · rw [List.mem_cons, ih, List.mem_cons (l := y :: l)]

theorem roleLoop_spec (inv : w.Inv) {fuel : Nat} {site : List Val} {r : Request} {roles : List Str}
    {i : Nat} {b : Bool} (h : w.roleLoop o fuel site r i [] roles = .ok b) :
    b = true ↔ ∃ g act, r.group = .str g ∧ r.activity = .str act ∧
      ∃ role ∈ roles, ∃ a, (role, a) ∈ w.roles ∧ Granted w.heap [] g act a := by
  induction roles generalizing i b with
  | nil => cases h; simp
  | cons role rest ih =>
    rw [roleLoop] at h
    cases hr : w.roles.get role with
    | none =>
      rw [hr] at h
      rw [ih h]
      have hno : ∀ a, (role, a) ∉ w.roles := by
        intro a ha
        rw [(GoMap.mem_iff_get inv.regR).1 ha] at hr
        cases hr
      constructor
      · rintro ⟨g, act, h1, h2, x, hx, h3⟩; exact ⟨g, act, h1, h2, x, by simp [hx], h3⟩
      · rintro ⟨g, act, h1, h2, x, hx, a, h3, h4⟩
        rcases List.mem_cons.1 hx with rfl | hx
        · exact absurd h3 (hno a)
        · exact ⟨g, act, h1, h2, x, hx, a, h3, h4⟩
    | some a =>
      rw [hr] at h
      simp only at h
      split at h
      · rename_i g act hg ha
        rw [Out.bind_eq_ok] at h
        obtain ⟨c, h1, h2⟩ := h
        have hspec := C16_has inv.heap h1
        have hmem : (role, a) ∈ w.roles := (GoMap.mem_iff_get inv.regR).2 hr
        cases c with
        | true =>
          simp only [if_true] at h2
          cases h2
          simp only [true_iff]
          exact ⟨g, act, hg, ha, role, by simp, a, hmem, hspec.1 rfl⟩
        | false =>
          simp only [Bool.false_eq_true, if_false] at h2
          rw [ih h2]
          constructor
          · rintro ⟨g, act, h1, h2, x, hx, h3⟩; exact ⟨g, act, h1, h2, x, by simp [hx], h3⟩
          · rintro ⟨g', act', h1, h2, x, hx, a', h3, h4⟩
            rw [hg] at h1; cases h1
            rw [ha] at h2; cases h2
            rcases List.mem_cons.1 hx with rfl | hx
            · rw [(GoMap.mem_iff_get inv.regR).1 h3] at hr
              cases hr
              exact absurd (hspec.2 h4) (by simp)
            · exact ⟨g, act, hg, ha, x, hx, a', h3, h4⟩
      · cases h

/-- The five `if`s of `checkActivity` as one choice. -/
def selected (w : Mgr) (o : Ord) (site : List Val) (p : Str) (r : Request) (f : Flags) : Out (List Str × List Str) :=
  (pick f.t (w.collectRoles o (site ++ [.int 0]) p r.tenant) ([], [])).bind fun x =>
  (pick f.tn (w.collectRolesTN o (site ++ [.int 1]) p r.tenant r.namespace_) x).bind fun x =>
  (pick f.ts (w.collectRolesTS o (site ++ [.int 2]) p r.tenant r.scope) x).bind fun x =>
  (pick f.ns (w.collectRolesNS o (site ++ [.int 3]) p r.namespace_ r.scope) x).bind fun x =>
  (pick f.tns (w.collectRolesTNS o (site ++ [.int 4]) p r.tenant r.namespace_ r.scope) x)

theorem bind_assoc' {α β γ : Type} (x : Out α) (f : α → Out β) (g : β → Out γ) :
    (x.bind f).bind g = x.bind fun a => (f a).bind g := by cases x <;> rfl

theorem checkActivity_eq {fuel : Nat} {site : List Val} {p : Str} {r : Request} {f : Flags} :
    w.checkActivity o fuel site p r f =
      if r.group = .nil then .ok false else if r.activity = .nil then .ok false
      else (w.selected o site p r f).bind fun x =>
        if x.1.length = 0 then .ok false
        else w.roleLoop o fuel (site ++ [.int 5]) r 0 x.2 (slicesCompact x.1) := by
  rw [checkActivity, selected]
  simp only [bind_assoc']

theorem bind_ok_right {α : Type} (x : Out α) : (x.bind fun a => Out.ok a) = x := by cases x <;> rfl

theorem selected_spec (inv : w.Inv) {site : List Val} {p : Str} {r : Request} {c : Val}
    (hc : c ≠ .nil ∨ r.tenant = .nil) {x : List Str × List Str}
    (h : w.selected o site p { r with tenant := c } (flagsOf r) = .ok x) :
    x.2 = [] ∧ ∀ s, s ∈ x.1 ↔ ∃ row, Stored w row ∧ row.role = .str s ∧ RoleRow w p c r row := by
  unfold selected flagsOf at h
  unfold RoleRow
  by_cases ht : r.tenant = .nil
  · by_cases hn : r.namespace_ = .nil
    · simp [ht, hn, pick] at h
      subst h; simp [ht, hn]
    · by_cases hs : r.scope = .nil
      · simp [ht, hn, hs, pick] at h
        subst h; simp [ht, hs]
      · simp [ht, hn, hs, pick, bind_ok_right] at h
        obtain ⟨h1, h2⟩ := collectRolesNS_spec inv hn hs h
        refine ⟨h1, fun s => ?_⟩
        rw [h2]
        simp only [ht, hn, hs, ne_eq, not_true, not_false_iff, false_and, true_and, false_or, true_and]
        constructor
        · rintro ⟨own, row, a1, a2, a3, b1, b2, b3⟩; exact ⟨row, b1, b2, own, a1, a2, a3, b3⟩
        · rintro ⟨row, b1, b2, own, a1, a2, a3, b3⟩; exact ⟨own, row, a1, a2, a3, b1, b2, b3⟩
  · have hc : c ≠ .nil := hc.resolve_right ht
    by_cases hn : r.namespace_ = .nil
    · by_cases hs : r.scope = .nil
      · simp [ht, hn, hs, pick, collectRoles_spec inv] at h
        subst h; simp [hn, hs, ht]
      · simp [ht, hn, hs, pick, bind_ok_right] at h
        obtain ⟨h1, h2⟩ := collectRolesTS_spec inv hc hs h
        refine ⟨h1, fun s => ?_⟩
        rw [h2]
        simp [ht, hn, hs]
    · by_cases hs : r.scope = .nil
      · simp [ht, hn, hs, pick, bind_ok_right] at h
        obtain ⟨h1, h2⟩ := collectRolesTN_spec inv hc hn h
        refine ⟨h1, fun s => ?_⟩
        rw [h2]
        simp [ht, hn, hs]
      · simp [ht, hn, hs, pick] at h
        obtain ⟨h1, h2⟩ := collectRolesTNS_spec inv hc hn hs h
        refine ⟨h1, fun s => ?_⟩
        rw [h2]
        simp [ht, hn, hs]

theorem checkActivity_spec (inv : w.Inv) {fuel : Nat} {site : List Val} {p : Str} {r : Request} {c : Val}
    (hc : c ≠ .nil ∨ r.tenant = .nil) {b : Bool}
    (h : w.checkActivity o fuel site p { r with tenant := c } (flagsOf r) = .ok b) :
    b = true ↔ ∃ g act, r.group = .str g ∧ r.activity = .str act ∧ ActGrants w p c r g act := by
  rw [checkActivity_eq] at h
  simp only at h
  split at h
  · rename_i hg; cases h; simp [hg]
  · split at h
    · rename_i ha; cases h; simp [ha]
    · rw [Out.bind_eq_ok] at h
      obtain ⟨x, h1, h2⟩ := h
      obtain ⟨s1, s2⟩ := selected_spec inv hc h1
      split at h2
      · rename_i hl
        cases h2
        simp only [Bool.false_eq_true, false_iff]
        rintro ⟨g, act, e1, e2, row, role, a, d1, d2, d3, d4⟩
        have := (s2 role).2 ⟨row, d1, d3, d2⟩
        rw [List.length_eq_zero_iff.1 hl] at this
        cases this
      · rw [s1] at h2
        rw [roleLoop_spec inv h2]
        simp only [ActGrants, mem_slicesCompact, s2]
        constructor
        · rintro ⟨g, act, e1, e2, role, ⟨row, d1, d2, d3⟩, a, d4, d5⟩
          exact ⟨g, act, e1, e2, row, role, a, d1, d3, d2, d4, d5⟩
        · rintro ⟨g, act, e1, e2, row, role, a, d1, d3, d2, d4, d5⟩
          exact ⟨g, act, e1, e2, role, ⟨row, d1, d2, d3⟩, a, d4, d5⟩

theorem check_spec (inv : w.Inv) {fuel : Nat} {site : List Val} {p : Str} {r : Request} {c : Val}
    (hc : c ≠ .nil ∨ r.tenant = .nil) {b : Bool}
    (h : w.check o fuel site p { r with tenant := c } (flagsOf r) = .ok b) :
    b = true ↔ Decides w p c r := by
  unfold check at h
  have hf : (flagsOf r).noActivity = true ↔ ¬ HasActivity r := by
    simp [flagsOf, HasActivity]
    by_cases hg : r.group = .nil <;> simp [hg]
  unfold Decides
  split at h
  · rename_i hn
    have hna := hf.1 hn
    cases h
    rw [checkNoActivity_spec inv hc]
    constructor
    · exact fun hx => .inl ⟨hna, hx⟩
    · rintro (⟨_, hx⟩ | ⟨g, act, e1, e2, _⟩)
      · exact hx
      · exact absurd ⟨by rw [e1]; simp, by rw [e2]; simp⟩ hna
  · rename_i hn
    have hna : HasActivity r := not_not.1 (fun hx => hn (hf.2 hx))
    rw [checkActivity_spec inv hc h]
    constructor
    · exact .inr
    · rintro (⟨hx, _⟩ | hx)
      · exact absurd hna hx
      · exact hx

theorem fallback_spec (inv : w.Inv) {fuel : Nat} {site : List Val} {p : Str} {r : Request} {ts : List Str}
    {i : Nat} {c : Val} {b : Bool} (hskip : ∀ t, c = .str t → ¬ Decides w p c r)
    (h : w.fallback o fuel site p (flagsOf r) i { r with tenant := c } ts = .ok b) :
    b = true ↔ ∃ t ∈ ts, Decides w p (.str t) r := by
  induction ts generalizing i c b with
  | nil => cases h; simp
  | cons t ts ih =>
    rw [fallback] at h
    split at h
    · rename_i hs
      have hs : c = .str t := (by simpa using hs : c = .str t ∧ _).1
      rw [ih hskip h]
      constructor
      · rintro ⟨x, hx, h1⟩; exact ⟨x, by simp [hx], h1⟩
      · rintro ⟨x, hx, h1⟩
        rcases List.mem_cons.1 hx with rfl | hx
        · exact absurd (hs ▸ h1) (hskip x hs)
        · exact ⟨x, hx, h1⟩
    · rw [Out.bind_eq_ok] at h
      obtain ⟨b', h1, h2⟩ := h
      have hspec := check_spec inv (r := r) (c := .str t) (.inl (by simp)) h1
      cases b' with
      | true =>
        cases h2
        simp only [true_iff]
        exact ⟨t, by simp, hspec.1 rfl⟩
      | false =>
        have hno : ¬ Decides w p (.str t) r := fun hx => absurd (hspec.2 hx) (by simp)
        rw [ih (c := .str t) (fun t' ht' => hno) h2]
        constructor
        · rintro ⟨x, hx, h1⟩; exact ⟨x, by simp [hx], h1⟩
        · rintro ⟨x, hx, hd⟩
          rcases List.mem_cons.1 hx with rfl | hx
          · exact absurd hd hno
          · exact ⟨x, hx, hd⟩

theorem validOne_spec {m : GoMap Str Nat} (wf : GoMap.WF m) {v : Val} {b : Bool} (h : validOne m v = .ok b) :
    b = true ↔ Known m v := by
  unfold validOne at h
  unfold Known
  split at h
  · cases h; simp
  · rename_i s
    cases h
    simp only [reduceCtorEq, false_or, Val.str.injEq]
    rw [Option.isSome_iff_exists]
    constructor
    · rintro ⟨x, hx⟩; exact ⟨s, x, rfl, GoMap.get_some_mem hx⟩
    · rintro ⟨s', x, rfl, hx⟩; exact ⟨x, (GoMap.mem_iff_get wf).1 hx⟩
  · cases h

theorem validateResources_spec (inv : w.Inv) {r : Request} {b : Bool} (h : w.validateResources r = .ok b) :
    b = true ↔ Resources w r := by
  unfold validateResources at h
  unfold Resources
  rw [Out.bind_eq_ok] at h
  obtain ⟨a, h1, h2⟩ := h
  have s1 := validOne_spec inv.regT h1
  cases a with
  | false => cases h2; simp only [← s1]; simp
  | true =>
    simp only [if_true, Out.bind_eq_ok] at h2
    obtain ⟨c, h3, h4⟩ := h2
    have s2 := validOne_spec inv.regN h3
    cases c with
    | false => cases h4; simp only [← s2]; simp
    | true =>
      simp only [if_true] at h4
      have s3 := validOne_spec inv.regS h4
      rw [← s1, ← s2, ← s3]; simp

end Mgr
end Verif
