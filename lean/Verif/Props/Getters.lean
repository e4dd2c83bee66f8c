import Verif.Props.Manager

/-!
# C61, C62: request options and the queries of the root package
(options.go, query.go, role_manager.go:48-106)
-/

namespace Verif
open Spec

/-! ## C61 Options -/

/-- The value an option carries for the tenant, if it is a tenant option; and so on. -/
def Opt.tenant? : Opt → Option Val | .tenant v => some v | _ => none
def Opt.namespace? : Opt → Option Val | .namespace_ v => some v | _ => none
def Opt.scope? : Opt → Option Val | .scope v => some v | _ => none
def Opt.group? : Opt → Option Val | .group v => some v | _ => none
def Opt.activity? : Opt → Option Val | .activity v => some v | _ => none

/-- The last of the values, nil if there is none. -/
def lastOf (l : List (Option Val)) : Val := (l.filterMap id).getLastD .nil

theorem lastOf_snoc (l : List (Option Val)) (x : Option Val) : lastOf (l ++ [x]) = x.getD (lastOf l) := by
  cases x <;> simp [lastOf]

/-- C61: after all options are applied, every field of the request holds the value of the last option of its own
kind, and nil if there is no such option. -/
theorem C61_options (opts : List Opt) :
    (opts.foldl Opt.apply {}) =
      { tenant := lastOf (opts.map Opt.tenant?), namespace_ := lastOf (opts.map Opt.namespace?),
        scope := lastOf (opts.map Opt.scope?), group := lastOf (opts.map Opt.group?),
        activity := lastOf (opts.map Opt.activity?) } := by
  have key : ∀ l : List Opt, (l.reverse.foldl Opt.apply {}) =
      { tenant := lastOf (l.reverse.map Opt.tenant?), namespace_ := lastOf (l.reverse.map Opt.namespace?),
        scope := lastOf (l.reverse.map Opt.scope?), group := lastOf (l.reverse.map Opt.group?),
        activity := lastOf (l.reverse.map Opt.activity?) } := by
    intro l
    induction l with
    | nil => rfl
    | cons x xs ih =>
      simp only [List.reverse_cons, List.foldl_append, ih, List.map_append, List.map_cons, List.map_nil, lastOf_snoc,
        List.foldl_cons, List.foldl_nil]
      cases x <;> rfl
  simpa using key opts.reverse

/-- C61: a later option of the same kind replaces an earlier one, options of different kinds do not disturb each
other. -/
theorem C61_last_wins (opts : List Opt) (v : Val) :
    ((opts ++ [Opt.tenant v]).foldl Opt.apply {}).tenant = v ∧
    ((opts ++ [Opt.namespace_ v]).foldl Opt.apply {}).namespace_ = v ∧
    ((opts ++ [Opt.scope v]).foldl Opt.apply {}).scope = v ∧
    ((opts ++ [Opt.group v]).foldl Opt.apply {}).group = v ∧
    ((opts ++ [Opt.activity v]).foldl Opt.apply {}).activity = v := by
  simp only [C61_options, List.map_append, List.map_cons, List.map_nil, lastOf_snoc]
  simp [Opt.tenant?, Opt.namespace?, Opt.scope?, Opt.group?, Opt.activity?]

example : ([Opt.scope (.str (str "s")), .tenant (.str (str "a")), .tenant (.str (str "b")), .group .nil].foldl
    Opt.apply {}) = { tenant := .str (str "b"), scope := .str (str "s") } := by decide

/-! ## C62 Queries -/

/-- The list holds, once each and in some order, the stored rows satisfying `P`. -/
def Lists (w : Mgr) (l : List Data) (P : Data → Prop) : Prop := l.Nodup ∧ ∀ d, d ∈ l ↔ Stored w d ∧ P d

/-- A row field has the given, non-nil value. -/
def Is (field v : Val) : Prop := field = v ∧ v ≠ .nil

namespace Mgr
variable {w : Mgr} {o : Ord}

theorem search_lists (inv : w.Inv) {site : List Val} {f : Data} {cb : Data → Data → Bool} {P : Data → Prop}
    (h : ∀ d, cb f d = true ↔ P d) : Lists w (w.search o site f cb) P := by
  refine ⟨?_, fun d => by rw [mem_search inv, h]⟩
  rw [search, Trie.searchFunc, (inv.trie.search o site (cb f)).nodup_iff]
  exact (survivors_nodup _).filter _

theorem nodup_concatI {α : Type} {f : Nat → α → List Data} {key : Data → α} {l : List α} {i : Nat} (hl : l.Nodup)
    (h1 : ∀ j, ∀ x ∈ l, (f j x).Nodup) (h2 : ∀ j, ∀ x ∈ l, ∀ d ∈ f j x, key d = x) : (concatI f i l).Nodup := by
  have hk : ∀ (l : List α) (i : Nat), (∀ j, ∀ x ∈ l, ∀ d ∈ f j x, key d = x) → ∀ d ∈ concatI f i l, key d ∈ l := by
    intro l
    induction l with
    | nil => simp [concatI]
    | cons x xs ih =>
      intro i h d hd
      rw [concatI, List.mem_append] at hd
      rcases hd with hd | hd
      · simp [h i x (by simp) d hd]
      · exact List.mem_cons_of_mem _ (ih _ (fun j y hy => h j y (by simp [hy])) d hd)
  induction l generalizing i with
  | nil => simp [concatI]
  | cons x xs ih =>
    rw [List.nodup_cons] at hl
    rw [concatI, List.nodup_append]
    refine ⟨h1 i x (by simp), ih hl.2 (fun j y hy => h1 j y (by simp [hy])) (fun j y hy => h2 j y (by simp [hy])), ?_⟩
    rintro d hd e he rfl
    exact hl.1 (h2 i x (by simp) d hd ▸ hk xs _ (fun j y hy => h2 j y (by simp [hy])) d he)

theorem concat_lists {l : List Val} {f : Nat → Val → List Data} {P : Val → Data → Prop} {i : Nat} (hl : l.Nodup)
    (h : ∀ j, ∀ t ∈ l, Lists w (f j t) (P t)) (hk : ∀ t d, P t d → d.tenant = t) :
    Lists w (concatI f i l) (fun d => d.tenant ∈ l ∧ P d.tenant d) := by
  refine ⟨nodup_concatI (key := (·.tenant)) hl (fun j x hx => (h j x hx).1)
    (fun j x hx d hd => hk x d (((h j x hx).2 d).1 hd).2), fun d => ?_⟩
  rw [mem_concatI (P := fun t d => Stored w d ∧ P t d) (fun j x hx d => (h j x hx).2 d)]
  constructor
  · rintro ⟨t, ht, hs, hp⟩
    have := hk _ _ hp
    subst this
    exact ⟨hs, ht, hp⟩
  · rintro ⟨hs, ht, hp⟩; exact ⟨_, ht, hs, hp⟩

/-- The tenants a principal has rows in. -/
def OwnTenant (w : Mgr) (p t : Val) : Prop := t ≠ .nil ∧ ∃ row, Stored w row ∧ Is row.principal p ∧ row.tenant = t

theorem mem_ownTenants (inv : w.Inv) {site : List Val} {p v : Val} :
    v ∈ w.tenantsByPrincipal o site p ↔ OwnTenant w p v := by
  rw [mem_tenantsByPrincipal inv]
  constructor
  · rintro ⟨row, h1, h2, rfl, h3, rfl⟩; exact ⟨h3, row, h1, ⟨rfl, h2⟩, rfl⟩
  · rintro ⟨h3, row, h1, ⟨rfl, h2⟩, rfl⟩; exact ⟨row, h1, h2, rfl, h3, rfl⟩

end Mgr

/-- C62. What each query of the root package returns, for all arguments (nil and non-string ones
included): the stored rows described here, each once. -/
theorem C62_queries {w : Mgr} (inv : w.Inv) (o : Ord) (site : List Val) (p t n s : Val) :
    Lists w (w.getTenants o site p) (fun d => Is d.principal p ∧ d.tenant ≠ .nil) ∧
    Lists w (w.scopesByPrincipal o site p) (fun d => Is d.principal p ∧ d.scope ≠ .nil ∧ d.tenant ≠ .nil) ∧
    Lists w (w.namespacesByTenant o site t) (fun d => Is d.tenant t ∧ d.namespace_ ≠ .nil) ∧
    Lists w (w.scopesByTenant o site t) (fun d => Is d.tenant t ∧ d.scope ≠ .nil) ∧
    Lists w (w.namespacesForPrincipalByTenant o site p t) (fun d =>
      Is d.tenant t ∧ d.namespace_ ≠ .nil ∧ (d.principal = .nil ∨ d.principal = p)) ∧
    Lists w (w.scopesForPrincipalByTenant o site p t) (fun d =>
      Is d.tenant t ∧ d.scope ≠ .nil ∧ (d.principal = .nil ∨ d.principal = p)) ∧
    Lists w (w.scopesForPrincipalByTenantAndNamespace o site p t n) (fun d => Is d.tenant t ∧ d.scope ≠ .nil ∧
      (Is d.principal p ∨ d.principal = .nil ∧ (d.namespace_ = .nil ∨ d.namespace_ = n))) ∧
    Lists w (w.rolesForPrincipalTNS o site p t n s) (fun d => d.role ≠ .nil ∧ Is d.principal p ∧
      (Is d.tenant t ∨ Is d.namespace_ n ∨ Is d.scope s)) ∧
    Lists w (w.rolesForPrincipalTN o site p t n) (fun d => d.role ≠ .nil ∧
      (Is d.principal p ∧ Is d.tenant t ∨ Is d.namespace_ n)) ∧
    Lists w (w.rolesForPrincipalTS o site p t s) (fun d => d.role ≠ .nil ∧
      (Is d.principal p ∧ Is d.tenant t ∨ Is d.scope s)) := by
  refine ⟨Mgr.search_lists inv fun d => ?_, Mgr.search_lists inv fun d => ?_, Mgr.search_lists inv fun d => ?_,
    Mgr.search_lists inv fun d => ?_, Mgr.search_lists inv fun d => ?_, Mgr.search_lists inv fun d => ?_,
    Mgr.search_lists inv fun d => ?_, Mgr.search_lists inv fun d => ?_, Mgr.search_lists inv fun d => ?_,
    Mgr.search_lists inv fun d => ?_⟩
  all_goals
    simp only [filterTenantsByPrincipal, filterScopeByPrincipal, filterNamespaceByTenant, filterScopeByTenant,
      filterNamespaceForPrincipalByTenant, filterScopeForPrincipalByTenant, filterScopeForPrincipalByTenantAndNamespace,
      filterRoleForPrincipalByTenantNamespaceAndScope, filterRoleForPrincipalByTenantAndNamespace,
      filterRoleForPrincipalByTenantAndScope]
    grind (splits := 40) [matchTenant, matchNamespace, matchScope, matchPrincipal, isNil, Is]

/-- C62. The queries that go through the principal's own tenants. `GetTenantsByPrincipal` lists those tenants
once each. -/
theorem C62_own_tenants {w : Mgr} (inv : w.Inv) (o : Ord) (site : List Val) (p n : Val) :
    (w.tenantsByPrincipal o site p).Nodup ∧
    (∀ v, v ∈ w.tenantsByPrincipal o site p ↔ Mgr.OwnTenant w p v) ∧
    Lists w (w.namespacesByPrincipal o site p) (fun d => Mgr.OwnTenant w p d.tenant ∧ d.namespace_ ≠ .nil ∧
      (d.principal = .nil ∨ d.principal = p)) ∧
    Lists w (w.scopeForPrincipalByNamespace o site p n) (fun d => Mgr.OwnTenant w p d.tenant ∧ d.scope ≠ .nil ∧
      (Is d.principal p ∨ d.principal = .nil ∧ (d.namespace_ = .nil ∨ d.namespace_ = n))) := by
  have hl : ∀ site, (w.tenantsByPrincipal o site p).Nodup := fun site => (C12_compact _).1
  refine ⟨hl _, fun v => Mgr.mem_ownTenants inv, ?_, ?_⟩
  · have := Mgr.concat_lists (i := 0) (hl (site ++ [.int 0])) (fun j t _ =>
      (C62_queries inv o (site ++ [.int 1, .int j]) p t .nil .nil).2.2.2.2.1) (fun t d h => h.1.1)
    refine ⟨this.1, fun d => (this.2 d).trans ?_⟩
    simp only [Mgr.mem_ownTenants inv, Is, Mgr.OwnTenant]
    grind
  · have := Mgr.concat_lists (i := 0) (hl (site ++ [.int 0])) (fun j t _ =>
      (C62_queries inv o (site ++ [.int 1, .int j]) p t n .nil).2.2.2.2.2.2.1) (fun t d h => h.1.1)
    refine ⟨this.1, fun d => (this.2 d).trans ?_⟩
    simp only [Mgr.mem_ownTenants inv, Is, Mgr.OwnTenant]
    grind

/-- C62. `SearchFuncWrapper` for any filter and any extraction: the extracted values of the matching stored rows, each once. -/
theorem C62_wrapper {w : Mgr} (inv : w.Inv) (o : Ord) (site : List Val) (f : Data) (cb : Data → Data → Bool) (ext : Data → Val) :
    (w.searchFuncWrapper o site f cb ext).Nodup ∧
    ∀ v, v ∈ w.searchFuncWrapper o site f cb ext ↔ ∃ d, Stored w d ∧ cb f d = true ∧ ext d = v := by
  obtain ⟨h1, h2, -⟩ := C12_compact ((w.search o site f cb).map ext)
  refine ⟨h1, fun v => (h2 v).trans ?_⟩
  simp only [List.mem_map, Mgr.mem_search inv, and_assoc]

/-- C62. `GetRolesByTenant` finds nothing, whatever is stored. -/
theorem C62_rolesByTenant {w : Mgr} (inv : w.Inv) (o : Ord) (site : List Val) (t : Val) :
    w.rolesByTenant o site t = [] := Mgr.rolesByTenant_nil inv

theorem getIDs_eq (field : Data → Val) (l : List Data) (seen data : List Val) :
    getIDs field seen data l = compactLoop seen data (l.map field) := by
  induction l generalizing seen data with
  | nil => rfl
  | cons r rs ih => rw [getIDs, List.map_cons, compactLoop]; split <;> exact ih _ _

/-- C62. The id collectors return the field's values without repetition, in the order of first occurrence. -/
theorem C62_ids (field : Data → Val) (l : List Data) :
    (getIDs field [] [] l).Nodup ∧ (∀ v, v ∈ getIDs field [] [] l ↔ ∃ d ∈ l, field d = v) ∧
    (getIDs field [] [] l).Pairwise (fun x y => (l.map field).idxOf x < (l.map field).idxOf y) := by
  obtain ⟨h1, h2, h3, -⟩ := C12_compact (l.map field)
  rw [getIDs_eq]
  exact ⟨h1, fun v => (h2 v).trans List.mem_map, h3⟩

/-- C62. `GetDescendantTenant`: nil for an id that is not registered, otherwise exactly the ids of the transitive
descendants. -/
theorem C62_descendantTenant {w : Mgr} (inv : w.Inv) {o : Ord} {fuel : Nat} {site : List Val} {desc : Val}
    {l : List Val} (h : w.descendantTenant o fuel site desc = .ok l) :
    ((∀ c, (toStr desc, c) ∉ w.tenants) → l = []) ∧ ∀ v, v ∈ l ↔ ∃ x, v = .str x ∧ Under w (toStr desc) x := by
  unfold Mgr.descendantTenant at h
  cases hg : w.tenants.get (toStr desc) with
  | none =>
    rw [hg] at h; cases h
    refine ⟨fun _ => rfl, fun v => ?_⟩
    simp [Under, hg]
  | some c =>
    rw [hg] at h
    obtain ⟨ds, hd, rfl⟩ := Out.map_eq_ok.1 h
    refine ⟨fun hn => absurd (GoMap.get_some_mem hg) (hn c), fun v => ?_⟩
    have hm := C23_descendants inv hd
    simp only [List.mem_map, hm]
    constructor
    · rintro ⟨x, hx, rfl⟩; exact ⟨x, rfl, c, hg, hx⟩
    · rintro ⟨x, rfl, c', hc, hx⟩
      rw [hg] at hc; cases hc
      exact ⟨x, hx, rfl⟩

/-- C62 on the state of C24-C28. -/
example : ∃ w, MOp.run {} exWorld = .ok w ∧
    ((w.getTenants .fwd [] (.str (str "p"))).map (·.tenant) = [.str (str "a")] ∧
     (w.getTenants .fwd [] (.str (str "q"))) = [] ∧
     (w.getTenants .fwd [] .nil) = [] ∧
     (w.scopesByTenant .fwd [] (.str (str "b"))).map (·.scope) = [.str (str "s")] ∧
     (w.namespacesByTenant .rev [] (.str (str "b"))).map (·.namespace_) = [.str (str "n")] ∧
     (w.scopesForPrincipalByTenantAndNamespace .fwd [] (.str (str "p")) (.str (str "b")) .nil) = [] ∧
     (w.scopesForPrincipalByTenantAndNamespace .fwd [] (.str (str "p")) (.str (str "b")) (.str (str "n"))).length = 1 ∧
     (w.rolesForPrincipalTN .fwd [] (.str (str "p")) (.str (str "a")) .nil).map (·.role) = [.str (str "r")] ∧
     w.tenantsByPrincipal .fwd [] (.str (str "p")) = [.str (str "a")] ∧
     w.descendantTenant .fwd 9 [] (.str (str "a")) = .ok [.str (str "b")] ∧
     w.descendantTenant .fwd 9 [] (.str (str "y")) = .ok []) :=
  Out.chk_ok (by decide +kernel)

end Verif
