import Verif.Model.AuthCost
import Verif.Props.AuthDuring
import Verif.Props.Utils

/-!
# C133: how often a decision of the root package searches the row store
-/

namespace Verif
open Spec

namespace Spec
/-- Searches of one check of a request: `R` assignments of the principal name a tenant, `D` different ones. -/
def searches (R D : Nat) (r : Request) : Nat :=
  match decide (r.tenant ≠ .nil), decide (r.namespace_ ≠ .nil), decide (r.scope ≠ .nil) with
  | true, false, false => 1
  | true, _, _ => if r.group ≠ .nil ∧ r.activity ≠ .nil then 2 else 1
  | false, true, true => if r.group ≠ .nil ∧ r.activity ≠ .nil then 1 + 2 * R else 1 + D
  | false, _, _ => 0
end Spec

namespace Mgr
variable {w : Mgr} {o : Ord} {fuel : Nat} {p : Str}

theorem search_length {o o' : Ord} {site site' : List Val} {filter : Data} {f : Data → Data → Bool} :
    (w.search o site filter f).Perm (w.search o' site' filter f) := by
  have h1 := (Node.dfs_all o (f filter) (site ++ [.nil]) w.trie.root []).2
  have h2 := (Node.dfs_all o' (f filter) (site' ++ [.nil]) w.trie.root []).2
  exact h1.trans h2.symm

theorem compact_length {l m : List Val} (h : l.Perm m) : (compact l).length = (compact m).length := by
  refine List.Perm.length_eq ?_
  rw [List.perm_ext_iff_of_nodup (C12_compact l).1 (C12_compact m).1]
  intro x
  rw [(C12_compact l).2.1, (C12_compact m).2.1, h.mem_iff]

theorem tenants_length {o o' : Ord} {site site' : List Val} {p : Val} :
    (w.tenantsByPrincipal o site p).length = (w.tenantsByPrincipal o' site' p).length :=
  compact_length (search_length.map _)

theorem scopesLoopN_eq {site : List Val} {p n : Val} {ts : List Val} {i k : Nat} :
    w.scopesLoopN o site p n i ts k =
      (concatI (fun i t => w.search o (site ++ [.int 1, .int i]) { principal := p, tenant := t, namespace_ := n }
        filterScopeForPrincipalByTenantAndNamespace) i ts, k + ts.length) := by
  induction ts generalizing i k with
  | nil => rfl
  | cons t ts ih => simp only [scopesLoopN, searchN, ih, concatI, List.length_cons]; congr 1; omega

/-- One check without activity. -/
def costNoActivity (f : Flags) (D : Nat) : Nat :=
  if f.t then 1 else if f.tn then 1 else if f.ts then 1 else if f.ns then 1 + D else if f.tns then 1 else 0

theorem checkNoActivityN_eq {o' : Ord} {site site' : List Val} {r : Request} {f : Flags} {k : Nat} :
    w.checkNoActivityN o site p r f k =
      (w.checkNoActivity o site p r f, k + costNoActivity f (w.tenantsByPrincipal o' site' (.str p)).length) := by
  unfold checkNoActivityN checkNoActivity costNoActivity
  split
  · rfl
  split
  · rfl
  split
  · rfl
  split
  · simp only [scopesLoopN_eq, tenantsByPrincipalN, searchN, scopeForPrincipalByNamespace]
    congr 1
    have := tenants_length (w := w) (o := o) (o' := o') (site := site ++ [.int 0]) (site' := site') (p := .str p)
    simp only [tenantsByPrincipal, searchFuncWrapper] at this
    rw [this, tenantsByPrincipal, searchFuncWrapper]
    omega
  split <;> rfl

theorem collectRolesN_eq {site : List Val} {t : Val} {k : Nat} :
    w.collectRolesN o site p t k = (w.collectRoles o site p t).map fun x => (x, k + 1) := by
  simp only [collectRolesN, collectRoles, rolesByTenant, searchN]
  cases appendRoles (fun d => d.principal = .str p) (w.search o (site ++ [.int 0]) { tenant := t } filterRoleByTenant) <;> try rfl
  cases appendRoles (fun _ => true) (w.search o (site ++ [.int 0]) { tenant := t } filterRoleByTenant) <;> rfl

theorem collectRolesTNN_eq {site : List Val} {t n : Val} {k : Nat} :
    w.collectRolesTNN o site p t n k = (w.collectRolesTN o site p t n).map fun x => (x, k + 2) := by
  simp only [collectRolesTNN, collectTwoN, collectRolesTN, rolesByTenant, rolesForPrincipalTN, searchN]
  cases appendRoles (fun _ => true) (w.search o (site ++ [.int 0]) { tenant := t } filterRoleByTenant) <;> try rfl
  simp only [Out.bind]
  cases appendRoles (fun d => d.namespace_ = .nil || d.namespace_ = n) (w.search o (site ++ [.int 1])
    { principal := .str p, tenant := t, namespace_ := n } filterRoleForPrincipalByTenantAndNamespace) <;> rfl

theorem collectRolesTSN_eq {site : List Val} {t s : Val} {k : Nat} :
    w.collectRolesTSN o site p t s k = (w.collectRolesTS o site p t s).map fun x => (x, k + 2) := by
  simp only [collectRolesTSN, collectTwoN, collectRolesTS, rolesByTenant, rolesForPrincipalTS, searchN]
  cases appendRoles (fun _ => true) (w.search o (site ++ [.int 0]) { tenant := t } filterRoleByTenant) <;> try rfl
  simp only [Out.bind]
  cases appendRoles (fun d => d.scope = .nil || d.scope = s) (w.search o (site ++ [.int 1])
    { principal := .str p, tenant := t, scope := s } filterRoleForPrincipalByTenantAndScope) <;> rfl

theorem collectRolesTNSN_eq {site : List Val} {t n s : Val} {k : Nat} :
    w.collectRolesTNSN o site p t n s k = (w.collectRolesTNS o site p t n s).map fun x => (x, k + 2) := by
  simp only [collectRolesTNSN, collectTwoN, collectRolesTNS, rolesByTenant, rolesForPrincipalTNS, searchN]
  cases appendRoles (fun _ => true) (w.search o (site ++ [.int 0]) { tenant := t } filterRoleByTenant) <;> try rfl
  simp only [Out.bind]
  cases appendRoles (fun d => (d.namespace_ = .nil || d.namespace_ = n) && (d.scope = .nil || d.scope = s)) (w.search o (site ++ [.int 1])
    { principal := .str p, tenant := t, namespace_ := n, scope := s } filterRoleForPrincipalByTenantNamespaceAndScope) <;> rfl

theorem collectRolesNSLoopN_eq {site : List Val} {n s : Val} {ts : List Data} {i k : Nat} :
    w.collectRolesNSLoopN o site p n s i ts k =
      (w.collectRolesNSLoop o site p n s i ts).map fun x => (x, k + 2 * ts.length) := by
  induction ts generalizing i k with
  | nil => rfl
  | cons t ts ih =>
    rw [collectRolesNSLoopN, collectRolesNSLoop, collectRolesTNSN_eq]
    cases w.collectRolesTNS o (site ++ [.int i]) p t.tenant n s <;> try rfl
    simp only [Out.map, Out.bind, ih]
    cases w.collectRolesNSLoop o site p n s (i + 1) ts <;> try rfl
    simp only [List.length_cons, Out.ok.injEq, Prod.mk.injEq, true_and]; omega

theorem collectRolesNSN_eq {o' : Ord} {site site' : List Val} {n s : Val} {k : Nat} :
    w.collectRolesNSN o site p n s k =
      (w.collectRolesNS o site p n s).map fun x => (x, k + (1 + 2 * (w.getTenants o' site' (.str p)).length)) := by
  simp only [collectRolesNSN, searchN, collectRolesNSLoopN_eq, collectRolesNS, getTenants]
  have := (search_length (w := w) (o := o) (o' := o') (site := site ++ [.int 0]) (site' := site')
    (filter := { principal := .str p }) (f := filterTenantsByPrincipal)).length_eq
  rw [this]
  cases w.collectRolesNSLoop o (site ++ [.int 1]) p n s 0
    (w.search o (site ++ [.int 0]) { principal := .str p } filterTenantsByPrincipal) <;> try rfl
  simp only [Out.map, Nat.add_assoc]

theorem pickN_eq {b : Bool} {x : Nat → Out ((List Str × List Str) × Nat)} {y : Out (List Str × List Str)} {c : Nat}
    (h : ∀ k, x k = y.map fun v => (v, k + c)) (old : List Str × List Str) (k : Nat) :
    pickN b x (old, k) = (pick b y old).map fun v => (v, k + if b then c else 0) := by
  unfold pickN pick
  split
  · exact h k
  · rfl

/-- The counters of one check with activity. -/
def costActivity (f : Flags) (R : Nat) : Nat :=
  (if f.t then 1 else 0) + (if f.tn then 2 else 0) + (if f.ts then 2 else 0) + (if f.ns then 1 + 2 * R else 0) + (if f.tns then 2 else 0)

theorem Out.bind_counted {α β : Type} {x : Out α} {c : Nat} {f : α × Nat → Out β} :
    (x.map fun v => (v, c)).bind f = x.bind fun v => f (v, c) := by cases x <;> rfl

theorem Out.map_bind {α β γ : Type} {x : Out α} {f : α → Out β} {g : β → γ} :
    (x.bind f).map g = x.bind fun v => (f v).map g := by cases x <;> rfl

theorem checkActivityN_eq {o' : Ord} {site site' : List Val} {r : Request} {f : Flags} {k : Nat} (hg : r.group ≠ .nil) (ha : r.activity ≠ .nil) :
    w.checkActivityN o fuel site p r f k =
      (w.checkActivity o fuel site p r f).map fun b => (b, k + costActivity f (w.getTenants o' site' (.str p)).length) := by
  unfold checkActivityN checkActivity
  simp only [hg, ha, if_false]
  simp only [pickN_eq (fun _ => collectRolesN_eq), pickN_eq (fun _ => collectRolesTNN_eq), pickN_eq (fun _ => collectRolesTSN_eq),
    pickN_eq (fun _ => collectRolesNSN_eq (o' := o') (site' := site')), pickN_eq (fun _ => collectRolesTNSN_eq), Out.bind_counted, Out.map_bind]
  congr 1; funext x1
  congr 1; funext x2
  congr 1; funext x3
  congr 1; funext x4
  congr 1; funext x5
  have e : k + costActivity f (w.getTenants o' site' (.str p)).length =
      k + (if f.t = true then 1 else 0) + (if f.tn = true then 2 else 0) + (if f.ts = true then 2 else 0) +
        (if f.ns = true then 1 + 2 * (w.getTenants o' site' (.str p)).length else 0) + (if f.tns = true then 2 else 0) := by
    simp only [costActivity]; omega
  rw [e]
  split <;> rfl

/-- The counters of one check. -/
theorem checkN_eq {o' : Ord} {site site' : List Val} {r0 r : Request} {k : Nat} (hg : r.group = r0.group) (ha : r.activity = r0.activity) :
    w.checkN o fuel site p r (flagsOf r0) k = (w.check o fuel site p r (flagsOf r0)).map fun b =>
      (b, k + searches (w.getTenants o' site' (.str p)).length (w.tenantsByPrincipal o' site' (.str p)).length r0) := by
  unfold checkN check
  by_cases hn : r0.group ≠ .nil ∧ r0.activity ≠ .nil
  · have hf : (flagsOf r0).noActivity = false := by simp [flagsOf, hn]
    rw [hf, checkActivityN_eq (o' := o') (site' := site') (by rw [hg]; exact hn.1) (by rw [ha]; exact hn.2)]
    simp only [Bool.false_eq_true, if_false]
    congr 1; funext b; congr 2
    by_cases h1 : r0.tenant = .nil <;> by_cases h2 : r0.namespace_ = .nil <;> by_cases h3 : r0.scope = .nil <;>
      simp [costActivity, flagsOf, searches, h1, h2, h3, hn]
  · have hf : (flagsOf r0).noActivity = true := by
      simp only [flagsOf]
      by_cases h : r0.group = .nil
      · simp [h]
      · have : r0.activity = .nil := Classical.not_not.1 fun h2 => hn ⟨h, h2⟩
        simp [this]
    rw [hf, checkNoActivityN_eq (o' := o') (site' := site')]
    simp only [if_true, Out.map]
    congr 3
    by_cases h1 : r0.tenant = .nil <;> by_cases h2 : r0.namespace_ = .nil <;> by_cases h3 : r0.scope = .nil <;>
      simp [costNoActivity, flagsOf, searches, h1, h2, h3, hn]

/-- The fallback loop makes `m` checks: at most one for every tenant; for every tenant, except a first one already asked
for, if it ends without a grant. -/
theorem fallbackN_eq {o' : Ord} {site site' : List Val} {r0 r : Request} {ts : List Str} {i k : Nat} (hg : r.group = r0.group)
    (ha : r.activity = r0.activity) (hts : ts.Nodup) {b : Bool} {n : Nat}
    (h : w.fallbackN o fuel site p (flagsOf r0) i r ts k = .ok (b, n)) :
    ∃ m, m ≤ ts.length ∧ n = k + m *
      searches (w.getTenants o' site' (.str p)).length (w.tenantsByPrincipal o' site' (.str p)).length r0 ∧
      (b = false → m = ts.length - if ts.head?.map Val.str = some r.tenant then 1 else 0) := by
  induction ts generalizing i r k with
  | nil => cases h; exact ⟨0, by simp, by simp, by simp⟩
  | cons t ts ih =>
    rw [fallbackN] at h
    have hts' := List.nodup_cons.1 hts
    split at h
    · rename_i hc
      simp only [Bool.and_eq_true, decide_eq_true_eq] at hc
      obtain ⟨m, h1, h2, h3⟩ := ih hg ha hts'.2 h
      refine ⟨m, by simp; omega, h2, fun hb => ?_⟩
      rw [h3 hb, if_neg, if_pos (by simp [hc.1])]
      · simp
      · intro e
        obtain ⟨t', e1, e2⟩ := Option.map_eq_some_iff.1 e
        rw [hc.1] at e2; cases e2
        exact hts'.1 (List.mem_of_mem_head? (by simp [e1]))
    · rename_i hc
      rw [checkN_eq (r := { r with tenant := .str t }) (o' := o') (site' := site') hg ha, Out.bind_eq_ok] at h
      obtain ⟨⟨c, n1⟩, h1, h⟩ := h
      obtain ⟨c', _, e⟩ := Out.map_eq_ok.1 h1
      cases e
      have hnot : ¬ (t :: ts).head?.map Val.str = some r.tenant := by
        intro e
        simp only [List.head?_cons, Option.map_some, Option.some.injEq] at e
        rw [← e] at hc; simp at hc
      split at h
      · cases h
        exact ⟨1, by simp, by simp, fun hb => by cases hb⟩
      · obtain ⟨m, h1, h2, h3⟩ := ih (by simpa using hg) (by simpa using ha) hts'.2 h
        refine ⟨m + 1, by simp; omega, ?_, fun hb => ?_⟩
        · rw [h2, Nat.add_mul]; omega
        · rw [h3 hb, if_neg, if_neg hnot]
          · simp
          · intro e
            obtain ⟨t', e1, e2⟩ := Option.map_eq_some_iff.1 e
            cases e2
            exact hts'.1 (List.mem_of_mem_head? (by simp [e1]))

theorem implicitTenantsN_eq {site : List Val} {k : Nat} : w.implicitTenantsN o fuel site p k =
    (w.implicitTenants o fuel site p).map fun x => (x, k + if w.pcache.get p = none then 1 else 0) := by
  unfold implicitTenantsN implicitTenants
  cases e : w.pcache.get p with
  | some I => simp [Out.map]
  | none =>
    simp only [searchN]
    cases implicitLoop o fuel (site ++ [.int 1]) 0
      (w.search o (site ++ [.int 0]) { principal := .str p } filterTenantsByPrincipal) [] w <;> simp [Out.map]

theorem addDescs_nodup {l : List Val} {E E' : List Str} (hE : E.Nodup) (h : addDescs E l = .ok E') : E'.Nodup := by
  induction l generalizing E with
  | nil => cases h; exact hE
  | cons v l ih =>
    cases v with
    | nil => exact ih hE h
    | str s =>
      rw [addDescs] at h
      refine ih ?_ h
      split
      · exact hE
      · rename_i hs
        rw [List.nodup_append]
        refine ⟨hE, by simp, fun a ha b hb e => ?_⟩
        rw [List.mem_singleton] at hb
        exact hs (hb ▸ e ▸ ha)
    | bool _ => cases h
    | int _ => cases h

theorem implicitLoop_nodup {site : List Val} {rows : List Data} {i : Nat} {E E' : List Str} {w w' : Mgr} (hE : E.Nodup)
    (h : implicitLoop o fuel site i rows E w = .ok (E', w')) : E'.Nodup := by
  induction rows generalizing i E w with
  | nil => cases h; exact hE
  | cons row rows ih =>
    rw [implicitLoop] at h
    split at h
    · rename_i t ht
      split at h
      · exact ih hE h
      · rename_i hn
        have hE2 : (E ++ [t]).Nodup := by
          rw [List.nodup_append]
          refine ⟨hE, by simp, fun a ha b hb e => ?_⟩
          rw [List.mem_singleton] at hb
          exact hn (hb ▸ e ▸ ha)
        split at h
        · rw [Out.bind_eq_ok] at h
          obtain ⟨_, _, h⟩ := h
          rw [Out.bind_eq_ok] at h
          obtain ⟨_, h2, h⟩ := h
          exact ih (addDescs_nodup hE2 h2) h
        · exact ih hE2 h
    · cases h

/-- No cached list names a tenant twice. -/
def Once (w : Mgr) : Prop := ∀ p I, w.pcache.get p = some I → I.Nodup

theorem Once.implicit {site : List Val} {I : List Str} {v : Mgr} (inv : w.Inv) (h : w.Once) (hi : w.implicitTenants o fuel site p = .ok (I, v)) :
    I.Nodup ∧ v.Once := by
  obtain ⟨_, _, h3, h4, _⟩ := implicitTenants_inv inv hi
  have hI : I.Nodup := by
    unfold implicitTenants at hi
    split at hi
    · rename_i J hJ; cases hi; exact h p _ hJ
    · obtain ⟨⟨E, w1⟩, h1, h2⟩ := Out.map_eq_ok.1 hi
      cases h2
      exact implicitLoop_nodup (by simp) h1
  refine ⟨hI, fun q J hq => ?_⟩
  by_cases e : q = p
  · subst e; rw [h3] at hq; cases hq; exact hI
  · rw [h4 q e] at hq; exact h q J hq

theorem Once.apply {op : MOp} {v : Mgr} (inv : w.Inv) (l : w.Once) (h : op.apply w = .ok v) : v.Once := by
  have easy (hm : ¬ AD.Many op) : v.Once := by
    obtain ⟨_, e⟩ := AD.text_apply inv hm h
    intro p I hp; rw [e] at hp; exact l p I hp
  cases op with
  | tenantChildren o fuel site id =>
    obtain ⟨⟨x, w1⟩, h2, rfl⟩ := Out.map_eq_ok.1 h
    have := (Mgr.tenantChildren_spec inv h2).2.1
    intro p I hp
    simp only at hp
    rw [this] at hp; exact l p I hp
  | implicitTenants o fuel site p =>
    obtain ⟨⟨x, w1⟩, h2, rfl⟩ := Out.map_eq_ok.1 h
    exact (l.implicit inv h2).2
  | authorize o fuel site p opts =>
    obtain ⟨⟨x, w1⟩, h2, rfl⟩ := Out.map_eq_ok.1 h
    rcases Mgr.authorize_inv h2 with ⟨rfl, _⟩ | ⟨_, I, hI⟩
    · exact l
    · exact (l.implicit inv hI).2
  | _ => exact easy (by simp [AD.Many])

theorem once_run {ops : List MOp} (h : MOp.run {} ops = .ok w) : w.Once := by
  suffices H : ∀ (u : Mgr), u.Inv → u.Once → MOp.run u ops = .ok w → w.Once from H {} Mgr.Inv.empty (by intro p I h; cases h) h
  clear h
  induction ops with
  | nil => intro u _ l h; cases h; exact l
  | cons op ops ih =>
    intro u inv l h
    rw [MOp.run, Out.bind_eq_ok] at h
    obtain ⟨u1, h1, h⟩ := h
    exact ih u1 (MOp.apply_inv inv h1) (l.apply inv h1) h

theorem fallbackN_fst {site : List Val} {r0 r : Request} {ts : List Str} {i k : Nat} (hg : r.group = r0.group)
    (ha : r.activity = r0.activity) : (w.fallbackN o fuel site p (flagsOf r0) i r ts k).map (·.1) =
      w.fallback o fuel site p (flagsOf r0) i r ts := by
  induction ts generalizing i r k with
  | nil => rfl
  | cons t ts ih =>
    rw [fallbackN, fallback]
    split
    · exact ih hg ha
    · rw [checkN_eq (r := { r with tenant := .str t }) (o' := o) (site' := site) hg ha]
      cases w.check o fuel (site ++ [.int i]) p { r with tenant := .str t } (flagsOf r0) <;> try rfl
      rename_i b
      simp only [Out.map, Out.bind]
      cases b
      · exact ih (by simpa using hg) (by simpa using ha)
      · rfl
end Mgr

open Mgr
variable {w w' : Mgr} {o : Ord} {fuel : Nat} {site : List Val} {p : Str} {opts : List Opt} {b : Bool} {n : Nat}

/-- C133: counting does not change the answer. -/
theorem C133_counted : (w.authorizeN o fuel site p opts).map (·.1) = w.authorize o fuel site p opts := by
  unfold authorizeN authorize
  split
  · rfl
  · simp only [implicitTenantsN_eq, Out.bind_counted, Out.map_bind]
    congr 1; funext x
    split
    · rfl
    · rw [Out.map_bind]
      congr 1; funext v
      split
      · rfl
      · rw [checkN_eq (o' := o) (site' := site) rfl rfl, Out.bind_counted, Out.map_bind]
        congr 1; funext c
        cases c
        · simp only [Bool.false_eq_true, if_false]
          rw [← fallbackN_fst (k := _) rfl rfl]
          · generalize fallbackN _ _ _ _ _ _ _ _ _ _ = y
            cases y <;> rfl
        · rfl

/-- C133: how often a decision searches the row store.  One search finds the tenants of the principal unless they are cached.  If the
principal is registered, has tenants and what the request names is registered, the request is checked once and then again for
the tenants of the principal: for all of them if it is refused, except that a tenant the request names is left out if it comes first. -/
theorem C133_searches {ops : List MOp} (hw : MOp.run {} ops = .ok w) (h : w.authorizeN o fuel site p opts = .ok ((b, w'), n))
    (o' : Ord) (site' : List Val) :
    (w.principals.get p = none ∧ n = 0) ∨
    ∃ I, w.implicitTenants o fuel (site ++ [.int 0]) p = .ok (I, w') ∧
      ((n = (if w.pcache.get p = none then 1 else 0) ∧ b = false ∧ (I = [] ∨ w'.validateResources (opts.foldl Opt.apply {}) = .ok false)) ∨
        ∃ m, m ≤ I.length ∧
          n = (if w.pcache.get p = none then 1 else 0) + (1 + m) *
            searches (w.getTenants o' site' (.str p)).length (w.tenantsByPrincipal o' site' (.str p)).length (opts.foldl Opt.apply {}) ∧
          (b = false → m = I.length -
            if (o.ord (site ++ [.int 3]) _ I).head?.map Val.str = some (opts.foldl Opt.apply {}).tenant then 1 else 0)) := by
  have inv := MOp.reachable_inv hw
  unfold authorizeN at h
  split at h
  · rename_i hp
    cases h
    exact .inl ⟨by simpa using hp, rfl⟩
  · right
    rw [implicitTenantsN_eq, Out.bind_counted, Out.bind_eq_ok] at h
    obtain ⟨⟨I, w1⟩, hI, h⟩ := h
    suffices H : w' = w1 ∧ _ from ⟨I, H.1 ▸ hI, H.2⟩
    obtain ⟨hnd, _⟩ := (once_run hw).implicit inv hI
    have same := (Mgr.implicitTenants_inv inv hI).2.1
    have e1 : w1.getTenants o' site' (.str p) = w.getTenants o' site' (.str p) := by rw [same]; rfl
    have e2 : w1.tenantsByPrincipal o' site' (.str p) = w.tenantsByPrincipal o' site' (.str p) := by rw [same]; rfl
    simp only [Nat.zero_add] at h
    split at h
    · rename_i h0
      cases h
      exact ⟨rfl, .inl ⟨rfl, rfl, .inl (List.eq_nil_of_length_eq_zero h0)⟩⟩
    · rw [Out.bind_eq_ok] at h
      obtain ⟨v, hv, h⟩ := h
      split at h
      · rename_i hv2
        cases h
        cases v
        · exact ⟨rfl, .inl ⟨rfl, rfl, .inr hv⟩⟩
        · cases hv2
      · rw [checkN_eq (o' := o') (site' := site') rfl rfl, Out.bind_counted, Out.bind_eq_ok] at h
        obtain ⟨c, _, h⟩ := h
        cases c
        · simp only [Bool.false_eq_true, if_false] at h
          obtain ⟨⟨b2, n2⟩, h2, e⟩ := Out.map_eq_ok.1 h
          cases e
          have hnd2 := (o.perm (site ++ [.int 3]) _ I).nodup_iff.2 hnd
          obtain ⟨m, a1, a2, a3⟩ := fallbackN_eq (o' := o') (site' := site') rfl rfl hnd2 h2
          rw [Ord.ord_length] at a1 a3
          refine ⟨rfl, .inr ⟨m, a1, ?_, a3⟩⟩
          rw [a2, e1, e2, Nat.add_mul]; omega
        · simp only [if_true] at h
          cases h
          exact ⟨rfl, .inr ⟨0, Nat.zero_le _, by rw [e1, e2]; omega, fun hb => by cases hb⟩⟩

/-- C133: in any case at most one search and one check for the request and every tenant of the principal. -/
theorem C133_bound {ops : List MOp} (hw : MOp.run {} ops = .ok w) (h : w.authorizeN o fuel site p opts = .ok ((b, w'), n))
    (o' : Ord) (site' : List Val) :
    n ≤ 1 + (1 + ((w'.pcache.get p).getD []).length) *
      searches (w.getTenants o' site' (.str p)).length (w.tenantsByPrincipal o' site' (.str p)).length (opts.foldl Opt.apply {}) := by
  have hc : (if w.pcache.get p = none then 1 else 0) ≤ 1 := by split <;> omega
  rcases C133_searches hw h o' site' with ⟨_, rfl⟩ | ⟨I, hI, ⟨rfl, _⟩ | ⟨m, hm, rfl, _⟩⟩
  · omega
  · omega
  · have hw' : w'.pcache.get p = some I := (Mgr.implicitTenants_inv (MOp.reachable_inv hw) hI).2.2.1
    rw [hw', Option.getD_some]
    exact Nat.add_le_add hc (Nat.mul_le_mul_right _ (by omega))

/-- C133: a refused request without tenant is checked again, in the same way, for every tenant of the principal. -/
theorem C133_repeats {ops : List MOp} (hw : MOp.run {} ops = .ok w) (h : w.authorizeN o fuel site p opts = .ok ((false, w'), n))
    (ht : (opts.foldl Opt.apply {}).tenant = .nil) {I : List Str} {w1 : Mgr} (hp : (w.principals.get p).isSome)
    (hI : w.implicitTenants o fuel (site ++ [.int 0]) p = .ok (I, w1)) (hne : I ≠ [])
    (hv : w1.validateResources (opts.foldl Opt.apply {}) = .ok true) (o' : Ord) (site' : List Val) :
    n = (if w.pcache.get p = none then 1 else 0) + (1 + I.length) *
      searches (w.getTenants o' site' (.str p)).length (w.tenantsByPrincipal o' site' (.str p)).length (opts.foldl Opt.apply {}) := by
  rcases C133_searches hw h o' site' with ⟨h0, _⟩ | ⟨J, hJ, h2⟩
  · rw [h0] at hp; cases hp
  · rw [hI] at hJ; cases hJ
    rcases h2 with ⟨_, _, h3 | h3⟩ | ⟨m, _, e, hm⟩
    · exact absurd h3 hne
    · rw [hv] at h3; cases h3
    · have e0 : ¬ (o.ord (site ++ [.int 3]) _ I).head?.map Val.str = some (opts.foldl Opt.apply {}).tenant := by
        rw [ht]
        intro e2
        obtain ⟨t, _, e3⟩ := Option.map_eq_some_iff.1 e2
        cases e3
      have hm := hm rfl
      rw [if_neg e0] at hm
      rw [e, hm]; rfl

/-- In `exWorld` (principal p has one assignment, in tenant a, and two tenants, a and b) refused requests search seven and ten times;
one that names tenant a searches five or seven times, depending on the order of the tenants. -/
example : ∃ w, MOp.run {} exWorld = .ok w ∧
    (((w.authorizeN .fwd 9 [] (str "p") [.namespace_ (.str (str "n")), .scope (.str (str "s"))]).map fun x => (x.1.1, x.2)) = .ok (false, 7) ∧
     ((w.authorizeN .fwd 9 [] (str "p") [.namespace_ (.str (str "n")), .scope (.str (str "s")), .group (.str (str "g")),
        .activity (.str (str "/x PUT"))]).map fun x => (x.1.1, x.2)) = .ok (false, 10) ∧
     ((w.authorizeN .fwd 9 [] (str "p") [.tenant (.str (str "a")), .namespace_ (.str (str "n")), .group (.str (str "g")),
        .activity (.str (str "/x PUT"))]).map fun x => (x.1.1, x.2)) = .ok (false, 5) ∧
     ((w.authorizeN .rev 9 [] (str "p") [.tenant (.str (str "a")), .namespace_ (.str (str "n")), .group (.str (str "g")),
        .activity (.str (str "/x PUT"))]).map fun x => (x.1.1, x.2)) = .ok (false, 7) ∧
     ((w.authorizeN .rev 9 [] (str "p") [.tenant (.str (str "a"))]).map fun x => (x.1.1, x.2)) = .ok (true, 2)) :=
  Out.chk_ok (by decide +kernel)

end Verif
