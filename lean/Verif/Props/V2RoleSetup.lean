import Verif.Props.V2Setup

/-!
# Package v2: exact effect of the calls that set up roles, C94
-/

namespace Verif
open Spec

namespace Dag
variable {d d' : Dag}

/-- `d'` is `d` with role object `a` replaced by `r'`, and nothing else changed. -/
def Replaced (d d' : Dag) (a : Nat) (r' : R2) : Prop :=
  d'.objs.length = d.objs.length ∧ (∀ i, d'.objs[i]? = if i = a then some r' else d.objs[i]?) ∧ { d' with objs := d.objs } = d

theorem replaced_set {a : Nat} {r : R2} (ha : d.objs[a]? = some r) (r' : R2) : Replaced d { d with objs := d.objs.set a r' } a r' := by
  refine ⟨by simp, fun i => ?_, rfl⟩
  have := (List.getElem?_eq_some_iff.1 ha).1
  simp only [List.getElem?_set]
  by_cases h : i = a
  · subst h; simp [this]
  · simp [h, Ne.symm h]

theorem nodup_addStr {s : List Str} {x : Str} (h : s.Nodup) : (addStr s x).Nodup := by
  unfold addStr
  split
  · exact h
  · rename_i hx
    rw [List.nodup_append]
    exact ⟨h, by simp, fun y hy z hz => by simp at hz; subst hz; rintro rfl; exact hx hy⟩

theorem nodup_addStrs {l s : List Str} (h : s.Nodup) : (l.foldl addStr s).Nodup := by
  induction l generalizing s with
  | nil => exact h
  | cons a l ih => exact ih (nodup_addStr h)

theorem mem_dropStrs {l s : List Str} {y : Str} : y ∈ l.foldl (fun s x => s.filter (· ≠ x)) s ↔ y ∈ s ∧ y ∉ l := by
  induction l generalizing s with
  | nil => simp
  | cons a l ih => rw [List.foldl_cons, ih]; simp [and_assoc, not_or]

theorem nodup_dropStrs {l s : List Str} (h : s.Nodup) : (l.foldl (fun s x => s.filter (· ≠ x)) s).Nodup := by
  induction l generalizing s with
  | nil => exact h
  | cons a l ih => exact ih (h.filter _)

/-- C94. `NewRole` makes a role of that name without permissions, and is all that changes. -/
theorem C94_newRole (d : Dag) (n : Str) : ∃ r : R2, (d.newRole n).objs = d.objs ++ [r] ∧ r.name = n ∧ r.perms = [] ∧
    { d.newRole n with objs := d.objs } = d := ⟨_, rfl, rfl, rfl, rfl⟩

/-- C94. `AddPermission` adds the texts of the permissions passed to that role, each once, and changes nothing else. -/
theorem C94_addPermission {a : Nat} {r : R2} (ha : d.objs[a]? = some r) (ps : List Perm2) :
    ∃ d' r', d.addPermission a ps = .ok d' ∧ Replaced d d' a r' ∧ r'.name = r.name ∧
      (∀ x, x ∈ r'.perms ↔ x ∈ r.perms ∨ ∃ p ∈ ps, x = p.resource ++ [32] ++ p.action) ∧ (r.perms.Nodup → r'.perms.Nodup) := by
  unfold addPermission
  rw [ha]
  refine ⟨_, _, rfl, replaced_set ha _, rfl, fun x => ?_, fun h => nodup_addStrs h⟩
  simp only [mem_addStrs, List.mem_map, Perm2.string]
  simp only [eq_comm]

/-- C94. `RemovePermission` removes the texts of the permissions passed from that role, and changes nothing else. -/
theorem C94_removePermission {a : Nat} {r : R2} (ha : d.objs[a]? = some r) (ps : List Perm2) :
    ∃ d' r', d.removePermission a ps = .ok d' ∧ Replaced d d' a r' ∧ r'.name = r.name ∧
      (∀ x, x ∈ r'.perms ↔ x ∈ r.perms ∧ ∀ p ∈ ps, x ≠ p.resource ++ [32] ++ p.action) ∧ (r.perms.Nodup → r'.perms.Nodup) := by
  unfold removePermission
  rw [ha]
  refine ⟨_, _, rfl, replaced_set ha _, rfl, fun x => ?_, fun h => nodup_dropStrs h⟩
  simp only [mem_dropStrs, List.mem_map, Perm2.string, not_exists, not_and, ne_eq]
  simp only [eq_comm]

/-- The last role object of `as` called `k`. -/
def lastNamed (d : Dag) (as : List Nat) (k : Str) : Option Nat := as.reverse.find? fun a => d.objs[a]?.map (·.name) == some k

/-- C94. `AddRole` of the graph registers the roles passed under their names, the last one under each name, replacing what
was there, and changes nothing else. -/
theorem C94_addRole {as : List Nat} (has : ∀ a ∈ as, ∃ r, d.objs[a]? = some r) :
    ∃ d', d.addRole as = .ok d' ∧ (∀ k, d'.roles.get k = (lastNamed d as k).or (d.roles.get k)) ∧ { d' with roles := d.roles } = d := by
  induction as generalizing d with
  | nil => exact ⟨d, rfl, fun k => by simp [lastNamed], rfl⟩
  | cons a as ih =>
    obtain ⟨r, ha⟩ := has a (List.mem_cons_self ..)
    obtain ⟨d', h1, h2, h3⟩ := ih (d := { d with roles := d.roles.set r.name a }) fun x hx => has x (List.mem_cons_of_mem _ hx)
    refine ⟨d', ?_, fun k => ?_, congrArg (fun x : Dag => { x with roles := d.roles }) h3⟩
    · rw [addRole, Out.loop, ha, Out.bind_ok]; exact h1
    · rw [h2]
      simp only [lastNamed, List.reverse_cons, List.find?_append, Option.or_assoc, GoMap.get_set]
      congr 1
      simp only [List.find?_cons, List.find?_nil, ha, Option.map_some]
      by_cases hk : r.name = k
      · subst hk; simp
      · have : (r.name == k) = false := by simpa using hk
        simp [hk, this]

/-- C94. `AddChildRole` of the graph appends the children to those of the parent, or reports an error and changes nothing. -/
theorem C94_addChildRole {fuel : Nat} {p : Str} {cs : List Str} {b : Bool} (h : d.addChildRole fuel p cs = .ok (b, d')) :
    (b = true → d' = d) ∧ (b = false → (∀ k, d'.children k = if k = p then d.children p ++ cs else d.children k) ∧
      { d' with edges := d.edges } = d) := by
  rcases (addChildRole_cases h).2 with ⟨rfl, rfl⟩ | ⟨rfl, rfl⟩
  · exact ⟨fun _ => rfl, fun h => by cases h⟩
  · refine ⟨(fun h => by cases h), fun _ => ⟨fun k => ?_, rfl⟩⟩
    unfold children
    rw [GoMap.get_set]
    by_cases hk : k = p
    · subst hk; simp
    · simp [hk, Ne.symm hk]

end Dag

namespace V2
variable {w w' : V2}

/-- C94. A new authorizer knows no role, link, tenant or assignment, has no default tenant and nothing recorded. -/
theorem C94_newAuthorizer (l : Bool) :
    (∀ k, (newAuthorizer l).getRole k = none ∧ (newAuthorizer l).dag.children k = [] ∧ (newAuthorizer l).dag.resolved.get k = none ∧
      (newAuthorizer l).getTenant k = none ∧ (newAuthorizer l).index.get k = none) ∧
    (newAuthorizer l).userRoles = [] ∧ (newAuthorizer l).getDefaultTenant = none ∧ (newAuthorizer l).log = [] ∧
    (newAuthorizer l).logger = l := ⟨fun _ => ⟨rfl, rfl, rfl, rfl, rfl⟩, rfl, rfl, rfl, rfl⟩

/-- C94. After `AddRoles`, `GetRole` gives the last role passed under that name, or what it gave before. -/
theorem C94_addRoles {as : List Nat} (has : ∀ a ∈ as, ∃ r, w.dag.objs[a]? = some r) :
    ∃ w', w.addRoles as = .ok w' ∧ (∀ k, w'.getRole k = (w.dag.lastNamed as k).or (w.getRole k)) ∧
      { w' with dag := { w'.dag with roles := w.dag.roles } } = w := by
  obtain ⟨d', h1, h2, h3⟩ := Dag.C94_addRole has
  exact ⟨{ w with dag := d' }, by rw [addRoles, h1]; rfl, h2, congrArg (fun x : Dag => { w with dag := x }) h3⟩

/-- C94. `AddRole` returns the role passed, and `GetRole` of its name gives it from then on. -/
theorem C94_addRole {a : Nat} {r : R2} (ha : w.dag.objs[a]? = some r) :
    ∃ w', w.addRole a = .ok (a, w') ∧ (∀ k, w'.getRole k = if k = r.name then some a else w.getRole k) ∧
      { w' with dag := { w'.dag with roles := w.dag.roles } } = w := by
  obtain ⟨w', h1, h2, h3⟩ := C94_addRoles (w := w) (as := [a]) (by simpa using ⟨r, ha⟩)
  refine ⟨w', by rw [addRole, h1]; rfl, fun k => ?_, h3⟩
  rw [h2]
  simp only [Dag.lastNamed, List.reverse_cons, List.reverse_nil, List.nil_append, List.find?_cons, List.find?_nil, ha, Option.map_some]
  by_cases hk : k = r.name
  · subst hk; simp
  · have : (r.name == k) = false := by simpa using Ne.symm hk
    simp [hk, this]

/-- C94. `AddChildRole` of the authorizer reports what the graph reports and changes the links only. -/
theorem C94_addChildRole {fuel : Nat} {p : Str} {cs : List Str} {b : Bool} (h : w.addChildRole fuel p cs = .ok (b, w')) :
    w.dag.addChildRole fuel p cs = .ok (b, w'.dag) ∧ { w' with dag := { w'.dag with edges := w.dag.edges } } = w ∧
    (b = true → w' = w) ∧ (b = false → ∀ k, w'.dag.children k = if k = p then w.dag.children p ++ cs else w.dag.children k) := by
  obtain ⟨⟨b', d'⟩, h1, h2⟩ := Out.map_eq_ok.1 h
  cases h2
  have := Dag.C94_addChildRole h1
  refine ⟨h1, ?_, fun hb => ?_, fun hb => (this.2 hb).1⟩
  · cases hb : b'
    · exact congrArg (fun x : Dag => { w with dag := x }) (this.2 hb).2
    · rw [this.1 hb]
  · rw [this.1 hb]

/-- C94. `SetDefaultTenant` makes that tenant the default, if it is registered, and changes nothing else. -/
theorem C94_setDefaultTenant (w : V2) (t : Str) :
    (t ≠ [] → (w.setDefaultTenant t).getDefaultTenant = w.getTenant t) ∧ (w.setDefaultTenant []).getDefaultTenant = none ∧
    { w.setDefaultTenant t with defTenant := w.defTenant } = w :=
  ⟨fun h => by simp [getDefaultTenant, setDefaultTenant, getTenant, h], by simp [getDefaultTenant, setDefaultTenant], rfl⟩

/-- C94. A request asks, as text, for the permission with the same resource and action, whatever its category. -/
theorem C94_request (r : Req2) (cat : Str) : r.string = (Perm2.new cat r.resource r.action).string := rfl

/-- C94. In every reachable state every role lists each of its permissions once, and a registered role is registered under
its own name. -/
theorem C94_reachable {l : Bool} {ops : List V2Op} (h : V2Op.run (newAuthorizer l) ops = .ok w) :
    (∀ r ∈ w.dag.objs, r.perms.Nodup) ∧ ∀ k a, w.getRole k = some a → ∃ r, w.dag.objs[a]? = some r ∧ r.name = k := by
  have inv := Out.loop_inv (P := Inv) (fun _ _ _ _ hs hf => inv_apply hs hf) (inv_init l) h
  exact ⟨inv.dag.perms, fun k a hk => inv.dag.keyed k a (GoMap.get_some_mem hk)⟩

/-- Two roles called "r" and one called "q"; permissions given twice and taken again; links "r" → "q". -/
def exRoleSetup : List V2Op := [.newRole (str "r"), .newRole (str "r"), .newRole (str "q"),
  .addPermission 1 [.new (str "c") (str "x") (str "read"), .new (str "d") (str "x") (str "read"), .new [] (str "y") (str "read")],
  .addRoles [0, 2, 1], .removePermission 1 [.new [] (str "y") (str "read")], .addChildRole 9 (str "r") [str "q"]]

/-- C94. The hypotheses are met: the later role "r" is registered, its permission is listed once although it was given with
two categories, and closing a cycle is refused. -/
example : ∃ w, V2Op.run (newAuthorizer false) exRoleSetup = .ok w ∧
    (w.getRole (str "r") = some 1 ∧ w.getRole (str "q") = some 2 ∧ w.getRole (str "z") = none ∧
     w.dag.objs.map (·.perms) = [[], [str "x read"], []] ∧ w.dag.children (str "r") = [str "q"] ∧
     w.addChildRole 9 (str "q") [str "r"] = .ok (true, w) ∧
     ((w.addChildRole 9 (str "r") [str "p", str "o"]).Chk fun x => x.1 = false ∧ x.2.dag.children (str "r") = [str "q", str "p", str "o"]) ∧
     ((w.addRole 0).Chk fun x => x.1 = 0 ∧ x.2.getRole (str "r") = some 0)) := Out.chk_ok (by decide +kernel)

/-- C94. The default tenant is found once it is registered. -/
example : ∃ w, V2Op.run (newAuthorizer false) [.setDefaultTenant (str "t"), .newTenant (str "t") none] = .ok w ∧
    (w.getDefaultTenant = none ∧ (w.addTenant 0).Chk fun w => w.getDefaultTenant = some 0) := Out.chk_ok (by decide +kernel)

end V2
end Verif
