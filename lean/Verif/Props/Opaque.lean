import Verif.Props.SearchOrder
import Verif.Lemmas.ManagerOps
import Mathlib.Data.List.Forall2

/-!
# Ids have no meaning (root package)

If every id and every group name in a history of calls is replaced, different ids by different ids, then every later
decision stays the same: no id is treated specially and no two ids are confused.
-/

set_option linter.unusedSimpArgs false

namespace Verif

/-! ## Statement -/

namespace Spec

/-- New names for ids and for attribute groups; different names stay different. -/
structure Renaming where
  id : Str → Str
  group : Str → Str
  id_inj : ∀ a b, id a = id b → a = b
  group_inj : ∀ a b, group a = group b → a = b

namespace Renaming
variable (ρ : Renaming)

/-- A value with the id in it renamed. -/
def val : Val → Val
  | .str s => .str (ρ.id s)
  | v => v

/-- A row with its ids renamed. -/
def data (d : Data) : Data where
  tenant := ρ.val d.tenant
  namespace_ := ρ.val d.namespace_
  scope := ρ.val d.scope
  principal := ρ.val d.principal
  role := ρ.val d.role
  manage := ρ.val d.manage

/-- The group name of a request renamed. -/
def groupVal : Val → Val
  | .str s => .str (ρ.group s)
  | v => v

/-- An option with its id or group renamed; the activity is a text that is matched and stays. -/
def opt : Opt → Opt
  | .tenant v => .tenant (ρ.val v)
  | .namespace_ v => .namespace_ (ρ.val v)
  | .scope v => .scope (ρ.val v)
  | .group v => .group (ρ.groupVal v)
  | .activity v => .activity v

end Renaming

/-- Corresponding orders: a loop is stamped with the keys on its path through the trie, so the order of a loop is
looked up under the renamed stamp. -/
def SameOrders (ρ : Renaming) (σ σ' : List Val → List Nat) : Prop := ∀ s, σ' (s.map ρ.val) = σ s

/-- A call on roles with its ids and groups renamed. -/
def Renaming.roleOp (ρ : Renaming) : RoleOp → RoleOp
  | .newRole id => .newRole (ρ.id id)
  | .newGroup id => .newGroup (ρ.group id)
  | .addDesc r ds => .addDesc r ds
  | .addPerm r g as => .addPerm r (ρ.group g) as
  | .addGroup r ga => .addGroup r ga
  | .addAttrs ga as => .addAttrs ga as
  | .lock r b => .lock r b

/-- The second call is the first one with all ids and groups renamed, its loops running in the corresponding orders. -/
inductive Renamed (ρ : Renaming) : MOp → MOp → Prop
  | role (op : RoleOp) : Renamed ρ (.role op) (.role (ρ.roleOp op))
  | newTenant (id : Str) : Renamed ρ (.newTenant id) (.newTenant (ρ.id id))
  | addTenant (a : Nat) : Renamed ρ (.addTenant a) (.addTenant a)
  | addNamespace (id : Str) (obj : Nat) : Renamed ρ (.addNamespace id obj) (.addNamespace (ρ.id id) obj)
  | addScope (id : Str) (obj : Nat) : Renamed ρ (.addScope id obj) (.addScope (ρ.id id) obj)
  | addPrincipal (id : Str) (obj : Nat) : Renamed ρ (.addPrincipal id obj) (.addPrincipal (ρ.id id) obj)
  | addRole (r : Nat) : Renamed ρ (.addRole r) (.addRole r)
  | addAttribute (a : Attr) (obj : Nat) : Renamed ρ (.addAttribute a obj) (.addAttribute a obj)
  | addAttributeGroup (ga : Nat) : Renamed ρ (.addAttributeGroup ga) (.addAttributeGroup ga)
  | addData (d : Data) : Renamed ρ (.addData d) (.addData (ρ.data d))
  | tAddNamespace (c : Nat) (n : Str) : Renamed ρ (.tAddNamespace c n) (.tAddNamespace c (ρ.id n))
  | tAddScopesToNamespace (c : Nat) (n s : Str) :
    Renamed ρ (.tAddScopesToNamespace c n s) (.tAddScopesToNamespace c (ρ.id n) (ρ.id s))
  | tSetDefaultNamespace (c : Nat) (n : Str) : Renamed ρ (.tSetDefaultNamespace c n) (.tSetDefaultNamespace c (ρ.id n))
  | tAddPrincipalInNamespace (c : Nat) (p n r : Str) :
    Renamed ρ (.tAddPrincipalInNamespace c p n r) (.tAddPrincipalInNamespace c (ρ.id p) (ρ.id n) (ρ.id r))
  | tAddRole (c : Nat) (r : Str) : Renamed ρ (.tAddRole c r) (.tAddRole c (ρ.id r))
  | tAddScope (c : Nat) (s : Str) : Renamed ρ (.tAddScope c s) (.tAddScope c (ρ.id s))
  | tAddDescendant (c : Nat) (ds : List Nat) : Renamed ρ (.tAddDescendant c ds) (.tAddDescendant c ds)
  | tAddPrincipalWithRole (c : Nat) (p r : Str) (m : Bool) :
    Renamed ρ (.tAddPrincipalWithRole c p r m) (.tAddPrincipalWithRole c (ρ.id p) (ρ.id r) m)
  | tAddPrincipal (c : Nat) (p : Str) (m : Bool) (rs : List Str) :
    Renamed ρ (.tAddPrincipal c p m rs) (.tAddPrincipal c (ρ.id p) m (rs.map ρ.id))
  | tAddScopeToPrincipal (c : Nat) (p s : Str) (m : Bool) :
    Renamed ρ (.tAddScopeToPrincipal c p s m) (.tAddScopeToPrincipal c (ρ.id p) (ρ.id s) m)
  | tAssignScopes (c : Nat) (p : Str) (m : Bool) (ss : List Str) :
    Renamed ρ (.tAssignScopes c p m ss) (.tAssignScopes c (ρ.id p) m (ss.map ρ.id))
  | addPermissionsToRole (r g : Str) (as : List Attr) :
    Renamed ρ (.addPermissionsToRole r g as) (.addPermissionsToRole (ρ.id r) (ρ.group g) as)
  | tenantChildren (σ σ' : List Val → List Nat) (fuel : Nat) (site : List Val) (id : Str) (h : SameOrders ρ σ σ') :
    Renamed ρ (.tenantChildren (.byIndex σ) fuel site id) (.tenantChildren (.byIndex σ') fuel (site.map ρ.val) (ρ.id id))
  | implicitTenants (σ σ' : List Val → List Nat) (fuel : Nat) (site : List Val) (p : Str) (h : SameOrders ρ σ σ') :
    Renamed ρ (.implicitTenants (.byIndex σ) fuel site p) (.implicitTenants (.byIndex σ') fuel (site.map ρ.val) (ρ.id p))
  | authorize (σ σ' : List Val → List Nat) (fuel : Nat) (site : List Val) (p : Str) (opts : List Opt) (h : SameOrders ρ σ σ') :
    Renamed ρ (.authorize (.byIndex σ) fuel site p opts)
      (.authorize (.byIndex σ') fuel (site.map ρ.val) (ρ.id p) (opts.map ρ.opt))

end Spec

open Spec

/-! ## Values and maps -/

namespace Opaque
variable {ρ : Renaming}

theorem val_inj {a b : Val} (h : ρ.val a = ρ.val b) : a = b := by
  cases a <;> cases b <;> simp [Renaming.val] at h ⊢ <;> first | exact ρ.id_inj _ _ h | exact h

@[simp] theorem val_eq {a b : Val} : ρ.val a = ρ.val b ↔ a = b := ⟨val_inj, fun h => h ▸ rfl⟩
@[simp] theorem val_nil : ρ.val .nil = .nil := rfl
@[simp] theorem val_str (s : Str) : ρ.val (.str s) = .str (ρ.id s) := rfl
@[simp] theorem val_bool (b : Bool) : ρ.val (.bool b) = .bool b := rfl
@[simp] theorem val_int (n : Int) : ρ.val (.int n) = .int n := rfl
@[simp] theorem val_eq_nil {a : Val} : ρ.val a = .nil ↔ a = .nil := by cases a <;> simp
@[simp] theorem val_eq_bool {a : Val} {b : Bool} : ρ.val a = .bool b ↔ a = .bool b := by cases a <;> simp
@[simp] theorem id_eq {a b : Str} : ρ.id a = ρ.id b ↔ a = b := ⟨ρ.id_inj _ _, fun h => h ▸ rfl⟩
@[simp] theorem group_eq {a b : Str} : ρ.group a = ρ.group b ↔ a = b := ⟨ρ.group_inj _ _, fun h => h ▸ rfl⟩
@[simp] theorem groupVal_eq_nil {a : Val} : ρ.groupVal a = .nil ↔ a = .nil := by cases a <;> simp [Renaming.groupVal]
@[simp] theorem isNil_val (a : Val) : isNil (ρ.val a) = isNil a := by simp [isNil]
@[simp] theorem val_eq_str {a : Val} {s : Str} : ρ.val a = .str (ρ.id s) ↔ a = .str s := by
  rw [← val_str]; exact val_eq

@[simp] theorem data_tenant (d : Data) : (ρ.data d).tenant = ρ.val d.tenant := rfl
@[simp] theorem data_namespace (d : Data) : (ρ.data d).namespace_ = ρ.val d.namespace_ := rfl
@[simp] theorem data_scope (d : Data) : (ρ.data d).scope = ρ.val d.scope := rfl
@[simp] theorem data_principal (d : Data) : (ρ.data d).principal = ρ.val d.principal := rfl
@[simp] theorem data_role (d : Data) : (ρ.data d).role = ρ.val d.role := rfl
@[simp] theorem data_manage (d : Data) : (ρ.data d).manage = ρ.val d.manage := rfl

/-- A map with its keys renamed. -/
def mapKeys {κ ν : Type} (f : κ → κ) (m : GoMap κ ν) : GoMap κ ν := m.map fun e => (f e.1, e.2)

theorem mapKeys_get {κ ν : Type} [DecidableEq κ] {f : κ → κ} (hf : ∀ a b, f a = f b → a = b) (m : GoMap κ ν) (k : κ) :
    (mapKeys f m).get (f k) = m.get k := by
  induction m with
  | nil => rfl
  | cons e m ih =>
    obtain ⟨a, v⟩ := e
    simp only [mapKeys, List.map_cons, GoMap.get]
    by_cases h : a = k
    · simp [h]
    · rw [if_neg h, if_neg (fun e => h (hf _ _ e))]; exact ih

theorem mapKeys_set {κ ν : Type} [DecidableEq κ] {f : κ → κ} (hf : ∀ a b, f a = f b → a = b) (m : GoMap κ ν) (k : κ) (v : ν) :
    (mapKeys f m).set (f k) v = mapKeys f (m.set k v) := by
  induction m with
  | nil => rfl
  | cons e m ih =>
    obtain ⟨a, u⟩ := e
    simp only [mapKeys, List.map_cons, GoMap.set]
    by_cases h : a = k
    · simp [h]
    · rw [if_neg h, if_neg (fun e => h (hf _ _ e))]
      simp only [List.map_cons]
      exact congrArg _ ih

@[simp] theorem ids_get {ν : Type} (m : GoMap Str ν) (k : Str) : (mapKeys ρ.id m).get (ρ.id k) = m.get k := mapKeys_get ρ.id_inj m k
@[simp] theorem ids_set {ν : Type} (m : GoMap Str ν) (k : Str) (v : ν) : (mapKeys ρ.id m).set (ρ.id k) v = mapKeys ρ.id (m.set k v) :=
  mapKeys_set ρ.id_inj m k v
@[simp] theorem groups_get {ν : Type} (m : GoMap Str ν) (k : Str) : (mapKeys ρ.group m).get (ρ.group k) = m.get k := mapKeys_get ρ.group_inj m k
@[simp] theorem groups_set {ν : Type} (m : GoMap Str ν) (k : Str) (v : ν) : (mapKeys ρ.group m).set (ρ.group k) v = mapKeys ρ.group (m.set k v) :=
  mapKeys_set ρ.group_inj m k v

theorem permute_map {α β : Type} (σ : List Nat) (f : α → β) (l : List α) : permute σ (l.map f) = (permute σ l).map f := by
  unfold permute
  rw [List.length_map]
  split
  · rw [List.map_filterMap]
    congr 1
    funext i
    rw [List.getElem?_map]
  · rfl

theorem ord_map {α β : Type} {σ σ' : List Val → List Nat} (hs : SameOrders ρ σ σ') (s : List Val) (f : α → β) (l : List α) :
    (Ord.byIndex σ').ord (s.map ρ.val) _ (l.map f) = ((Ord.byIndex σ).ord s _ l).map f := by
  show permute (σ' (s.map ρ.val)) (l.map f) = (permute (σ s) l).map f
  rw [hs s, permute_map]

/-- Every choice of orders has a corresponding one for the renamed calls. -/
theorem exists_sameOrders (ρ : Renaming) (σ : List Val → List Nat) : ∃ σ', SameOrders ρ σ σ' := by
  classical
  refine ⟨fun s => if h : ∃ s0 : List Val, s0.map ρ.val = s then σ h.choose else [], fun s => ?_⟩
  have h : ∃ s0 : List Val, s0.map ρ.val = s.map ρ.val := ⟨s, rfl⟩
  simp only [dif_pos h]
  congr 1
  exact List.map_injective_iff.2 (fun a b h => val_inj h) h.choose_spec

/-! ## The trie -/

mutual
/-- A node with the keys and rows below it renamed. -/
def node (ρ : Renaming) : Node Data → Node Data
  | .mk d ch => .mk (d.map ρ.data) (forest ρ ch)
def forest (ρ : Renaming) : Forest Data → Forest Data
  | .nil => .nil
  | .cons k n rest => .cons (ρ.val k) (node ρ n) (forest ρ rest)
end

theorem forest_get (k : Val) (f : Forest Data) : (forest ρ f).get (ρ.val k) = (f.get k).map (node ρ) := by
  fun_induction Forest.get k f with
  | case1 => simp [forest, Forest.get]
  | case2 => simp_all [forest, Forest.get]
  | case3 => simp_all [forest, Forest.get]

theorem forest_set (k : Val) (n : Node Data) (f : Forest Data) : (forest ρ f).set (ρ.val k) (node ρ n) = forest ρ (f.set k n) := by
  fun_induction Forest.set k n f with
  | case1 => simp [forest, Forest.set]
  | case2 => simp_all [forest, Forest.set]
  | case3 => simp_all [forest, Forest.set]

theorem node_insert (x : Data) (ks : List Val) (n : Node Data) :
    (node ρ n).insert (ρ.data x) (ks.map ρ.val) = node ρ (n.insert x ks) := by
  induction ks generalizing n with
  | nil => cases n; simp [node, Node.insert]
  | cons k ks ih =>
    cases n with
    | mk d ch =>
      rw [List.map_cons, node, Node.insert, Node.insert]
      simp only [val_eq_nil]
      split
      · rw [← ih, node]
      · rw [node, forest_get, ← forest_set, ← ih]
        congr 3
        cases ch.get k <;> simp [Node.new, node, forest]

theorem forest_toList (f : Forest Data) : (forest ρ f).toList = f.toList.map fun e => (ρ.val e.1, node ρ e.2) := by
  fun_induction Forest.toList f <;> simp_all [forest, Forest.toList]

theorem runVisits_map {fs : List ((List Data → Bool × List Data) × (List Data → Bool × List Data))}
    (h : ∀ f ∈ fs, ∀ res, f.2 (res.map ρ.data) = ((f.1 res).1, (f.1 res).2.map ρ.data)) (res : List Data) :
    runVisits (fs.map (·.2)) (res.map ρ.data) =
      ((runVisits (fs.map (·.1)) res).1, (runVisits (fs.map (·.1)) res).2.map ρ.data) := by
  induction fs generalizing res with
  | nil => rfl
  | cons f fs ih =>
    simp only [List.map_cons, runVisits]
    rw [h f (List.mem_cons_self ..)]
    generalize f.1 res = x
    obtain ⟨b, r⟩ := x
    cases b
    · exact ih (fun g hg => h g (List.mem_cons_of_mem _ hg)) r
    · rfl

mutual
theorem node_dfs {σ σ' : List Val → List Nat} (hs : SameOrders ρ σ σ') {cb cb' : Data → Bool} (hc : ∀ d, cb' (ρ.data d) = cb d)
    (stop : Bool) (path : List Val) (n : Node Data) (res : List Data) :
    (node ρ n).dfs (.byIndex σ') cb' stop (path.map ρ.val) (res.map ρ.data) =
      ((n.dfs (.byIndex σ) cb stop path res).1, (n.dfs (.byIndex σ) cb stop path res).2.map ρ.data) := by
  cases n with
  | mk d ch =>
    have ih := forest_dfs hs hc stop path ch
    have hv : ∀ res : List Data, runVisits ((Ord.byIndex σ').ord (path.map ρ.val) _ ((forest ρ ch).visits (.byIndex σ') cb' stop (path.map ρ.val))) (res.map ρ.data) =
        ((runVisits ((Ord.byIndex σ).ord path _ (ch.visits (.byIndex σ) cb stop path)) res).1,
          (runVisits ((Ord.byIndex σ).ord path _ (ch.visits (.byIndex σ) cb stop path)) res).2.map ρ.data) := by
      intro res
      rw [Forest.visits_eq, Forest.visits_eq, forest_toList, List.map_map]
      have e1 : ∀ {γ : Type} (g : Val × Node Data → γ), (Ord.byIndex σ).ord path _ (ch.toList.map g) = ((Ord.byIndex σ).ord path _ ch.toList).map g :=
        fun g => permute_map _ g _
      rw [ord_map hs, e1]
      have := runVisits_map (ρ := ρ) (fs := ((Ord.byIndex σ).ord path _ ch.toList).map fun x =>
        (x.2.dfs (.byIndex σ) cb stop (path ++ [x.1]), (node ρ x.2).dfs (.byIndex σ') cb' stop (path.map ρ.val ++ [ρ.val x.1])))
        (by
          intro f hf res
          obtain ⟨x, hx, rfl⟩ := List.mem_map.1 hf
          have := ih x ((Ord.perm _ _ _ _).mem_iff.1 hx) res
          rw [List.map_append] at this
          exact this) res
      rw [List.map_map, List.map_map] at this
      exact this
    rw [node, Node.dfs, Node.dfs]
    cases d with
    | none => exact hv res
    | some x =>
      simp only [Option.map_some, hc]
      have h2 := hv (res ++ [x])
      rw [List.map_append] at h2
      cases cb x
      · exact hv res
      · cases stop
        · exact h2
        · simp
theorem forest_dfs {σ σ' : List Val → List Nat} (hs : SameOrders ρ σ σ') {cb cb' : Data → Bool} (hc : ∀ d, cb' (ρ.data d) = cb d)
    (stop : Bool) (path : List Val) (f : Forest Data) : ∀ x ∈ f.toList, ∀ res : List Data,
    (node ρ x.2).dfs (.byIndex σ') cb' stop ((path ++ [x.1]).map ρ.val) (res.map ρ.data) =
      ((x.2.dfs (.byIndex σ) cb stop (path ++ [x.1]) res).1, (x.2.dfs (.byIndex σ) cb stop (path ++ [x.1]) res).2.map ρ.data) := by
  cases f with
  | nil => intro x hx; cases hx
  | cons k n rest =>
    intro x hx res
    rw [Forest.toList] at hx
    by_cases h : x = (k, n)
    · subst h; exact node_dfs hs hc stop (path ++ [k]) n res
    · exact forest_dfs hs hc stop path rest x ((List.mem_cons.1 hx).resolve_left h) res
end

/-! ## Roles -/

/-- A role with its id, groups and descendants renamed. -/
def role (ρ : Renaming) (r : RoleObj) : RoleObj :=
  { id := ρ.id r.id, perms := mapKeys ρ.group r.perms, desc := mapKeys ρ.id r.desc, lock := r.lock }

/-- A group renamed. -/
def group (ρ : Renaming) (g : GroupObj) : GroupObj := { id := ρ.group g.id, perms := g.perms }

/-- All roles and groups renamed. -/
def heap (ρ : Renaming) (h : RHeap) : RHeap := { roles := h.roles.map (role ρ), groups := h.groups.map (group ρ) }

@[simp] theorem heap_roles (h : RHeap) (r : Nat) : (heap ρ h).roles[r]? = (h.roles[r]?).map (role ρ) := by simp [heap]
@[simp] theorem heap_groups (h : RHeap) (r : Nat) : (heap ρ h).groups[r]? = (h.groups[r]?).map (group ρ) := by simp [heap]

theorem collectI_map {α α' β : Type} {f : Nat → α → Out (List β)} {f' : Nat → α' → Out (List β)} {m : α → α'}
    (h : ∀ i x, f' i (m x) = f i x) (i : Nat) (l : List α) : Out.collectI f' i (l.map m) = Out.collectI f i l := by
  induction l generalizing i with
  | nil => rfl
  | cons x l ih => simp only [List.map_cons, Out.collectI, h, ih]

theorem anyI_congr {α : Type} {f f' : Nat → α → Out Bool} (h : ∀ i x, f' i x = f i x) (i : Nat) (l : List α) :
    Out.anyI f' i l = Out.anyI f i l := by
  have : f' = f := funext fun i => funext fun x => h i x
  rw [this]

theorem descRoles {σ σ' : List Val → List Nat} (hs : SameOrders ρ σ σ') (h : RHeap) (n : Nat) (site : List Val) (r : Nat) :
    (heap ρ h).descRoles (.byIndex σ') n (site.map ρ.val) r = h.descRoles (.byIndex σ) n site r := by
  induction n generalizing site r with
  | zero => rfl
  | succ n ih =>
    rw [RHeap.descRoles, RHeap.descRoles, heap_roles]
    cases h.roles[r]? with
    | none => rfl
    | some ro =>
      simp only [Option.map_some, role, mapKeys]
      rw [ord_map hs]
      apply collectI_map
      intro i e
      have := ih (site ++ [.int i]) e.2
      rw [List.map_append] at this
      exact congrArg _ this

theorem has {σ σ' : List Val → List Nat} (hs : SameOrders ρ σ σ') (h : RHeap) (g name : Str) (allowed : List Str) (n : Nat)
    (site : List Val) (r : Nat) :
    (heap ρ h).has (.byIndex σ') (ρ.group g) name (allowed.map ρ.id) n (site.map ρ.val) r = h.has (.byIndex σ) g name allowed n site r := by
  induction n generalizing site r with
  | zero => rfl
  | succ n ih =>
    rw [RHeap.has, RHeap.has, heap_roles]
    cases h.roles[r]? with
    | none => rfl
    | some ro =>
      simp only [Option.map_some, role, groups_get]
      cases ro.perms.get g with
      | none => rfl
      | some ga =>
        simp only [heap_groups]
        cases h.groups[ga]? with
        | none => rfl
        | some go =>
          have ho := ord_map hs (site ++ [.int 0]) id go.perms
          have hd := descRoles hs h n (site ++ [.int 1]) r
          simp only [List.map_id, List.map_append, List.map_cons, List.map_nil, val_int] at ho hd
          simp only [Option.map_some, group, ho, hd]
          split
          · rfl
          · congr 1
            funext matched
            split
            · rfl
            · congr 1
              funext ds
              apply anyI_congr
              intro i d
              have hd := ih (site ++ [.int 2, .int i]) d
              simp only [List.map_append, List.map_cons, List.map_nil, val_int] at hd
              rw [heap_roles]
              cases h.roles[d]? with
              | none => rfl
              | some dr =>
                have : ρ.id dr.id ∈ allowed.map ρ.id ↔ dr.id ∈ allowed := by simp
                simp only [Option.map_some, role, hd, List.length_map, this]

/-- The outcome of a call, renamed. -/
theorem out_map_bind {α β γ : Type} {x : Out α} {x' : Out β} {m : α → β} (hx : x' = x.map m) {f : α → Out γ} {f' : β → Out γ}
    (hf : ∀ a, f' (m a) = f a) : x'.bind f' = x.bind f := by
  subst hx; cases x <;> simp [hf]

theorem bind_map {α β γ δ : Type} {x : Out α} {x' : Out β} {m : α → β} (hx : x' = x.map m) {f : α → Out γ} {f' : β → Out δ} {k : γ → δ}
    (hf : ∀ a, x = .ok a → f' (m a) = (f a).map k) : x'.bind f' = (x.bind f).map k := by
  subst hx; cases x <;> simp [hf]

theorem list_set {α β : Type} (m : α → β) (l : List α) (i : Nat) (x : α) : (l.map m).set i (m x) = (l.set i x).map m := by
  rw [List.map_set]

theorem roleOp (op : RoleOp) (h : RHeap) : (ρ.roleOp op).apply (heap ρ h) = (op.apply h).map (heap ρ) := by
  cases op with
  | newRole id => simp [Renaming.roleOp, RoleOp.apply, RHeap.newRole, heap, role, mapKeys]
  | newGroup id => simp [Renaming.roleOp, RoleOp.apply, RHeap.newGroup, heap, group]
  | addDesc r ds =>
    have hl : ∀ ds h, RHeap.addDescendant.loop r (heap ρ h) ds = (RHeap.addDescendant.loop r h ds).map (heap ρ) := by
      intro ds
      induction ds with
      | nil => intro h; rfl
      | cons d ds ih =>
        intro h
        rw [RHeap.addDescendant.loop, RHeap.addDescendant.loop, heap_roles, heap_roles]
        cases h.roles[d]? with
        | none => rfl
        | some dro =>
          cases h.roles[r]? with
          | none => rfl
          | some ro =>
            simp only [Option.map_some, role, ids_get]
            split
            · exact ih h
            · rw [← ih]
              simp [heap, role]
    simp only [Renaming.roleOp, RoleOp.apply, RHeap.addDescendant, heap_roles]
    cases h.roles[r]? with
    | none => rfl
    | some ro =>
      simp only [Option.map_some, role, hl]
      split
      · rfl
      · cases RHeap.addDescendant.loop r h ds <;> rfl
  | addPerm r g as =>
    simp only [Renaming.roleOp, RoleOp.apply, RHeap.addPermission, heap_roles]
    cases h.roles[r]? with
    | none => rfl
    | some ro =>
      simp only [Option.map_some, role, groups_get]
      split
      · rfl
      · cases ro.perms.get g with
        | none => simp [heap, role, group]
        | some ga =>
          simp only [heap_groups]
          cases h.groups[ga]? with
          | none => rfl
          | some go => simp [heap, role, group]
  | addGroup r ga =>
    simp only [Renaming.roleOp, RoleOp.apply, RHeap.addPermissionResourceGroup, heap_roles, heap_groups]
    cases h.roles[r]? with
    | none => rfl
    | some ro =>
      cases h.groups[ga]? with
      | none => rfl
      | some go =>
        simp only [Option.map_some, role, group, groups_get]
        split
        · rfl
        · split
          · rfl
          · simp [heap, role]
  | addAttrs ga as =>
    simp only [Renaming.roleOp, RoleOp.apply, RHeap.groupAddAttributes, heap_groups]
    cases h.groups[ga]? with
    | none => rfl
    | some go => simp [heap, group]
  | lock r b =>
    simp only [Renaming.roleOp, RoleOp.apply, RHeap.setLock, heap_roles]
    cases h.roles[r]? with
    | none => rfl
    | some ro => simp [heap, role]

/-! ## Managers -/

/-- A map with its keys and entries renamed. -/
def mapKV {κ ν : Type} (f : κ → κ) (g : ν → ν) (m : GoMap κ ν) : GoMap κ ν := m.map fun e => (f e.1, g e.2)

theorem mapKV_get {κ ν : Type} [DecidableEq κ] {f : κ → κ} {g : ν → ν} (hf : ∀ a b, f a = f b → a = b) (m : GoMap κ ν) (k : κ) :
    (mapKV f g m).get (f k) = (m.get k).map g := by
  induction m with
  | nil => rfl
  | cons e m ih =>
    obtain ⟨a, v⟩ := e
    simp only [mapKV, List.map_cons, GoMap.get]
    by_cases h : a = k
    · simp [h]
    · rw [if_neg h, if_neg (fun e => h (hf _ _ e))]; exact ih

theorem mapKV_set {κ ν : Type} [DecidableEq κ] {f : κ → κ} {g : ν → ν} (hf : ∀ a b, f a = f b → a = b) (m : GoMap κ ν) (k : κ) (v : ν) :
    (mapKV f g m).set (f k) (g v) = mapKV f g (m.set k v) := by
  induction m with
  | nil => rfl
  | cons e m ih =>
    obtain ⟨a, u⟩ := e
    simp only [mapKV, List.map_cons, GoMap.set]
    by_cases h : a = k
    · simp [h]
    · rw [if_neg h, if_neg (fun e => h (hf _ _ e))]
      simp only [List.map_cons]
      exact congrArg _ ih

/-- A tenant renamed. -/
def tenant (ρ : Renaming) (t : TenantObj) : TenantObj :=
  { id := ρ.id t.id, desc := mapKeys ρ.id t.desc, defNs := t.defNs.map ρ.id, managed := t.managed }

/-- A manager with everything in it renamed. -/
def mgr (ρ : Renaming) (w : Mgr) : Mgr where
  tobjs := w.tobjs.map (tenant ρ)
  heap := heap ρ w.heap
  tenants := mapKeys ρ.id w.tenants
  namespaces := mapKeys ρ.id w.namespaces
  scopes := mapKeys ρ.id w.scopes
  principals := mapKeys ρ.id w.principals
  roles := mapKeys ρ.id w.roles
  attributes := w.attributes
  attrGroups := mapKeys ρ.group w.attrGroups
  trie := ⟨node ρ w.trie.root, w.trie.matchFn, w.trie.keys⟩
  hierarchy := mapKV ρ.id (·.map ρ.val) w.hierarchy
  pcache := mapKV ρ.id (·.map ρ.id) w.pcache
  log := w.log.map ρ.data

variable {w : Mgr}

@[simp] theorem mgr_tobjs (a : Nat) : (mgr ρ w).tobjs[a]? = (w.tobjs[a]?).map (tenant ρ) := by simp [mgr]

theorem register_ids (m : GoMap Str Nat) (k : Str) (a : Nat) :
    register (mapKeys ρ.id m) (ρ.id k) a = ((register m k a).1, mapKeys ρ.id (register m k a).2) := by
  unfold register
  rw [ids_get]
  cases m.get k <;> simp

theorem register_groups (m : GoMap Str Nat) (k : Str) (a : Nat) :
    register (mapKeys ρ.group m) (ρ.group k) a = ((register m k a).1, mapKeys ρ.group (register m k a).2) := by
  unfold register
  rw [groups_get]
  cases m.get k <;> simp

theorem addData (hk : w.trie.keys = dataKeys) (d : Data) : (mgr ρ w).addData (ρ.data d) = (w.addData d).map (mgr ρ) := by
  have h1 : (mgr ρ w).trie.keys = dataKeys := hk
  unfold Mgr.addData Trie.insert
  simp only [h1, hk, dataKeys, Out.map_ok]
  have := node_insert (ρ := ρ) d [d.tenant, d.namespace_, d.scope, d.principal, d.role, d.manage] w.trie.root
  simp only [List.map_cons, List.map_nil] at this
  simp only [mgr, data_tenant, data_namespace, data_scope, data_principal, data_role, data_manage, this, List.map_append, List.map_cons, List.map_nil]

theorem withTenant {f f' : TenantObj → Out α} {m : α → α} (h : ∀ t, f' (tenant ρ t) = (f t).map m) (c : Nat) :
    (mgr ρ w).withTenant c f' = (w.withTenant c f).map m := by
  unfold Mgr.withTenant
  rw [mgr_tobjs]
  cases w.tobjs[c]? with
  | none => rfl
  | some t =>
    simp only [Option.map_some, tenant] at h ⊢
    split
    · exact h t
    · rfl

theorem tAddNamespace (hk : w.trie.keys = dataKeys) (c : Nat) (n : Str) :
    (mgr ρ w).tAddNamespace c (ρ.id n) = (w.tAddNamespace c n).map (mgr ρ) := by
  apply withTenant; intro t; exact addData (ρ := ρ) hk { tenant := .str t.id, namespace_ := .str n }

theorem tAddScopesToNamespace (hk : w.trie.keys = dataKeys) (c : Nat) (n s : Str) :
    (mgr ρ w).tAddScopesToNamespace c (ρ.id n) (ρ.id s) = (w.tAddScopesToNamespace c n s).map (mgr ρ) := by
  apply withTenant; intro t; exact addData (ρ := ρ) hk { tenant := .str t.id, namespace_ := .str n, scope := .str s }

theorem tAddPrincipalInNamespace (hk : w.trie.keys = dataKeys) (c : Nat) (p n r : Str) :
    (mgr ρ w).tAddPrincipalInNamespace c (ρ.id p) (ρ.id n) (ρ.id r) = (w.tAddPrincipalInNamespace c p n r).map (mgr ρ) := by
  apply withTenant; intro t; exact addData (ρ := ρ) hk { tenant := .str t.id, namespace_ := .str n, role := .str r, principal := .str p }

theorem tAddRole (hk : w.trie.keys = dataKeys) (c : Nat) (r : Str) :
    (mgr ρ w).tAddRole c (ρ.id r) = (w.tAddRole c r).map (mgr ρ) := by
  apply withTenant; intro t; exact addData (ρ := ρ) hk { tenant := .str t.id, role := .str r }

theorem tAddScope (hk : w.trie.keys = dataKeys) (c : Nat) (s : Str) :
    (mgr ρ w).tAddScope c (ρ.id s) = (w.tAddScope c s).map (mgr ρ) := by
  apply withTenant; intro t; exact addData (ρ := ρ) hk { tenant := .str t.id, scope := .str s }

theorem tSetDefaultNamespace (c : Nat) (n : Str) :
    (mgr ρ w).tSetDefaultNamespace c (ρ.id n) = (w.tSetDefaultNamespace c n).map (mgr ρ) := by
  apply withTenant; intro t
  have : (mgr ρ w).namespaces.get (ρ.id n) = w.namespaces.get n := ids_get _ _
  rw [this]
  split
  · simp [mgr, tenant]
  · rfl

theorem keys_addData {w' : Mgr} {d : Data} (h : w.addData d = .ok w') : w'.trie.keys = w.trie.keys := by
  obtain ⟨t, h1, rfl⟩ := Out.map_eq_ok.1 h
  clear h
  unfold Trie.insert at h1
  simp only at h1
  split at h1
  · cases h1
  · cases h1; rfl

theorem withTenant_ok {f : TenantObj → Out α} {c : Nat} {x : α} (h : w.withTenant c f = .ok x) : ∃ t, f t = .ok x := by
  unfold Mgr.withTenant at h
  split at h
  · cases h
  · split at h
    · exact ⟨_, h⟩
    · cases h

theorem tAddDescendant (c : Nat) (ds : List Nat) : ∀ {w : Mgr}, w.trie.keys = dataKeys →
    (mgr ρ w).tAddDescendant c ds = (w.tAddDescendant c ds).map (mgr ρ) := by
  induction ds with
  | nil => intro w hk; rfl
  | cons d ds ih =>
    intro w hk
    rw [Mgr.tAddDescendant, Mgr.tAddDescendant, mgr_tobjs, mgr_tobjs]
    cases w.tobjs[c]? with
    | none => rfl
    | some ct =>
      cases w.tobjs[d]? with
      | none => rfl
      | some dt =>
        simp only [Option.map_some]
        have hw : (if ((tenant ρ ct).desc.get (tenant ρ dt).id).isSome then mgr ρ w
            else { mgr ρ w with tobjs := (mgr ρ w).tobjs.set c { tenant ρ ct with desc := (tenant ρ ct).desc.set (tenant ρ dt).id d } }) =
            mgr ρ (if (ct.desc.get dt.id).isSome then w else { w with tobjs := w.tobjs.set c { ct with desc := ct.desc.set dt.id d } }) := by
          simp only [tenant, ids_get]
          split
          · rfl
          · simp [mgr, tenant]
        have hk1 : (if (ct.desc.get dt.id).isSome then w else { w with tobjs := w.tobjs.set c { ct with desc := ct.desc.set dt.id d } }).trie.keys = dataKeys := by
          split <;> exact hk
        rw [hw]
        revert hk1
        generalize (if (ct.desc.get dt.id).isSome then w else { w with tobjs := w.tobjs.set c { ct with desc := ct.desc.set dt.id d } }) = w1
        intro hk1
        simp only [tenant]
        cases ct.defNs with
        | none => exact ih hk1
        | some n =>
          simp only [Option.map_some]
          apply bind_map (tAddNamespace hk1 d n)
          intro w2 h2
          have hk2 : w2.trie.keys = dataKeys := by
            obtain ⟨t, ht⟩ := withTenant_ok h2
            rw [keys_addData ht, hk1]
          apply bind_map (tSetDefaultNamespace d n)
          intro w3 h3
          apply ih
          obtain ⟨t, ht⟩ := withTenant_ok h3
          split at ht <;> cases ht <;> exact hk2

/-- The renamed result of a call that may return an error. -/
def res (ρ : Renaming) (x : Option Err × Mgr) : Option Err × Mgr := (x.1, mgr ρ x.2)

theorem tAddPrincipalWithRole (hk : w.trie.keys = dataKeys) (c : Nat) (p r : Str) (m : Bool) :
    (mgr ρ w).tAddPrincipalWithRole c (ρ.id p) (ρ.id r) m = (w.tAddPrincipalWithRole c p r m).map (res ρ) := by
  apply withTenant; intro t
  have h1 : (mgr ρ w).principals.get (ρ.id p) = w.principals.get p := ids_get _ _
  have h2 : (mgr ρ w).roles.get (ρ.id r) = w.roles.get r := ids_get _ _
  rw [h1, h2]
  split
  · rfl
  · split
    · rfl
    · apply bind_map (addData hk { tenant := .str t.id, principal := .str p, role := .str r, manage := .bool m })
      intro w1 hw1
      have hk1 := (keys_addData hw1).trans hk
      simp only [tenant]
      cases t.defNs with
      | none => rfl
      | some n =>
        simp only [Option.map_some]
        have := addData (ρ := ρ) hk1 { tenant := .str t.id, namespace_ := .str n, principal := .str p, role := .str r, manage := .bool m }
        simp only [Renaming.data, val_str, val_bool, val_nil] at this
        rw [this]
        cases w1.addData { tenant := .str t.id, namespace_ := .str n, principal := .str p, role := .str r, manage := .bool m } <;> rfl

theorem tAddScopeToPrincipal (hk : w.trie.keys = dataKeys) (c : Nat) (p s : Str) (m : Bool) :
    (mgr ρ w).tAddScopeToPrincipal c (ρ.id p) (ρ.id s) m = (w.tAddScopeToPrincipal c p s m).map (res ρ) := by
  apply withTenant; intro t
  have h1 : (mgr ρ w).principals.get (ρ.id p) = w.principals.get p := ids_get _ _
  have h2 : (mgr ρ w).scopes.get (ρ.id s) = w.scopes.get s := ids_get _ _
  rw [h1, h2]
  split
  · rfl
  · split
    · rfl
    · apply bind_map (addData hk { tenant := .str t.id, scope := .str s, principal := .str p, manage := .bool m })
      intro w1 hw1
      have hk1 := (keys_addData hw1).trans hk
      simp only [tenant]
      cases t.defNs with
      | none => rfl
      | some n =>
        simp only [Option.map_some]
        have := addData (ρ := ρ) hk1 { tenant := .str t.id, namespace_ := .str n, scope := .str s, principal := .str p, manage := .bool m }
        simp only [Renaming.data, val_str, val_bool, val_nil] at this
        rw [this]
        cases w1.addData { tenant := .str t.id, namespace_ := .str n, scope := .str s, principal := .str p, manage := .bool m } <;> rfl

theorem keys_role {w : Mgr} {c : Nat} {p r : Str} {m : Bool} {x : Option Err × Mgr} (h : w.tAddPrincipalWithRole c p r m = .ok x) :
    x.2.trie.keys = w.trie.keys := by
  obtain ⟨t, h⟩ := withTenant_ok h
  split at h
  · cases h; rfl
  · split at h
    · cases h; rfl
    · obtain ⟨w1, h1, h⟩ := Out.bind_eq_ok.1 h
      split at h
      · cases h; exact keys_addData h1
      · obtain ⟨w2, h2, rfl⟩ := Out.map_eq_ok.1 h
        exact (keys_addData h2).trans (keys_addData h1)

theorem keys_scope {w : Mgr} {c : Nat} {p s : Str} {m : Bool} {x : Option Err × Mgr} (h : w.tAddScopeToPrincipal c p s m = .ok x) :
    x.2.trie.keys = w.trie.keys := by
  obtain ⟨t, h⟩ := withTenant_ok h
  split at h
  · cases h; rfl
  · split at h
    · cases h; rfl
    · obtain ⟨w1, h1, h⟩ := Out.bind_eq_ok.1 h
      split at h
      · cases h; exact keys_addData h1
      · obtain ⟨w2, h2, rfl⟩ := Out.map_eq_ok.1 h
        exact (keys_addData h2).trans (keys_addData h1)

theorem tAddPrincipal (c : Nat) (p : Str) (m : Bool) (rs : List Str) : ∀ {w : Mgr}, w.trie.keys = dataKeys →
    (mgr ρ w).tAddPrincipal c (ρ.id p) m (rs.map ρ.id) = (w.tAddPrincipal c p m rs).map (res ρ) := by
  induction rs with
  | nil => intro w hk; rfl
  | cons r rs ih =>
    intro w hk
    rw [List.map_cons, Mgr.tAddPrincipal, Mgr.tAddPrincipal]
    apply bind_map (tAddPrincipalWithRole hk c p r m)
    intro x hx
    simp only [res]
    cases x.1 with
    | some e => rfl
    | none => exact ih ((keys_role hx).trans hk)

theorem tAssignScopes (c : Nat) (p : Str) (m : Bool) (ss : List Str) : ∀ {w : Mgr}, w.trie.keys = dataKeys →
    (mgr ρ w).tAssignScopes c (ρ.id p) m (ss.map ρ.id) = (w.tAssignScopes c p m ss).map (res ρ) := by
  induction ss with
  | nil => intro w hk; rfl
  | cons s ss ih =>
    intro w hk
    rw [List.map_cons, Mgr.tAssignScopes, Mgr.tAssignScopes]
    apply bind_map (tAddScopeToPrincipal hk c p s m)
    intro x hx
    simp only [res]
    cases x.1 with
    | some e => rfl
    | none => exact ih ((keys_scope hx).trans hk)

/-! ## Queries and decisions -/

theorem collectI_map2 {α α' β β' : Type} {f : Nat → α → Out (List β)} {f' : Nat → α' → Out (List β')} {m : α → α'} {k : β → β'}
    (h : ∀ i x, f' i (m x) = (f i x).map (·.map k)) (i : Nat) (l : List α) :
    Out.collectI f' i (l.map m) = (Out.collectI f i l).map (·.map k) := by
  induction l generalizing i with
  | nil => rfl
  | cons x l ih =>
    simp only [List.map_cons, Out.collectI, h, ih]
    cases f i x <;> simp
    cases Out.collectI f (i + 1) l <;> simp

theorem descendants {σ σ' : List Val → List Nat} (hs : SameOrders ρ σ σ') (n : Nat) (site : List Val) (c : Nat) :
    (mgr ρ w).descendants (.byIndex σ') n (site.map ρ.val) c = (w.descendants (.byIndex σ) n site c).map (·.map ρ.id) := by
  induction n generalizing site c with
  | zero => rfl
  | succ n ih =>
    rw [Mgr.descendants, Mgr.descendants, mgr_tobjs]
    cases w.tobjs[c]? with
    | none => rfl
    | some t =>
      simp only [Option.map_some, tenant, mapKeys]
      rw [ord_map hs]
      apply collectI_map2
      intro i e
      have := ih (site ++ [.int i]) e.2
      simp only [List.map_append, List.map_cons, List.map_nil, val_int] at this
      simp only [this]
      cases w.descendants (.byIndex σ) n (site ++ [.int i]) e.2 <;> simp

theorem compactLoop_map (ks r l : List Val) : compactLoop (ks.map ρ.val) (r.map ρ.val) (l.map ρ.val) = (compactLoop ks r l).map ρ.val := by
  induction l generalizing ks r with
  | nil => rfl
  | cons v l ih =>
    have : ρ.val v ∈ ks.map ρ.val ↔ v ∈ ks := by simp
    simp only [List.map_cons, compactLoop, this]
    split
    · exact ih ks r
    · rw [← ih]; simp

theorem compact_map (l : List Val) : compact (l.map ρ.val) = (compact l).map ρ.val := compactLoop_map [] [] l

theorem tenantChildren {σ σ' : List Val → List Nat} (hs : SameOrders ρ σ σ') (fuel : Nat) (site : List Val) (id : Str) :
    (mgr ρ w).tenantChildren (.byIndex σ') fuel (site.map ρ.val) (ρ.id id) =
      (w.tenantChildren (.byIndex σ) fuel site id).map fun x => (x.1.map ρ.val, mgr ρ x.2) := by
  unfold Mgr.tenantChildren
  have h1 : (mgr ρ w).hierarchy.get (ρ.id id) = (w.hierarchy.get id).map (·.map ρ.val) := mapKV_get ρ.id_inj _ _
  have h2 : (mgr ρ w).tenants.get (ρ.id id) = w.tenants.get id := ids_get _ _
  rw [h1, h2]
  cases w.hierarchy.get id with
  | some l => rfl
  | none =>
    cases w.tenants.get id with
    | none => rfl
    | some c =>
      simp only [Option.map_none, descendants hs]
      cases w.descendants (.byIndex σ) fuel site c with
      | panic => rfl
      | diverge => rfl
      | ok ds =>
        have e : ((ds.map ρ.id).map Val.str) = (ds.map Val.str).map ρ.val := by simp
        have h3 : (mgr ρ w).hierarchy.set (ρ.id id) ((compact (ds.map Val.str)).map ρ.val) =
          mapKV ρ.id (·.map ρ.val) (w.hierarchy.set id (compact (ds.map Val.str))) := mapKV_set ρ.id_inj _ _ _
        simp only [Out.map_ok, e, compact_map, h3]
        rfl

theorem search {σ σ' : List Val → List Nat} (hs : SameOrders ρ σ σ') (site : List Val) {f f' : Data} {cb : Data → Data → Bool}
    (hf : f' = ρ.data f) (hc : ∀ a b, cb (ρ.data a) (ρ.data b) = cb a b) :
    (mgr ρ w).search (.byIndex σ') (site.map ρ.val) f' cb = (w.search (.byIndex σ) site f cb).map ρ.data := by
  subst hf
  unfold Mgr.search Trie.searchFunc Trie.search
  have := node_dfs hs (cb := cb f) (cb' := cb (ρ.data f)) (hc f) false (site ++ [.nil]) w.trie.root []
  simp only [List.map_append, List.map_cons, List.map_nil, val_nil] at this
  exact congrArg Prod.snd this

theorem addDescs_map (E : List Str) (l : List Val) : Mgr.addDescs (E.map ρ.id) (l.map ρ.val) = (Mgr.addDescs E l).map (·.map ρ.id) := by
  induction l generalizing E with
  | nil => rfl
  | cons v l ih =>
    cases v with
    | nil => exact ih E
    | bool b => rfl
    | int n => rfl
    | str s =>
      simp only [List.map_cons, val_str, Mgr.addDescs]
      rw [← ih]
      have : ρ.id s ∈ E.map ρ.id ↔ s ∈ E := by simp
      simp only [this]
      split <;> simp

theorem implicitLoop {σ σ' : List Val → List Nat} (hs : SameOrders ρ σ σ') (fuel : Nat) (site : List Val) (rows : List Data) :
    ∀ (i : Nat) (E : List Str) (w : Mgr), Mgr.implicitLoop (.byIndex σ') fuel (site.map ρ.val) i (rows.map ρ.data) (E.map ρ.id) (mgr ρ w) =
      (Mgr.implicitLoop (.byIndex σ) fuel site i rows E w).map fun x => (x.1.map ρ.id, mgr ρ x.2) := by
  induction rows with
  | nil => intro i E w; rfl
  | cons rs rest ih =>
    intro i E w
    rw [List.map_cons, Mgr.implicitLoop, Mgr.implicitLoop, data_tenant, data_manage]
    cases ht : rs.tenant with
    | nil => rfl
    | bool b => rfl
    | int n => rfl
    | str t =>
      have : ρ.id t ∈ E.map ρ.id ↔ t ∈ E := by simp
      simp only [val_str, this, val_eq_bool]
      split
      · exact ih _ E w
      · split
        · have hT := tenantChildren (w := w) hs fuel (site ++ [.int i]) t
          simp only [List.map_append, List.map_cons, List.map_nil, val_int] at hT
          apply bind_map hT
          intro x hx
          have hE := addDescs_map (ρ := ρ) (E ++ [t]) x.1
          simp only [List.map_append, List.map_cons, List.map_nil] at hE
          apply bind_map hE
          intro E' _
          exact ih _ E' x.2
        · have := ih (i + 1) (E ++ [t]) w
          simp only [List.map_append, List.map_cons, List.map_nil] at this
          exact this

theorem implicitTenants {σ σ' : List Val → List Nat} (hs : SameOrders ρ σ σ') (fuel : Nat) (site : List Val) (p : Str) :
    (mgr ρ w).implicitTenants (.byIndex σ') fuel (site.map ρ.val) (ρ.id p) =
      (w.implicitTenants (.byIndex σ) fuel site p).map fun x => (x.1.map ρ.id, mgr ρ x.2) := by
  unfold Mgr.implicitTenants
  have h1 : (mgr ρ w).pcache.get (ρ.id p) = (w.pcache.get p).map (·.map ρ.id) := mapKV_get ρ.id_inj _ _
  rw [h1]
  cases w.pcache.get p with
  | some I => rfl
  | none =>
    have hS := search (w := w) (ρ := ρ) (f := { principal := .str p }) (f' := { principal := .str (ρ.id p) }) (cb := filterTenantsByPrincipal) hs (site ++ [.int 0]) rfl
      (by intro a b; simp [filterTenantsByPrincipal, matchPrincipal])
    simp only [List.map_append, List.map_cons, List.map_nil, val_int] at hS
    simp only [Option.map_none, hS]
    have hL := implicitLoop (ρ := ρ) hs fuel (site ++ [.int 1]) (w.search (.byIndex σ) (site ++ [.int 0]) { principal := .str p } filterTenantsByPrincipal) 0 [] w
    simp only [List.map_append, List.map_cons, List.map_nil, val_int] at hL
    rw [hL]
    cases Mgr.implicitLoop (.byIndex σ) fuel (site ++ [.int 1]) 0 (w.search (.byIndex σ) (site ++ [.int 0]) { principal := .str p } filterTenantsByPrincipal) [] w with
    | panic => rfl
    | diverge => rfl
    | ok x =>
      have h3 : (mgr ρ x.2).pcache.set (ρ.id p) (x.1.map ρ.id) = mapKV ρ.id (·.map ρ.id) (x.2.pcache.set p x.1) := mapKV_set ρ.id_inj _ _ _
      simp only [Out.map_ok, h3]
      rfl

/-- A request with its ids and group renamed. -/
def request (ρ : Renaming) (r : Request) : Request :=
  { tenant := ρ.val r.tenant, namespace_ := ρ.val r.namespace_, scope := ρ.val r.scope, group := ρ.groupVal r.group, activity := r.activity }

theorem foldl_opts (opts : List Opt) (r : Request) : (opts.map ρ.opt).foldl Opt.apply (request ρ r) = request ρ (opts.foldl Opt.apply r) := by
  induction opts generalizing r with
  | nil => rfl
  | cons x opts ih =>
    rw [List.map_cons, List.foldl_cons, List.foldl_cons, ← ih]
    cases x <;> rfl

theorem flagsOf_request (r : Request) : flagsOf (request ρ r) = flagsOf r := by
  simp [flagsOf, request]
  by_cases h : r.activity = .nil <;> simp [h]

theorem validOne_map (m : GoMap Str Nat) (v : Val) : Mgr.validOne (mapKeys ρ.id m) (ρ.val v) = Mgr.validOne m v := by
  cases v <;> simp [Mgr.validOne]

theorem validateResources (r : Request) : (mgr ρ w).validateResources (request ρ r) = w.validateResources r := by
  have h1 := validOne_map (ρ := ρ) w.tenants r.tenant
  have h2 := validOne_map (ρ := ρ) w.namespaces r.namespace_
  have h3 := validOne_map (ρ := ρ) w.scopes r.scope
  simp only [Mgr.validateResources, mgr, request, h1, h2, h3]

theorem contains_map (v : Val) (l : List Val) : contains (ρ.val v) (l.map ρ.val) = contains v l := by
  induction l with
  | nil => rfl
  | cons x l ih => simp only [List.map_cons, contains, val_eq, ih]

theorem getIDs_map {f : Data → Val} (hf : ∀ d, f (ρ.data d) = ρ.val (f d)) (rows : List Data) (seen out : List Val) :
    getIDs f (seen.map ρ.val) (out.map ρ.val) (rows.map ρ.data) = (getIDs f seen out rows).map ρ.val := by
  induction rows generalizing seen out with
  | nil => rfl
  | cons r rows ih =>
    have : ρ.val (f r) ∈ seen.map ρ.val ↔ f r ∈ seen := by simp
    simp only [List.map_cons, getIDs, hf, this]
    split
    · exact ih seen out
    · rw [← ih]; simp

theorem concatI_map {α : Type} {f f' : Nat → α → List Data} {m : α → α} (h : ∀ i x, f' i (m x) = (f i x).map ρ.data) (i : Nat) (l : List α) :
    Mgr.concatI f' i (l.map m) = (Mgr.concatI f i l).map ρ.data := by
  induction l generalizing i with
  | nil => rfl
  | cons x l ih => simp only [List.map_cons, Mgr.concatI, h, ih, List.map_append]

section
variable {σ σ' : List Val → List Nat} (hs : SameOrders ρ σ σ')
include hs

theorem tenantsByPrincipal (site : List Val) (p : Str) :
    (mgr ρ w).tenantsByPrincipal (.byIndex σ') (site.map ρ.val) (.str (ρ.id p)) = (w.tenantsByPrincipal (.byIndex σ) site (.str p)).map ρ.val := by
  unfold Mgr.tenantsByPrincipal Mgr.searchFuncWrapper
  rw [search (f := { principal := .str p }) (f' := { principal := .str (ρ.id p) }) hs site rfl (by intro a b; simp [filterTenantsByPrincipal, matchPrincipal]), ← compact_map, List.map_map, List.map_map]
  rfl

theorem getTenants (site : List Val) (p : Str) :
    (mgr ρ w).getTenants (.byIndex σ') (site.map ρ.val) (.str (ρ.id p)) = (w.getTenants (.byIndex σ) site (.str p)).map ρ.data :=
  search (f := { principal := .str p }) hs site rfl (by intro a b; simp [filterTenantsByPrincipal, matchPrincipal])

theorem rolesByTenant (site : List Val) (t : Val) :
    (mgr ρ w).rolesByTenant (.byIndex σ') (site.map ρ.val) (ρ.val t) = (w.rolesByTenant (.byIndex σ) site t).map ρ.data :=
  search (f := { tenant := t }) hs site rfl (by intro a b; simp [filterRoleByTenant, matchTenant, matchRole])

theorem namespacesForPrincipalByTenant (site : List Val) (p : Str) (t : Val) :
    (mgr ρ w).namespacesForPrincipalByTenant (.byIndex σ') (site.map ρ.val) (.str (ρ.id p)) (ρ.val t) =
      (w.namespacesForPrincipalByTenant (.byIndex σ) site (.str p) t).map ρ.data :=
  search (f := { tenant := t, principal := .str p }) hs site rfl
    (by intro a b; simp [filterNamespaceForPrincipalByTenant, matchTenant, matchPrincipal])

theorem scopesForPrincipalByTenant (site : List Val) (p : Str) (t : Val) :
    (mgr ρ w).scopesForPrincipalByTenant (.byIndex σ') (site.map ρ.val) (.str (ρ.id p)) (ρ.val t) =
      (w.scopesForPrincipalByTenant (.byIndex σ) site (.str p) t).map ρ.data :=
  search (f := { tenant := t, principal := .str p }) hs site rfl
    (by intro a b; simp [filterScopeForPrincipalByTenant, matchTenant, matchPrincipal])

theorem scopesForPrincipalByTenantAndNamespace (site : List Val) (p : Str) (t n : Val) :
    (mgr ρ w).scopesForPrincipalByTenantAndNamespace (.byIndex σ') (site.map ρ.val) (.str (ρ.id p)) (ρ.val t) (ρ.val n) =
      (w.scopesForPrincipalByTenantAndNamespace (.byIndex σ) site (.str p) t n).map ρ.data :=
  search (f := { principal := .str p, tenant := t, namespace_ := n }) hs site rfl
    (by intro a b; simp [filterScopeForPrincipalByTenantAndNamespace, matchTenant, matchNamespace, matchPrincipal])

theorem scopeForPrincipalByNamespace (site : List Val) (p : Str) (n : Val) :
    (mgr ρ w).scopeForPrincipalByNamespace (.byIndex σ') (site.map ρ.val) (.str (ρ.id p)) (ρ.val n) =
      (w.scopeForPrincipalByNamespace (.byIndex σ) site (.str p) n).map ρ.data := by
  unfold Mgr.scopeForPrincipalByNamespace
  have := tenantsByPrincipal (w := w) hs (site ++ [.int 0]) p
  simp only [List.map_append, List.map_cons, List.map_nil, val_int] at this
  rw [this]
  apply concatI_map
  intro i t
  have := scopesForPrincipalByTenantAndNamespace (w := w) hs (site ++ [.int 1, .int i]) p t n
  simp only [List.map_append, List.map_cons, List.map_nil, val_int] at this
  exact this

theorem rolesTNS (site : List Val) (p : Str) (t n s : Val) :
    (mgr ρ w).rolesForPrincipalTNS (.byIndex σ') (site.map ρ.val) (.str (ρ.id p)) (ρ.val t) (ρ.val n) (ρ.val s) =
      (w.rolesForPrincipalTNS (.byIndex σ) site (.str p) t n s).map ρ.data :=
  search (f := { principal := .str p, tenant := t, namespace_ := n, scope := s }) hs site rfl
    (by intro a b; simp [filterRoleForPrincipalByTenantNamespaceAndScope, matchTenant, matchNamespace, matchScope, matchPrincipal])

theorem rolesTN (site : List Val) (p : Str) (t n : Val) :
    (mgr ρ w).rolesForPrincipalTN (.byIndex σ') (site.map ρ.val) (.str (ρ.id p)) (ρ.val t) (ρ.val n) =
      (w.rolesForPrincipalTN (.byIndex σ) site (.str p) t n).map ρ.data :=
  search (f := { principal := .str p, tenant := t, namespace_ := n }) hs site rfl
    (by intro a b; simp [filterRoleForPrincipalByTenantAndNamespace, matchTenant, matchNamespace, matchPrincipal])

theorem rolesTS (site : List Val) (p : Str) (t s : Val) :
    (mgr ρ w).rolesForPrincipalTS (.byIndex σ') (site.map ρ.val) (.str (ρ.id p)) (ρ.val t) (ρ.val s) =
      (w.rolesForPrincipalTS (.byIndex σ) site (.str p) t s).map ρ.data :=
  search (f := { principal := .str p, tenant := t, scope := s }) hs site rfl
    (by intro a b; simp [filterRoleForPrincipalByTenantAndScope, matchTenant, matchScope, matchPrincipal])

theorem checkNoActivity (site : List Val) (p : Str) (r : Request) (f : Flags) :
    (mgr ρ w).checkNoActivity (.byIndex σ') (site.map ρ.val) (ρ.id p) (request ρ r) f = w.checkNoActivity (.byIndex σ) site p r f := by
  have hn : ∀ rows : List Data, getIDs (·.namespace_) [] [] (rows.map ρ.data) = (getIDs (·.namespace_) [] [] rows).map ρ.val :=
    fun rows => getIDs_map (f := (·.namespace_)) (fun _ => rfl) rows [] []
  have hc : ∀ rows : List Data, getIDs (·.scope) [] [] (rows.map ρ.data) = (getIDs (·.scope) [] [] rows).map ρ.val :=
    fun rows => getIDs_map (f := (·.scope)) (fun _ => rfl) rows [] []
  simp only [Mgr.checkNoActivity, request, tenantsByPrincipal hs, namespacesForPrincipalByTenant hs, scopesForPrincipalByTenant hs,
    scopesForPrincipalByTenantAndNamespace hs, scopeForPrincipalByNamespace hs, hn, hc, contains_map]

end

theorem appendRoles_map {keep keep' : Data → Bool} (h : ∀ d, keep' (ρ.data d) = keep d) (rows : List Data) :
    Mgr.appendRoles keep' (rows.map ρ.data) = (Mgr.appendRoles keep rows).map (·.map ρ.id) := by
  induction rows with
  | nil => rfl
  | cons d rows ih =>
    rw [List.map_cons, Mgr.appendRoles, Mgr.appendRoles, h, data_role]
    cases hr : d.role with
    | nil => simpa using ih
    | bool b => simp; split <;> [rfl; exact ih]
    | int b => simp; split <;> [rfl; exact ih]
    | str s =>
      simp only [val_str, ih]
      simp
      split
      · cases Mgr.appendRoles keep rows <;> rfl
      · rfl

/-- The names of the roles and of the allowed roles, renamed. -/
def names (ρ : Renaming) (x : List Str × List Str) : List Str × List Str := (x.1.map ρ.id, x.2.map ρ.id)

section
variable {σ σ' : List Val → List Nat} (hs : SameOrders ρ σ σ')
include hs

theorem collectRoles (site : List Val) (p : Str) (t : Val) :
    (mgr ρ w).collectRoles (.byIndex σ') (site.map ρ.val) (ρ.id p) (ρ.val t) = (w.collectRoles (.byIndex σ) site p t).map (names ρ) := by
  have := rolesByTenant (w := w) hs (site ++ [.int 0]) t
  simp only [List.map_append, List.map_cons, List.map_nil, val_int] at this
  simp only [Mgr.collectRoles, this]
  apply bind_map (appendRoles_map (by intro d; simp) _)
  intro a _
  rw [appendRoles_map (keep := fun _ => true) (fun _ => rfl)]
  cases Mgr.appendRoles (fun _ => true) (w.rolesByTenant (.byIndex σ) (site ++ [.int 0]) t) <;> rfl

theorem collectRolesTN (site : List Val) (p : Str) (t n : Val) :
    (mgr ρ w).collectRolesTN (.byIndex σ') (site.map ρ.val) (ρ.id p) (ρ.val t) (ρ.val n) = (w.collectRolesTN (.byIndex σ) site p t n).map (names ρ) := by
  have h1 := rolesByTenant (w := w) hs (site ++ [.int 0]) t
  have h2 := rolesTN (w := w) hs (site ++ [.int 1]) p t n
  simp only [List.map_append, List.map_cons, List.map_nil, val_int] at h1 h2
  simp only [Mgr.collectRolesTN, h1, h2]
  apply bind_map (appendRoles_map (fun _ => rfl) _)
  intro a _
  rw [appendRoles_map (keep := fun d => d.namespace_ = .nil || d.namespace_ = n) (by intro d; simp)]
  cases Mgr.appendRoles (fun d => d.namespace_ = .nil || d.namespace_ = n) (w.rolesForPrincipalTN (.byIndex σ) (site ++ [.int 1]) (.str p) t n) <;> rfl

theorem collectRolesTS (site : List Val) (p : Str) (t s : Val) :
    (mgr ρ w).collectRolesTS (.byIndex σ') (site.map ρ.val) (ρ.id p) (ρ.val t) (ρ.val s) = (w.collectRolesTS (.byIndex σ) site p t s).map (names ρ) := by
  have h1 := rolesByTenant (w := w) hs (site ++ [.int 0]) t
  have h2 := rolesTS (w := w) hs (site ++ [.int 1]) p t s
  simp only [List.map_append, List.map_cons, List.map_nil, val_int] at h1 h2
  simp only [Mgr.collectRolesTS, h1, h2]
  apply bind_map (appendRoles_map (fun _ => rfl) _)
  intro a _
  rw [appendRoles_map (keep := fun d => d.scope = .nil || d.scope = s) (by intro d; simp)]
  cases Mgr.appendRoles (fun d => d.scope = .nil || d.scope = s) (w.rolesForPrincipalTS (.byIndex σ) (site ++ [.int 1]) (.str p) t s) <;> rfl

theorem collectRolesTNS (site : List Val) (p : Str) (t n s : Val) :
    (mgr ρ w).collectRolesTNS (.byIndex σ') (site.map ρ.val) (ρ.id p) (ρ.val t) (ρ.val n) (ρ.val s) =
      (w.collectRolesTNS (.byIndex σ) site p t n s).map (names ρ) := by
  have h1 := rolesByTenant (w := w) hs (site ++ [.int 0]) t
  have h2 := rolesTNS (w := w) hs (site ++ [.int 1]) p t n s
  simp only [List.map_append, List.map_cons, List.map_nil, val_int] at h1 h2
  simp only [Mgr.collectRolesTNS, h1, h2]
  apply bind_map (appendRoles_map (fun _ => rfl) _)
  intro a _
  rw [appendRoles_map (keep := fun d => (d.namespace_ = .nil || d.namespace_ = n) && (d.scope = .nil || d.scope = s)) (by intro d; simp)]
  cases Mgr.appendRoles (fun d => (d.namespace_ = .nil || d.namespace_ = n) && (d.scope = .nil || d.scope = s))
    (w.rolesForPrincipalTNS (.byIndex σ) (site ++ [.int 1]) (.str p) t n s) <;> rfl

theorem collectRolesNSLoop (site : List Val) (p : Str) (n s : Val) (rows : List Data) : ∀ i,
    (mgr ρ w).collectRolesNSLoop (.byIndex σ') (site.map ρ.val) (ρ.id p) (ρ.val n) (ρ.val s) i (rows.map ρ.data) =
      (w.collectRolesNSLoop (.byIndex σ) site p n s i rows).map (names ρ) := by
  induction rows with
  | nil => intro i; rfl
  | cons t ts ih =>
    intro i
    rw [List.map_cons, Mgr.collectRolesNSLoop, Mgr.collectRolesNSLoop, data_tenant]
    have h1 := collectRolesTNS (w := w) hs (site ++ [.int i]) p t.tenant n s
    simp only [List.map_append, List.map_cons, List.map_nil, val_int] at h1
    apply bind_map h1
    intro x _
    rw [ih]
    cases w.collectRolesNSLoop (.byIndex σ) site p n s (i + 1) ts <;> simp [names]

theorem collectRolesNS (site : List Val) (p : Str) (n s : Val) :
    (mgr ρ w).collectRolesNS (.byIndex σ') (site.map ρ.val) (ρ.id p) (ρ.val n) (ρ.val s) =
      (w.collectRolesNS (.byIndex σ) site p n s).map (names ρ) := by
  have h1 := getTenants (w := w) hs (site ++ [.int 0]) p
  have h2 := fun rows => collectRolesNSLoop (w := w) hs (site ++ [.int 1]) p n s rows 0
  simp only [List.map_append, List.map_cons, List.map_nil, val_int] at h1 h2
  simp only [Mgr.collectRolesNS, h1, h2]

end

/-! The tenant's roles are never found (C62), so the list of allowed roles stays empty; otherwise the empty texts that
`slices.Compact` leaves behind would be ids that no caller gave. -/

section
variable {o : Ord}

theorem allowed_nil {site : List Val} {t : Val} (inv : w.Inv) : Mgr.appendRoles (fun _ => true) (w.rolesByTenant o site t) = .ok [] := by
  rw [Mgr.rolesByTenant_nil inv]; rfl

theorem collectRoles_allowed (inv : w.Inv) {site : List Val} {p : Str} {t : Val} {x : List Str × List Str}
    (h : w.collectRoles o site p t = .ok x) : x.2 = [] := by
  unfold Mgr.collectRoles at h
  simp only [allowed_nil inv] at h
  obtain ⟨a, _, h⟩ := Out.bind_eq_ok.1 h
  cases h; rfl

theorem collectRolesTN_allowed (inv : w.Inv) {site : List Val} {p : Str} {t n : Val} {x : List Str × List Str}
    (h : w.collectRolesTN o site p t n = .ok x) : x.2 = [] := by
  unfold Mgr.collectRolesTN at h
  simp only [allowed_nil inv, Out.bind_ok] at h
  obtain ⟨a, _, rfl⟩ := Out.map_eq_ok.1 h
  rfl

theorem collectRolesTS_allowed (inv : w.Inv) {site : List Val} {p : Str} {t s : Val} {x : List Str × List Str}
    (h : w.collectRolesTS o site p t s = .ok x) : x.2 = [] := by
  unfold Mgr.collectRolesTS at h
  simp only [allowed_nil inv, Out.bind_ok] at h
  obtain ⟨a, _, rfl⟩ := Out.map_eq_ok.1 h
  rfl

theorem collectRolesTNS_allowed (inv : w.Inv) {site : List Val} {p : Str} {t n s : Val} {x : List Str × List Str}
    (h : w.collectRolesTNS o site p t n s = .ok x) : x.2 = [] := by
  unfold Mgr.collectRolesTNS at h
  simp only [allowed_nil inv, Out.bind_ok] at h
  obtain ⟨a, _, rfl⟩ := Out.map_eq_ok.1 h
  rfl

theorem collectRolesNSLoop_allowed (inv : w.Inv) {site : List Val} {p : Str} {n s : Val} {rows : List Data} : ∀ {i : Nat} {x : List Str × List Str},
    w.collectRolesNSLoop o site p n s i rows = .ok x → x.2 = [] := by
  induction rows with
  | nil => intro i x h; cases h; rfl
  | cons t ts ih =>
    intro i x h
    rw [Mgr.collectRolesNSLoop, Out.bind_eq_ok] at h
    obtain ⟨a, h1, h⟩ := h
    obtain ⟨b, h2, rfl⟩ := Out.map_eq_ok.1 h
    simp only [collectRolesTNS_allowed inv h1, ih h2, List.append_nil]

theorem pick_allowed {b : Bool} {c : Out (List Str × List Str)} {old x : List Str × List Str} (h : Mgr.pick b c old = .ok x)
    (hc : ∀ y, c = .ok y → y.2 = []) (ho : old.2 = []) : x.2 = [] := by
  unfold Mgr.pick at h
  split at h
  · exact hc x h
  · cases h; exact ho

end

theorem pick_map {b : Bool} {c c' : Out (List Str × List Str)} {old : List Str × List Str} (hc : c' = c.map (names ρ)) :
    Mgr.pick b c' (names ρ old) = (Mgr.pick b c old).map (names ρ) := by
  unfold Mgr.pick
  split
  · exact hc
  · rfl

theorem slicesCompact_map (l : List Str) : slicesCompact (l.map ρ.id) = (slicesCompact l).map ρ.id := by
  fun_induction slicesCompact l <;> simp_all [slicesCompact]

section
variable {σ σ' : List Val → List Nat} (hs : SameOrders ρ σ σ')
include hs

theorem roleLoop (fuel : Nat) (site : List Val) (r : Request) (rs : List Str) : ∀ i,
    (mgr ρ w).roleLoop (.byIndex σ') fuel (site.map ρ.val) (request ρ r) i [] (rs.map ρ.id) = w.roleLoop (.byIndex σ) fuel site r i [] rs := by
  induction rs with
  | nil => intro i; rfl
  | cons x rs ih =>
    intro i
    rw [List.map_cons, Mgr.roleLoop, Mgr.roleLoop]
    have h1 : (mgr ρ w).roles.get (ρ.id x) = w.roles.get x := ids_get _ _
    rw [h1]
    cases w.roles.get x with
    | none => exact ih _
    | some a =>
      simp only [request]
      cases hg : r.group with
      | nil => rfl
      | bool b => rfl
      | int n => rfl
      | str g =>
        cases ha : r.activity with
        | nil => rfl
        | bool b => rfl
        | int n => rfl
        | str act =>
          have h2 := has hs w.heap g act [] fuel (site ++ [.int i]) a
          simp only [List.map_append, List.map_cons, List.map_nil, val_int] at h2
          have h3 : (mgr ρ w).heap = heap ρ w.heap := rfl
          have h4 := ih (i + 1)
          simp only [request, hg, ha, Renaming.groupVal] at h4
          simp only [Renaming.groupVal, slicesCompact, slicesCompactRest, List.length_nil, Nat.sub_self, List.replicate_zero, List.append_nil, h3, h2, h4]

theorem checkActivity (inv : w.Inv) (fuel : Nat) (site : List Val) (p : Str) (r : Request) (f : Flags) :
    (mgr ρ w).checkActivity (.byIndex σ') fuel (site.map ρ.val) (ρ.id p) (request ρ r) f = w.checkActivity (.byIndex σ) fuel site p r f := by
  unfold Mgr.checkActivity
  have e1 : (request ρ r).group = ρ.groupVal r.group := rfl
  have e2 : (request ρ r).activity = r.activity := rfl
  rw [e1, e2]
  simp only [groupVal_eq_nil]
  split
  · rfl
  · split
    · rfl
    · have c1 := collectRoles (w := w) hs (site ++ [.int 0]) p r.tenant
      have c2 := collectRolesTN (w := w) hs (site ++ [.int 1]) p r.tenant r.namespace_
      have c3 := collectRolesTS (w := w) hs (site ++ [.int 2]) p r.tenant r.scope
      have c4 := collectRolesNS (w := w) hs (site ++ [.int 3]) p r.namespace_ r.scope
      have c5 := collectRolesTNS (w := w) hs (site ++ [.int 4]) p r.tenant r.namespace_ r.scope
      have c6 := fun rs => roleLoop (w := w) hs fuel (site ++ [.int 5]) r rs 0
      simp only [List.map_append, List.map_cons, List.map_nil, val_int] at c1 c2 c3 c4 c5 c6
      have step : ∀ {γ : Type} {x x' : Out (List Str × List Str)} {k k' : List Str × List Str → Out γ}, x' = x.map (names ρ) →
          (∀ a, x = .ok a → k' (names ρ a) = k a) → x'.bind k' = x.bind k := by
        intro γ x x' k k' hx hk
        subst hx
        cases x with
        | ok a => exact hk a rfl
        | panic => rfl
        | diverge => rfl
      apply step (pick_map (old := ([], [])) c1)
      intro x1 h1
      have a1 := pick_allowed h1 (fun _ h => collectRoles_allowed inv h) rfl
      apply step (pick_map c2)
      intro x2 h2
      have a2 := pick_allowed h2 (fun _ h => collectRolesTN_allowed inv h) a1
      apply step (pick_map c3)
      intro x3 h3
      have a3 := pick_allowed h3 (fun _ h => collectRolesTS_allowed inv h) a2
      apply step (pick_map c4)
      intro x4 h4
      have a4 := pick_allowed h4 (fun _ h => collectRolesNSLoop_allowed inv h) a3
      apply step (pick_map c5)
      intro x5 h5
      have a5 := pick_allowed h5 (fun _ h => collectRolesTNS_allowed inv h) a4
      simp only [names, List.length_map, a5, List.map_nil, slicesCompact_map, c6]

theorem check (inv : w.Inv) (fuel : Nat) (site : List Val) (p : Str) (r : Request) (f : Flags) :
    (mgr ρ w).check (.byIndex σ') fuel (site.map ρ.val) (ρ.id p) (request ρ r) f = w.check (.byIndex σ) fuel site p r f := by
  unfold Mgr.check
  rw [checkNoActivity hs, checkActivity hs inv]

theorem fallback (inv : w.Inv) (fuel : Nat) (site : List Val) (p : Str) (f : Flags) (ts : List Str) : ∀ (i : Nat) (r : Request),
    (mgr ρ w).fallback (.byIndex σ') fuel (site.map ρ.val) (ρ.id p) f i (request ρ r) (ts.map ρ.id) =
      w.fallback (.byIndex σ) fuel site p f i r ts := by
  induction ts with
  | nil => intro i r; rfl
  | cons t ts ih =>
    intro i r
    rw [List.map_cons, Mgr.fallback, Mgr.fallback]
    have h1 : ((request ρ r).tenant = .str (ρ.id t)) ↔ r.tenant = .str t := val_eq_str
    have h2 : ((request ρ r).tenant = .nil) ↔ r.tenant = .nil := val_eq_nil
    have h3 := check (w := w) hs inv fuel (site ++ [.int i]) p { r with tenant := .str t } f
    simp only [List.map_append, List.map_cons, List.map_nil, val_int] at h3
    have h4 : ({ request ρ r with tenant := .str (ρ.id t) } : Request) = request ρ { r with tenant := .str t } := rfl
    simp only [ne_eq, h1, h2, h4, h3, ih]

theorem authorize (inv : w.Inv) (fuel : Nat) (site : List Val) (p : Str) (opts : List Opt) :
    (mgr ρ w).authorize (.byIndex σ') fuel (site.map ρ.val) (ρ.id p) (opts.map ρ.opt) =
      (w.authorize (.byIndex σ) fuel site p opts).map fun x => (x.1, mgr ρ x.2) := by
  unfold Mgr.authorize
  have h1 : (mgr ρ w).principals.get (ρ.id p) = w.principals.get p := ids_get _ _
  rw [h1]
  split
  · rfl
  · have h2 := implicitTenants (w := w) hs fuel (site ++ [.int 0]) p
    simp only [List.map_append, List.map_cons, List.map_nil, val_int] at h2
    apply bind_map h2
    intro x hx
    have ix := (Mgr.implicitTenants_inv inv hx).1
    have h3 := foldl_opts (ρ := ρ) opts {}
    have h0 : request ρ {} = {} := rfl
    rw [h0] at h3
    simp only [List.length_map, h3, validateResources, flagsOf_request]
    split
    · rfl
    · cases x.2.validateResources (opts.foldl Opt.apply {}) with
      | panic => rfl
      | diverge => rfl
      | ok v =>
        simp only [Out.bind_ok]
        split
        · rfl
        · have h4 := check (w := x.2) hs ix fuel (site ++ [.int 1]) p (opts.foldl Opt.apply {}) (flagsOf (opts.foldl Opt.apply {}))
          have h5 := ord_map hs (site ++ [.int 3]) ρ.id x.1
          have h6 := fun ts => fallback (w := x.2) hs ix fuel (site ++ [.int 2]) p (flagsOf (opts.foldl Opt.apply {})) ts 0 (opts.foldl Opt.apply {})
          simp only [List.map_append, List.map_cons, List.map_nil, val_int] at h4 h5 h6
          rw [h4]
          cases x.2.check (.byIndex σ) fuel (site ++ [.int 1]) p (opts.foldl Opt.apply {}) (flagsOf (opts.foldl Opt.apply {})) with
          | panic => rfl
          | diverge => rfl
          | ok b =>
            simp only [Out.bind_ok]
            split
            · rfl
            · rw [h5, h6]
              cases x.2.fallback (.byIndex σ) fuel (site ++ [.int 2]) p (flagsOf (opts.foldl Opt.apply {})) 0 (opts.foldl Opt.apply {})
                ((Ord.byIndex σ).ord (site ++ [.int 3]) _ x.1) <;> rfl

end

/-! ## Histories -/

theorem apply {op op' : MOp} (hr : Renamed ρ op op') (inv : w.Inv) : op'.apply (mgr ρ w) = (op.apply w).map (mgr ρ) := by
  have hk := inv.trie.keysEq
  have snd : ∀ {x x' : Out (Option Err × Mgr)}, x' = x.map (res ρ) → x'.map (·.2) = (x.map (·.2)).map (mgr ρ) := by
    intro x x' h; subst h; cases x <;> rfl
  cases hr with
  | role op =>
    simp only [MOp.apply]
    have : (mgr ρ w).heap = heap ρ w.heap := rfl
    rw [this, roleOp]
    cases op.apply w.heap <;> rfl
  | newTenant id => simp [MOp.apply, Mgr.newTenant, mgr, tenant, mapKeys]
  | addTenant a =>
    simp only [MOp.apply, Mgr.addTenant, mgr_tobjs]
    cases w.tobjs[a]? with
    | none => rfl
    | some t =>
      have : register (mgr ρ w).tenants (tenant ρ t).id a = _ := register_ids w.tenants t.id a
      simp only [Option.map_some, this, Out.map_ok]
      simp [mgr, tenant]
  | addNamespace id obj => simp [MOp.apply, Mgr.addNamespace, mgr, register_ids]
  | addScope id obj => simp [MOp.apply, Mgr.addScope, mgr, register_ids]
  | addPrincipal id obj => simp [MOp.apply, Mgr.addPrincipal, mgr, register_ids]
  | addRole r =>
    have : (mgr ρ w).heap = heap ρ w.heap := rfl
    simp only [MOp.apply, Mgr.addRole, this, heap_roles]
    cases w.heap.roles[r]? with
    | none => rfl
    | some ro =>
      have : register (mgr ρ w).roles (role ρ ro).id r = _ := register_ids w.roles ro.id r
      simp only [Option.map_some, this, Out.map_ok]
      rfl
  | addAttribute a obj => simp [MOp.apply, Mgr.addAttribute, mgr]
  | addAttributeGroup ga =>
    have : (mgr ρ w).heap = heap ρ w.heap := rfl
    simp only [MOp.apply, Mgr.addAttributeGroup, this, heap_groups]
    cases w.heap.groups[ga]? with
    | none => rfl
    | some go =>
      have : register (mgr ρ w).attrGroups (group ρ go).id ga = _ := register_groups w.attrGroups go.id ga
      simp only [Option.map_some, this, Out.map_ok]
      rfl
  | addData d => exact addData hk d
  | tAddNamespace c n => exact tAddNamespace hk c n
  | tAddScopesToNamespace c n s => exact tAddScopesToNamespace hk c n s
  | tSetDefaultNamespace c n => exact tSetDefaultNamespace c n
  | tAddPrincipalInNamespace c p n r => exact tAddPrincipalInNamespace hk c p n r
  | tAddRole c r => exact tAddRole hk c r
  | tAddScope c s => exact tAddScope hk c s
  | tAddDescendant c ds => exact tAddDescendant c ds hk
  | tAddPrincipalWithRole c p r m => exact snd (tAddPrincipalWithRole hk c p r m)
  | tAddPrincipal c p m rs => exact snd (tAddPrincipal c p m rs hk)
  | tAddScopeToPrincipal c p s m => exact snd (tAddScopeToPrincipal hk c p s m)
  | tAssignScopes c p m ss => exact snd (tAssignScopes c p m ss hk)
  | addPermissionsToRole r g as =>
    have h0 : (mgr ρ w).heap = heap ρ w.heap := rfl
    have h1 : (mgr ρ w).roles.get (ρ.id r) = w.roles.get r := ids_get _ _
    have h2 : (mgr ρ w).attrGroups.get (ρ.group g) = w.attrGroups.get g := groups_get _ _
    simp only [MOp.apply, RHeap.addPermissionsToRole, h0, h1, h2]
    cases w.roles.get r with
    | none => rfl
    | some a =>
      cases w.attrGroups.get g with
      | none => rfl
      | some ga =>
        simp only [heap_groups]
        cases w.heap.groups[ga]? with
        | none => rfl
        | some go =>
          have h3 : ∀ as, RHeap.allAssociated (group ρ go) as = RHeap.allAssociated go as := by
            intro as
            induction as with
            | nil => rfl
            | cons a as ih => simp only [RHeap.allAssociated, ih]; rfl
          simp only [Option.map_some, h3]
          split
          · have := roleOp (ρ := ρ) (.addPerm a g as) w.heap
            simp only [Renaming.roleOp, RoleOp.apply] at this
            cases h4 : (heap ρ w.heap).addPermission a (ρ.group g) as <;> cases h5 : w.heap.addPermission a g as <;>
              rw [h4, h5] at this <;> simp at this ⊢
            rw [this]; rfl
          · rfl
  | tenantChildren σ σ' fuel site id hs =>
    simp only [MOp.apply, tenantChildren hs]
    cases w.tenantChildren (.byIndex σ) fuel site id <;> rfl
  | implicitTenants σ σ' fuel site p hs =>
    simp only [MOp.apply, implicitTenants hs]
    cases w.implicitTenants (.byIndex σ) fuel site p <;> rfl
  | authorize σ σ' fuel site p opts hs =>
    simp only [MOp.apply, authorize hs inv]
    cases w.authorize (.byIndex σ) fuel site p opts <;> rfl

theorem run {ops ops' : List MOp} (hr : List.Forall₂ (Renamed ρ) ops ops') : ∀ {w : Mgr}, w.Inv →
    MOp.run (mgr ρ w) ops' = (MOp.run w ops).map (mgr ρ) := by
  induction hr with
  | nil => intro w _; rfl
  | cons h _ ih =>
    intro w inv
    rw [MOp.run, MOp.run]
    exact bind_map (apply h inv) fun w1 h1 => ih (MOp.apply_inv inv h1)

end Opaque

/-! ## Theorems -/

/-- C141. Two histories that differ only in their ids and group names, different names for different names: if one of
them completes then so does the other, and afterwards every request and its renamed form have the same outcome. -/
theorem Mgr.C141_opaque (ρ : Renaming) {ops ops' : List MOp} (hr : List.Forall₂ (Renamed ρ) ops ops') {w : Mgr} (h : MOp.run {} ops = .ok w) :
    ∃ w', MOp.run {} ops' = .ok w' ∧
      ∀ (σ σ' : List Val → List Nat), SameOrders ρ σ σ' → ∀ (fuel : Nat) (site : List Val) (p : Str) (opts : List Opt),
        (w'.authorize (.byIndex σ') fuel (site.map ρ.val) (ρ.id p) (opts.map ρ.opt)).map (·.1) =
          (w.authorize (.byIndex σ) fuel site p opts).map (·.1) := by
  have h0 : MOp.run {} ops' = (MOp.run {} ops).map (Opaque.mgr ρ) := Opaque.run hr Mgr.Inv.empty
  rw [h] at h0
  refine ⟨_, h0, fun σ σ' hs fuel site p opts => ?_⟩
  rw [Opaque.authorize hs (MOp.reachable_inv h)]
  cases w.authorize (.byIndex σ) fuel site p opts <;> rfl

/-- C141. A history panics or does not return exactly if its renamed form does. -/
theorem Mgr.C141_outcome (ρ : Renaming) {ops ops' : List MOp} (hr : List.Forall₂ (Renamed ρ) ops ops') :
    (MOp.run {} ops' = .panic ↔ MOp.run {} ops = .panic) ∧ (MOp.run {} ops' = .diverge ↔ MOp.run {} ops = .diverge) := by
  have h0 : MOp.run {} ops' = (MOp.run {} ops).map (Opaque.mgr ρ) := Opaque.run hr Mgr.Inv.empty
  rw [h0]
  cases MOp.run {} ops <;> simp

/-- C141. The answers a request can get, over all orders of the loops, are those of its renamed form. -/
theorem Mgr.C141_answers (ρ : Renaming) {ops ops' : List MOp} (hr : List.Forall₂ (Renamed ρ) ops ops') {w w' : Mgr}
    (h : MOp.run {} ops = .ok w) (h' : MOp.run {} ops' = .ok w') (fuel : Nat) (p : Str) (opts : List Opt) (b : Bool)
    (hb : ∃ σ w1, w.authorize (.byIndex σ) fuel [] p opts = .ok (b, w1)) :
    ∃ σ w1, w'.authorize (.byIndex σ) fuel [] (ρ.id p) (opts.map ρ.opt) = .ok (b, w1) := by
  obtain ⟨σ, w1, hb⟩ := hb
  obtain ⟨σ', hs⟩ := Opaque.exists_sameOrders ρ σ
  obtain ⟨w2, h2, h3⟩ := Mgr.C141_opaque ρ hr h
  rw [h'] at h2
  cases h2
  have := h3 σ σ' hs fuel [] p opts
  rw [hb] at this
  obtain ⟨⟨b1, w3⟩, h4, h5⟩ := Out.map_eq_ok.1 this
  simp only at h5
  subst h5
  exact ⟨σ', w3, h4⟩

/-! ## Examples -/

namespace Opaque

/-- Put an `x` before every id and a `g` before every group. -/
def exRho : Renaming :=
  ⟨fun s => 120 :: s, fun s => 103 :: s, fun _ _ h => (List.cons.inj h).2, fun _ _ h => (List.cons.inj h).2⟩

def exAttr : Attr := ⟨str "doc", str "read"⟩

/-- The loops in storage order. -/
def exOrd : Ord := .byIndex fun _ => []

theorem exOrd_eq : exOrd = .fwd := by
  have h : ∀ (α : Type) (l : List α), permute [] l = l := by
    intro α l
    unfold permute
    split
    · rename_i h
      have := h.length_eq
      simp at this
      rw [List.eq_nil_of_length_eq_zero this.symm]; rfl
    · rfl
  unfold exOrd Ord.byIndex Ord.fwd
  congr 1
  funext s α l
  exact h α l

/-- A tenant with a role, assigned to `a`, for reading documents; `b` has none. A decision in between fills the caches. -/
def exOps (o : Ord) (pre g : String → Str) : List MOp :=
  [.newTenant (pre "t"), .addTenant 0, .addNamespace (pre "n") 0, .tSetDefaultNamespace 0 (pre "n"), .addPrincipal (pre "a") 0, .addPrincipal (pre "b") 1, .role (.newRole (pre "r")), .addRole 0,
   .role (.addPerm 0 (g "docs") [exAttr]), .tAddPrincipal 0 (pre "a") true [pre "r"], .tAddRole 0 (pre "r"), .authorize o 3 [] (pre "a") []]

def exReq (o : Ord) (pre g : String → Str) (p : String) (w : Mgr) : Out (Bool × Mgr) :=
  w.authorize o 3 [] (pre p) [.tenant (.str (pre "t")), .namespace_ (.str (pre "n")), .group (.str (g "docs")), .activity (.str (str "doc read"))]

/-- C141: the renamed history, and that it is one. -/
example : List.Forall₂ (Renamed exRho) (exOps exOrd str str) (exOps exOrd (fun s => 120 :: str s) (fun s => 103 :: str s)) := by
  have hs : SameOrders exRho (fun _ => []) (fun _ => []) := fun _ => rfl
  have h1 := Renamed.role (ρ := exRho) (.newRole (str "r"))
  have h2 := Renamed.role (ρ := exRho) (.addPerm 0 (str "docs") [exAttr])
  have h3 := Renamed.tAddPrincipal (ρ := exRho) 0 (str "a") true [str "r"]
  have h4 := Renamed.authorize (ρ := exRho) (fun _ => []) (fun _ => []) 3 [] (str "a") [] hs
  exact .cons (.newTenant _) <| .cons (.addTenant _) <| .cons (.addNamespace _ _) <| .cons (.tSetDefaultNamespace _ _) <| .cons (.addPrincipal _ _) <| .cons (.addPrincipal _ _) <| .cons h1 <|
    .cons (.addRole _) <| .cons h2 <| .cons h3 <| .cons (.tAddRole _ _) <| .cons h4 .nil

/-- C141: in both histories `a` may read and `b` may not. -/
example : ∀ x ∈ [(str, str), ((fun s => 120 :: str s), fun s => 103 :: str s)], ∃ w, MOp.run {} (exOps exOrd x.1 x.2) = .ok w ∧
    (exReq exOrd x.1 x.2 "a" w).map (·.1) = .ok true ∧ (exReq exOrd x.1 x.2 "b" w).map (·.1) = .ok false := by
  rw [exOrd_eq]
  intro x hx
  have h1 := Out.chk_ok (x := MOp.run {} (exOps .fwd str str)) (P := fun w =>
    (exReq .fwd str str "a" w).map (·.1) = .ok true ∧ (exReq .fwd str str "b" w).map (·.1) = .ok false) (by decide +kernel)
  have h2 := Out.chk_ok (x := MOp.run {} (exOps .fwd (fun s => 120 :: str s) (fun s => 103 :: str s))) (P := fun w =>
    (exReq .fwd (fun s => 120 :: str s) (fun s => 103 :: str s) "a" w).map (·.1) = .ok true ∧
      (exReq .fwd (fun s => 120 :: str s) (fun s => 103 :: str s) "b" w).map (·.1) = .ok false) (by decide +kernel)
  rcases List.mem_cons.1 hx with rfl | hx
  · exact h1
  · rw [List.mem_singleton] at hx; subst hx; exact h2

/-- A tenant with a namespace `x` and a scope. -/
def exKinds (s : String) : List MOp :=
  [.newTenant (str "t"), .addTenant 0, .addPrincipal (str "a") 0, .addNamespace (str "x") 0, .addScope (str s) 0,
   .addData { tenant := .str (str "t"), principal := .str (str "a") }, .tAddNamespace 0 (str "x"), .tAddScope 0 (str s)]

end Opaque

/-- C141. The ids of all kinds must be renamed alike: here only the scope has another id, and a request for the namespace is
answered differently. The row of a scope takes the place of the row of a namespace with the same id. -/
theorem Mgr.C141_kinds : ∃ w1 w2, MOp.run {} (Opaque.exKinds "x") = .ok w1 ∧ MOp.run {} (Opaque.exKinds "y") = .ok w2 ∧
    (w1.authorize .fwd 3 [] (str "a") [.tenant (.str (str "t")), .namespace_ (.str (str "x"))]).map (·.1) = .ok false ∧
    (w2.authorize .fwd 3 [] (str "a") [.tenant (.str (str "t")), .namespace_ (.str (str "x"))]).map (·.1) = .ok true := by
  obtain ⟨w1, h1, h2⟩ := Out.chk_ok (x := MOp.run {} (Opaque.exKinds "x")) (P := fun w =>
    (w.authorize .fwd 3 [] (str "a") [.tenant (.str (str "t")), .namespace_ (.str (str "x"))]).map (·.1) = .ok false) (by decide +kernel)
  obtain ⟨w2, h3, h4⟩ := Out.chk_ok (x := MOp.run {} (Opaque.exKinds "y")) (P := fun w =>
    (w.authorize .fwd 3 [] (str "a") [.tenant (.str (str "t")), .namespace_ (.str (str "x"))]).map (·.1) = .ok true) (by decide +kernel)
  exact ⟨w1, w2, h1, h3, h2, h4⟩

end Verif
