import Verif.Props.Opaque
import Verif.Props.V2Opaque
import Verif.Props.V1
import Verif.Lemmas.V1Ops

/-!
# Ids have no meaning (v1)

As `Verif/Props/Opaque.lean`, for package v1.  Tenants, principals, namespaces, scopes and roles have separate names there, so
each kind has its own renaming; the empty text means "none" and is not renamed.  Ids must stay free of `_`, at which stored
assignments are cut.
-/

set_option linter.unusedSimpArgs false

namespace Verif

/-! ## Statement -/

namespace Spec

/-- New names for the ids of v1, for each kind its own; different names stay different, none stays none. -/
structure Renaming1 where
  tenant : Str → Str
  principal : Str → Str
  ns : Str → Str
  scope : Str → Str
  role : Str → Str
  group : Str → Str
  tenant_inj : ∀ a b, tenant a = tenant b → a = b
  principal_inj : ∀ a b, principal a = principal b → a = b
  ns_inj : ∀ a b, ns a = ns b → a = b
  scope_inj : ∀ a b, scope a = scope b → a = b
  role_inj : ∀ a b, role a = role b → a = b
  group_inj : ∀ a b, group a = group b → a = b
  tenant_nil : tenant [] = []
  principal_nil : principal [] = []
  ns_nil : ns [] = []
  scope_nil : scope [] = []
  role_nil : role [] = []
  group_nil : group [] = []

namespace Renaming1
variable (ρ : Renaming1)

/-- The part that concerns roles. -/
def roles : Renaming := ⟨ρ.role, ρ.group, ρ.role_inj, ρ.group_inj⟩

/-- An assignment renamed. -/
def tp (x : TP) : TP :=
  { x with tenant := ρ.tenant x.tenant, principal := ρ.principal x.principal, role := ρ.role x.role, namespace_ := ρ.ns x.namespace_,
           scope := ρ.scope x.scope }

/-- A part of a request renamed: the value given is read as a text. -/
def part (f : Str → Str) : Val → Val
  | .nil => .nil
  | v => .str (f (toStr v))

/-- An option renamed; the activity is a text that is matched and stays. -/
def opt : Opt → Opt
  | .tenant v => .tenant (part ρ.tenant v)
  | .namespace_ v => .namespace_ (part ρ.ns v)
  | .scope v => .scope (part ρ.scope v)
  | .group v => .group (part ρ.group v)
  | .activity v => .activity v

/-- Ids without `_` get names without `_`. -/
def KeepsClean : Prop := ∀ x, Clean x → Clean (ρ.tp x)

end Renaming1

/-- The second call is the first one with all ids renamed, its loops running in the corresponding orders. -/
inductive Renamed1 (ρ : Renaming1) : V1Op → V1Op → Prop
  | role (op : RoleOp) : Renamed1 ρ (.role op) (.role (ρ.roles.roleOp op))
  | newTenant (id : Str) : Renamed1 ρ (.newTenant id) (.newTenant (ρ.tenant id))
  | newNamespace (id : Str) : Renamed1 ρ (.newNamespace id) (.newNamespace (ρ.ns id))
  | addTenant (a : Nat) : Renamed1 ρ (.addTenant a) (.addTenant a)
  | addNamespace (a : Nat) : Renamed1 ρ (.addNamespace a) (.addNamespace a)
  | addScope (id : Str) (obj : Nat) : Renamed1 ρ (.addScope id obj) (.addScope (ρ.scope id) obj)
  | addPrincipal (id : Str) (obj : Nat) : Renamed1 ρ (.addPrincipal id obj) (.addPrincipal (ρ.principal id) obj)
  | addRole (r : Nat) : Renamed1 ρ (.addRole r) (.addRole r)
  | addAttribute (a : Attr) (obj : Nat) : Renamed1 ρ (.addAttribute a obj) (.addAttribute a obj)
  | addAttributeGroup (ga : Nat) : Renamed1 ρ (.addAttributeGroup ga) (.addAttributeGroup ga)
  | addPermissionsToRole (r g : Str) (as : List Attr) :
    Renamed1 ρ (.addPermissionsToRole r g as) (.addPermissionsToRole (ρ.role r) (ρ.group g) as)
  | addPrincipalRole (p r : Str) (c : Nat) (ns : Option Nat) (sc : Option Str) (m : List Bool) :
    Renamed1 ρ (.addPrincipalRole p r c ns sc m) (.addPrincipalRole (ρ.principal p) (ρ.role r) c ns (sc.map ρ.scope) m)
  | tAddDescendent (c : Nat) (ds : List Nat) : Renamed1 ρ (.tAddDescendent c ds) (.tAddDescendent c ds)
  | tSetDefaultNamespace (c : Nat) (n : Str) : Renamed1 ρ (.tSetDefaultNamespace c n) (.tSetDefaultNamespace c (ρ.ns n))
  | tAddNamespace (c : Nat) (ns : List Nat) : Renamed1 ρ (.tAddNamespace c ns) (.tAddNamespace c ns)
  | tAddRole (c : Nat) (rs : List Nat) : Renamed1 ρ (.tAddRole c rs) (.tAddRole c rs)
  | tAddScopes (c : Nat) (ss : List (Str × Nat)) : Renamed1 ρ (.tAddScopes c ss) (.tAddScopes c (ss.map fun s => (ρ.scope s.1, s.2)))
  | tAddScopesToNamespace (c : Nat) (n : Str) (ss : List Str) :
    Renamed1 ρ (.tAddScopesToNamespace c n ss) (.tAddScopesToNamespace c (ρ.ns n) (ss.map ρ.scope))
  | tAddRolesToNamespace (c : Nat) (n : Str) (rs : List Str) :
    Renamed1 ρ (.tAddRolesToNamespace c n rs) (.tAddRolesToNamespace c (ρ.ns n) (rs.map ρ.role))
  | tAddPrincipalRole (c : Nat) (p r : Str) (d : Nat) (ns : Option Nat) (sc : Option Str) (m : List Bool) :
    Renamed1 ρ (.tAddPrincipalRole c p r d ns sc m) (.tAddPrincipalRole c (ρ.principal p) (ρ.role r) d ns (sc.map ρ.scope) m)
  | tAddPrincipal (c : Nat) (p : Str) (rs : List Str) : Renamed1 ρ (.tAddPrincipal c p rs) (.tAddPrincipal c (ρ.principal p) (rs.map ρ.role))
  | tAddPrincipalInNamespace (σ σ' : List Val → List Nat) (site : List Val) (c : Nat) (p n : Str) (rs : List Str) (h : SameOrders ρ.roles σ σ') :
    Renamed1 ρ (.tAddPrincipalInNamespace (.byIndex σ) site c p n rs)
      (.tAddPrincipalInNamespace (.byIndex σ') (site.map ρ.roles.val) c (ρ.principal p) (ρ.ns n) (rs.map ρ.role))
  | tAssignScopesToPrincipal (σ σ' : List Val → List Nat) (site : List Val) (c : Nat) (p : Str) (ss : List Str) (h : SameOrders ρ.roles σ σ') :
    Renamed1 ρ (.tAssignScopesToPrincipal (.byIndex σ) site c p ss)
      (.tAssignScopesToPrincipal (.byIndex σ') (site.map ρ.roles.val) c (ρ.principal p) (ss.map ρ.scope))
  | tAssignScopesWithRole (σ σ' : List Val → List Nat) (site : List Val) (c : Nat) (p r : Str) (ss : List Str) (h : SameOrders ρ.roles σ σ') :
    Renamed1 ρ (.tAssignScopesWithRole (.byIndex σ) site c p r ss)
      (.tAssignScopesWithRole (.byIndex σ') (site.map ρ.roles.val) c (ρ.principal p) (ρ.role r) (ss.map ρ.scope))
  | nsAddRoles (n : Nat) (rs : List Nat) : Renamed1 ρ (.nsAddRoles n rs) (.nsAddRoles n rs)
  | nsAddScopes (n : Nat) (ss : List (Str × Nat)) : Renamed1 ρ (.nsAddScopes n ss) (.nsAddScopes n (ss.map fun s => (ρ.scope s.1, s.2)))

end Spec

open Spec

namespace Opaque1
open Opaque (mapKeys mapKeys_get mapKeys_set bind_map permute_map ord_map)
open Opaque2 (inj_nil inj_eq mem_map_inj)
variable {ρ : Renaming1}

@[simp] theorem tenant_eq (a b : Str) : ρ.tenant a = ρ.tenant b ↔ a = b := inj_eq ρ.tenant_inj a b
@[simp] theorem principal_eq (a b : Str) : ρ.principal a = ρ.principal b ↔ a = b := inj_eq ρ.principal_inj a b
@[simp] theorem ns_eq (a b : Str) : ρ.ns a = ρ.ns b ↔ a = b := inj_eq ρ.ns_inj a b
@[simp] theorem scope_eq (a b : Str) : ρ.scope a = ρ.scope b ↔ a = b := inj_eq ρ.scope_inj a b
@[simp] theorem role_eq (a b : Str) : ρ.role a = ρ.role b ↔ a = b := inj_eq ρ.role_inj a b
@[simp] theorem tenant_none (a : Str) : ρ.tenant a = [] ↔ a = [] := inj_nil ρ.tenant_inj ρ.tenant_nil a
@[simp] theorem ns_none (a : Str) : ρ.ns a = [] ↔ a = [] := inj_nil ρ.ns_inj ρ.ns_nil a
@[simp] theorem scope_none (a : Str) : ρ.scope a = [] ↔ a = [] := inj_nil ρ.scope_inj ρ.scope_nil a
@[simp] theorem role_none (a : Str) : ρ.role a = [] ↔ a = [] := inj_nil ρ.role_inj ρ.role_nil a

@[simp] theorem tenants_get {ν : Type} (m : GoMap Str ν) (k : Str) : (mapKeys ρ.tenant m).get (ρ.tenant k) = m.get k := mapKeys_get ρ.tenant_inj m k
@[simp] theorem ns_get {ν : Type} (m : GoMap Str ν) (k : Str) : (mapKeys ρ.ns m).get (ρ.ns k) = m.get k := mapKeys_get ρ.ns_inj m k
@[simp] theorem scopes_get {ν : Type} (m : GoMap Str ν) (k : Str) : (mapKeys ρ.scope m).get (ρ.scope k) = m.get k := mapKeys_get ρ.scope_inj m k
@[simp] theorem roles_get {ν : Type} (m : GoMap Str ν) (k : Str) : (mapKeys ρ.role m).get (ρ.role k) = m.get k := mapKeys_get ρ.role_inj m k
@[simp] theorem principals_get {ν : Type} (m : GoMap Str ν) (k : Str) : (mapKeys ρ.principal m).get (ρ.principal k) = m.get k :=
  mapKeys_get ρ.principal_inj m k
@[simp] theorem groups_get {ν : Type} (m : GoMap Str ν) (k : Str) : (mapKeys ρ.group m).get (ρ.group k) = m.get k := mapKeys_get ρ.group_inj m k
@[simp] theorem tenants_set {ν : Type} (m : GoMap Str ν) (k : Str) (v : ν) : (mapKeys ρ.tenant m).set (ρ.tenant k) v = mapKeys ρ.tenant (m.set k v) :=
  mapKeys_set ρ.tenant_inj m k v
@[simp] theorem ns_set {ν : Type} (m : GoMap Str ν) (k : Str) (v : ν) : (mapKeys ρ.ns m).set (ρ.ns k) v = mapKeys ρ.ns (m.set k v) :=
  mapKeys_set ρ.ns_inj m k v
@[simp] theorem scopes_set {ν : Type} (m : GoMap Str ν) (k : Str) (v : ν) : (mapKeys ρ.scope m).set (ρ.scope k) v = mapKeys ρ.scope (m.set k v) :=
  mapKeys_set ρ.scope_inj m k v
@[simp] theorem roles_set {ν : Type} (m : GoMap Str ν) (k : Str) (v : ν) : (mapKeys ρ.role m).set (ρ.role k) v = mapKeys ρ.role (m.set k v) :=
  mapKeys_set ρ.role_inj m k v
@[simp] theorem principals_set {ν : Type} (m : GoMap Str ν) (k : Str) (v : ν) :
    (mapKeys ρ.principal m).set (ρ.principal k) v = mapKeys ρ.principal (m.set k v) := mapKeys_set ρ.principal_inj m k v
@[simp] theorem groups_set {ν : Type} (m : GoMap Str ν) (k : Str) (v : ν) : (mapKeys ρ.group m).set (ρ.group k) v = mapKeys ρ.group (m.set k v) :=
  mapKeys_set ρ.group_inj m k v

theorem setAbsent {f : Str → Str} (hf : ∀ a b, f a = f b → a = b) (m : GoMap Str Nat) (k : Str) (v : Nat) :
    V1.setAbsent (mapKeys f m) (f k) v = mapKeys f (V1.setAbsent m k v) := by
  unfold V1.setAbsent
  rw [mapKeys_get hf]
  cases m.get k with
  | some x => rfl
  | none => exact mapKeys_set hf m k v

/-! ## The stored assignments -/

/-- Add to a list without repetition. -/
def addTP (S : List TP) (x : TP) : List TP := if x ∈ S then S else S ++ [x]

/-- The assignments asked for, without repetitions. -/
def distinct (l : List TP) : List TP := l.foldl addTP []

theorem mem_foldl {l S : List TP} {x : TP} : x ∈ l.foldl addTP S → x ∈ S ∨ x ∈ l := by
  induction l generalizing S with
  | nil => exact .inl
  | cons y l ih =>
    intro h
    rcases ih h with h | h
    · unfold addTP at h
      split at h
      · exact .inl h
      · rcases List.mem_append.1 h with h | h
        · exact .inl h
        · rw [List.mem_singleton] at h; exact .inr (h ▸ List.mem_cons_self ..)
    · exact .inr (List.mem_cons_of_mem _ h)

theorem foldl_map {g : TP → Str} {l S : List TP} (h : ∀ x ∈ S ++ l, ∀ y ∈ S ++ l, g x = g y → x = y) :
    (l.map g).foldl addStr (S.map g) = (l.foldl addTP S).map g := by
  induction l generalizing S with
  | nil => rfl
  | cons x l ih =>
    have h1 : addStr (S.map g) (g x) = (addTP S x).map g := by
      unfold addStr addTP
      have : g x ∈ S.map g ↔ x ∈ S := by
        rw [List.mem_map]
        refine ⟨fun ⟨y, hy, e⟩ => ?_, fun hx => ⟨x, hx, rfl⟩⟩
        rw [← h y (by simp [hy]) x (by simp) e]; exact hy
      simp only [this]
      split <;> simp
    rw [List.map_cons, List.foldl_cons, List.foldl_cons, h1]
    refine ih fun a ha b hb => h a ?_ b ?_
    · unfold addTP at ha; split at ha <;> simp at ha ⊢ <;> grind
    · unfold addTP at hb; split at hb <;> simp at hb ⊢ <;> grind

/-- The stored texts are those of the assignments asked for. -/
def Stored (w : V1) : Prop := w.tps = (w.log.map V1.encode).foldl addStr []

theorem encode_inj {x y : TP} (hx : Clean x) (hy : Clean y) (h : V1.encode x = V1.encode y) : x = y := by
  have h1 := V1.C36_roundtrip.2 hx
  rw [h, V1.C36_roundtrip.2 hy] at h1
  cases h1; rfl

/-! ## The state -/

/-- A namespace renamed. -/
def nsobj (ρ : Renaming1) (n : NsObj) : NsObj := { id := ρ.ns n.id, roles := mapKeys ρ.role n.roles, scopes := mapKeys ρ.scope n.scopes }

/-- A tenant renamed. -/
def tobj (ρ : Renaming1) (t : T1Obj) : T1Obj where
  id := ρ.tenant t.id
  namespaces := mapKeys ρ.ns t.namespaces
  roles := mapKeys ρ.role t.roles
  scopes := mapKeys ρ.scope t.scopes
  desc := mapKeys ρ.tenant t.desc
  defNs := t.defNs
  managed := t.managed

/-- A manager renamed. -/
def mgr (ρ : Renaming1) (w : V1) : V1 where
  heap := Opaque.heap ρ.roles w.heap
  nsobjs := w.nsobjs.map (nsobj ρ)
  tobjs := w.tobjs.map (tobj ρ)
  tenants := mapKeys ρ.tenant w.tenants
  namespaces := mapKeys ρ.ns w.namespaces
  scopes := mapKeys ρ.scope w.scopes
  principals := mapKeys ρ.principal w.principals
  roles := mapKeys ρ.role w.roles
  attrs := w.attrs
  attrGroups := mapKeys ρ.group w.attrGroups
  tps := (w.log.map fun x => V1.encode (ρ.tp x)).foldl addStr []
  log := w.log.map ρ.tp

variable {w : V1}

@[simp] theorem mgr_tobjs (a : Nat) : (mgr ρ w).tobjs[a]? = (w.tobjs[a]?).map (tobj ρ) := by simp [mgr]
@[simp] theorem mgr_nsobjs (a : Nat) : (mgr ρ w).nsobjs[a]? = (w.nsobjs[a]?).map (nsobj ρ) := by simp [mgr]
@[simp] theorem mgr_roles (a : Nat) : (mgr ρ w).heap.roles[a]? = (w.heap.roles[a]?).map (Opaque.role ρ.roles) := by simp [mgr]
@[simp] theorem mgr_groups (a : Nat) : (mgr ρ w).heap.groups[a]? = (w.heap.groups[a]?).map (Opaque.group ρ.roles) := by simp [mgr]

theorem store (x : TP) : (mgr ρ w).store (ρ.tp x) = mgr ρ (w.store x) := by
  simp only [V1.store, mgr, List.map_append, List.map_cons, List.map_nil, List.foldl_append, List.foldl_cons, List.foldl_nil, addStr]
  rfl

theorem stored_store (h : Stored w) (x : TP) : Stored (w.store x) := by
  unfold Stored at h ⊢
  simp only [V1.store, List.map_append, List.map_cons, List.map_nil, List.foldl_append, List.foldl_cons, List.foldl_nil, addStr, ← h]

/-- The second call ends as the first one, in the renamed state; and the stored texts stay those of the assignments. -/
def Rel (ρ : Renaming1) (r r' : Out V1) : Prop := r' = r.map (mgr ρ) ∧ ∀ w1, r = .ok w1 → Stored w1

theorem Rel.ok (h : Stored w) : Rel ρ (.ok w) (.ok (mgr ρ w)) := ⟨rfl, fun _ e => by cases e; exact h⟩
theorem Rel.panic : Rel ρ .panic .panic := ⟨rfl, fun _ e => by cases e⟩

theorem Rel.bind {r r' : Out V1} {f f' : V1 → Out V1} (h : Rel ρ r r') (hf : ∀ w, Stored w → Rel ρ (f w) (f' (mgr ρ w))) :
    Rel ρ (r.bind f) (r'.bind f') := by
  obtain ⟨rfl, h2⟩ := h
  cases r with
  | panic => exact .panic
  | diverge => exact ⟨rfl, fun _ e => by cases e⟩
  | ok w => exact hf w (h2 w rfl)

theorem Rel.loop {α α' : Type} {f : V1 → α → Out V1} {f' : V1 → α' → Out V1} {k : α → α'} (hf : ∀ w x, Stored w → Rel ρ (f w x) (f' (mgr ρ w) (k x)))
    (l : List α) : ∀ {w : V1}, Stored w → Rel ρ (Out.loop f w l) (Out.loop f' (mgr ρ w) (l.map k)) := by
  induction l with
  | nil => exact fun h => .ok h
  | cons x l ih =>
    intro w h
    rw [List.map_cons, Out.loop, Out.loop]
    exact Rel.bind (hf w x h) fun w1 h1 => ih h1

theorem Rel.loop' {α : Type} {f f' : V1 → α → Out V1} (hf : ∀ w x, Stored w → Rel ρ (f w x) (f' (mgr ρ w) x)) (l : List α) (h : Stored w) :
    Rel ρ (Out.loop f w l) (Out.loop f' (mgr ρ w) l) := by
  have := Rel.loop (k := id) hf l h
  rwa [List.map_id] at this

theorem withT {f f' : T1Obj → Out V1} (h : ∀ t, w.tobjs[c]? = some t → Rel ρ (f t) (f' (tobj ρ t))) : Rel ρ (w.withT c f) ((mgr ρ w).withT c f') := by
  unfold V1.withT
  rw [mgr_tobjs]
  cases ht : w.tobjs[c]? with
  | none => exact .panic
  | some t => exact h t ht

theorem setT (c : Nat) (t : T1Obj) : (mgr ρ w).setT c (tobj ρ t) = mgr ρ (w.setT c t) := by simp [V1.setT, mgr]
theorem setNs (c : Nat) (t : NsObj) : (mgr ρ w).setNs c (nsobj ρ t) = mgr ρ (w.setNs c t) := by simp [V1.setNs, mgr]

/-- The new state is the renamed new state, and has the same assignments. -/
theorem Rel.mk {w1 w1' : V1} (e : w1' = mgr ρ w1) (h : Stored w1) : Rel ρ (.ok w1) (.ok w1') := e ▸ .ok h

/-! ## Registration -/

theorem addTenant (h : Stored w) (a : Nat) : Rel ρ ((w.addTenant a).map (·.2)) (((mgr ρ w).addTenant a).map (·.2)) := by
  unfold V1.addTenant
  rw [mgr_tobjs]
  cases w.tobjs[a]? with
  | none => exact .panic
  | some t =>
    have h1 : ({ mgr ρ w with tobjs := (mgr ρ w).tobjs.set a { tobj ρ t with managed := true } } : V1) =
        mgr ρ { w with tobjs := w.tobjs.set a { t with managed := true } } := by simp [mgr]; rfl
    have h2 : (mgr ρ w).tenants.get (tobj ρ t).id = w.tenants.get t.id := tenants_get _ _
    simp only [Option.map_some, h1]
    rw [h2]
    cases w.tenants.get t.id with
    | some d => exact .ok h
    | none => exact Rel.mk (by simp [mgr, tobj]) h

theorem addNamespace (h : Stored w) (a : Nat) : Rel ρ ((w.addNamespace a).map (·.2)) (((mgr ρ w).addNamespace a).map (·.2)) := by
  unfold V1.addNamespace
  rw [mgr_nsobjs]
  cases w.nsobjs[a]? with
  | none => exact .panic
  | some t =>
    have h2 : (mgr ρ w).namespaces.get (nsobj ρ t).id = w.namespaces.get t.id := ns_get _ _
    simp only [Option.map_some, h2]
    cases w.namespaces.get t.id with
    | some d => exact .ok h
    | none => exact Rel.mk (by simp [mgr, nsobj]) h

theorem addRole (h : Stored w) (a : Nat) : Rel ρ ((w.addRole a).map (·.2)) (((mgr ρ w).addRole a).map (·.2)) := by
  unfold V1.addRole
  rw [mgr_roles]
  cases w.heap.roles[a]? with
  | none => exact .panic
  | some t =>
    have h2 : (mgr ρ w).roles.get (Opaque.role ρ.roles t).id = w.roles.get t.id := roles_get _ _
    simp only [Option.map_some, h2]
    cases w.roles.get t.id with
    | some d => exact .ok h
    | none =>
      refine Rel.mk ?_ h
      have h3 := roles_set (ρ := ρ) w.roles t.id a
      show ({ mgr ρ w with roles := (mapKeys ρ.role w.roles).set (ρ.role t.id) a } : V1) = _
      rw [h3]
      rfl

theorem addAttributeGroup (h : Stored w) (a : Nat) : Rel ρ ((w.addAttributeGroup a).map (·.2)) (((mgr ρ w).addAttributeGroup a).map (·.2)) := by
  unfold V1.addAttributeGroup
  rw [mgr_groups]
  cases w.heap.groups[a]? with
  | none => exact .panic
  | some t =>
    have h2 : (mgr ρ w).attrGroups.get (Opaque.group ρ.roles t).id = w.attrGroups.get t.id := groups_get _ _
    simp only [Option.map_some, h2]
    cases w.attrGroups.get t.id with
    | some d => exact .ok h
    | none =>
      refine Rel.mk ?_ h
      have h3 := groups_set (ρ := ρ) w.attrGroups t.id a
      show ({ mgr ρ w with attrGroups := (mapKeys ρ.group w.attrGroups).set (ρ.group t.id) a } : V1) = _
      rw [h3]
      rfl

theorem nsID (n : Option Nat) : (mgr ρ w).nsID n = (w.nsID n).map ρ.ns := by
  cases n with
  | none => simp [V1.nsID, ρ.ns_nil]
  | some n =>
    simp only [V1.nsID, mgr_nsobjs]
    cases w.nsobjs[n]? <;> rfl

theorem addPrincipalRole (h : Stored w) (p r : Str) (c : Nat) (n : Option Nat) (sc : Option Str) (m : List Bool) :
    Rel ρ (w.addPrincipalRole p r c n sc m) ((mgr ρ w).addPrincipalRole (ρ.principal p) (ρ.role r) c n (sc.map ρ.scope) m) := by
  unfold V1.addPrincipalRole
  rw [mgr_tobjs]
  cases w.tobjs[c]? with
  | none => exact .panic
  | some t =>
    simp only [Option.map_some, nsID]
    cases w.nsID n with
    | panic => exact .panic
    | diverge => exact ⟨rfl, fun _ e => by cases e⟩
    | ok n =>
      refine Rel.mk ?_ (stored_store h _)
      rw [← store]
      cases sc with
      | none => simp [Renaming1.tp, tobj, ρ.scope_nil]
      | some s => rfl

theorem tAddPrincipalRole (h : Stored w) (c : Nat) (p r : Str) (d : Nat) (n : Option Nat) (sc : Option Str) (m : List Bool) :
    Rel ρ (w.tAddPrincipalRole c p r d n sc m) ((mgr ρ w).tAddPrincipalRole c (ρ.principal p) (ρ.role r) d n (sc.map ρ.scope) m) := by
  refine withT fun t _ => ?_
  have : (tobj ρ t).managed = t.managed := rfl
  rw [this]
  split
  · exact addPrincipalRole h p r d n sc m
  · exact .panic

theorem tAddDescendent (h : Stored w) (c : Nat) (ds : List Nat) : Rel ρ (w.tAddDescendent c ds) ((mgr ρ w).tAddDescendent c ds) := by
  refine Rel.loop' (fun w d h => ?_) ds h
  refine withT fun t _ => withT fun dt _ => Rel.mk ?_ h
  rw [← setT]
  simp only [tobj, setAbsent ρ.tenant_inj]

theorem tSetDefaultNamespace (h : Stored w) (c : Nat) (n : Str) :
    Rel ρ (w.tSetDefaultNamespace c n) ((mgr ρ w).tSetDefaultNamespace c (ρ.ns n)) := by
  refine withT fun t _ => ?_
  have : (tobj ρ t).namespaces.get (ρ.ns n) = t.namespaces.get n := ns_get _ _
  rw [this]
  cases t.namespaces.get n with
  | none => exact .ok h
  | some a => exact Rel.mk (by rw [← setT]; rfl) h

theorem tAddNamespace (h : Stored w) (c : Nat) (ns : List Nat) : Rel ρ (w.tAddNamespace c ns) ((mgr ρ w).tAddNamespace c ns) := by
  refine Rel.loop' (fun w a h => ?_) ns h
  refine withT fun t _ => ?_
  rw [mgr_nsobjs]
  cases w.nsobjs[a]? with
  | none => exact .panic
  | some no =>
    refine Rel.mk ?_ h
    rw [← setT]
    simp only [tobj, nsobj, setAbsent ρ.ns_inj]

theorem tAddRole (h : Stored w) (c : Nat) (rs : List Nat) : Rel ρ (w.tAddRole c rs) ((mgr ρ w).tAddRole c rs) := by
  refine Rel.loop' (fun w a h => ?_) rs h
  refine withT fun t _ => ?_
  rw [mgr_roles]
  cases w.heap.roles[a]? with
  | none => exact .panic
  | some ro =>
    refine Rel.mk ?_ h
    rw [← setT]
    have h1 : (Opaque.role ρ.roles ro).id = ρ.role ro.id := rfl
    simp only [tobj, h1, setAbsent ρ.role_inj]

theorem tAddScopes (h : Stored w) (c : Nat) (ss : List (Str × Nat)) :
    Rel ρ (w.tAddScopes c ss) ((mgr ρ w).tAddScopes c (ss.map fun s => (ρ.scope s.1, s.2))) := by
  refine Rel.loop (fun w s h => ?_) ss h
  refine withT fun t _ => ?_
  have h1 : (mgr ρ w).setT c { tobj ρ t with scopes := V1.setAbsent (tobj ρ t).scopes (ρ.scope s.1) s.2 } =
      mgr ρ (w.setT c { t with scopes := V1.setAbsent t.scopes s.1 s.2 }) := by
    rw [← setT]
    simp only [tobj, setAbsent ρ.scope_inj]
  have h2 : (tobj ρ t).defNs = t.defNs := rfl
  have h3 : Stored (w.setT c { t with scopes := V1.setAbsent t.scopes s.1 s.2 }) := h
  simp only [h1]
  generalize w.setT c { t with scopes := V1.setAbsent t.scopes s.1 s.2 } = w1 at h3
  rw [h2]
  clear h h1 h2
  have h := h3
  cases t.defNs with
  | none => exact .ok h
  | some a =>
    simp only [mgr_nsobjs]
    cases w1.nsobjs[a]? with
    | none => exact .panic
    | some no =>
      refine Rel.mk ?_ h
      rw [← setNs]
      simp only [nsobj, setAbsent ρ.scope_inj]

theorem tAddScopesToNamespace (c : Nat) (n : Str) (ss : List Str) : ∀ {w : V1}, Stored w →
    Rel ρ (w.tAddScopesToNamespace c n ss) ((mgr ρ w).tAddScopesToNamespace c (ρ.ns n) (ss.map ρ.scope)) := by
  induction ss with
  | nil => exact fun h => .ok h
  | cons s ss ih =>
    intro w h
    rw [List.map_cons, V1.tAddScopesToNamespace, V1.tAddScopesToNamespace]
    refine withT fun t _ => ?_
    have h1 : (tobj ρ t).scopes.get (ρ.scope s) = t.scopes.get s := scopes_get _ _
    have h2 : (tobj ρ t).namespaces.get (ρ.ns n) = t.namespaces.get n := ns_get _ _
    rw [h1]
    cases t.scopes.get s with
    | none => exact .ok h
    | some obj =>
      simp only [h2]
      cases t.namespaces.get n with
      | none => exact ih h
      | some a =>
        simp only [mgr_nsobjs]
        cases w.nsobjs[a]? with
        | none => exact .panic
        | some no =>
          have h3 : (mgr ρ w).setNs a { nsobj ρ no with scopes := V1.setAbsent (nsobj ρ no).scopes (ρ.scope s) obj } =
              mgr ρ (w.setNs a { no with scopes := V1.setAbsent no.scopes s obj }) := by
            rw [← setNs]
            simp only [nsobj, setAbsent ρ.scope_inj]
          simp only [Option.map_some, h3]
          have h4 := tAddPrincipalRole (ρ := ρ) (w := w.setNs a { no with scopes := V1.setAbsent no.scopes s obj }) h c [] [] c (some a) (some s) []
          rw [ρ.principal_nil, ρ.role_nil] at h4
          exact Rel.bind h4 fun w1 h1 => ih h1

theorem tAddRolesToNamespace (c : Nat) (n : Str) (rs : List Str) : ∀ {w : V1}, Stored w →
    Rel ρ (w.tAddRolesToNamespace c n rs) ((mgr ρ w).tAddRolesToNamespace c (ρ.ns n) (rs.map ρ.role)) := by
  induction rs with
  | nil => exact fun h => .ok h
  | cons r rs ih =>
    intro w h
    rw [List.map_cons, V1.tAddRolesToNamespace, V1.tAddRolesToNamespace]
    refine withT fun t _ => ?_
    have h1 : (tobj ρ t).roles.get (ρ.role r) = t.roles.get r := roles_get _ _
    have h2 : (tobj ρ t).namespaces.get (ρ.ns n) = t.namespaces.get n := ns_get _ _
    rw [h1]
    cases t.roles.get r with
    | none => exact .ok h
    | some obj =>
      simp only [h2]
      cases t.namespaces.get n with
      | none => exact .ok h
      | some a =>
        simp only [mgr_nsobjs]
        cases w.nsobjs[a]? with
        | none => exact .panic
        | some no =>
          have h3 : (mgr ρ w).setNs a { nsobj ρ no with roles := V1.setAbsent (nsobj ρ no).roles (ρ.role r) obj } =
              mgr ρ (w.setNs a { no with roles := V1.setAbsent no.roles r obj }) := by
            rw [← setNs]
            simp only [nsobj, setAbsent ρ.role_inj]
          simp only [Option.map_some, h3]
          exact ih (w := w.setNs a { no with roles := V1.setAbsent no.roles r obj }) h

theorem nsAddRoles (h : Stored w) (n : Nat) (rs : List Nat) : Rel ρ (w.nsAddRoles n rs) ((mgr ρ w).nsAddRoles n rs) := by
  refine Rel.loop' (fun w a h => ?_) rs h
  simp only [mgr_nsobjs, mgr_roles]
  cases w.nsobjs[n]? with
  | none => exact .panic
  | some no =>
    cases w.heap.roles[a]? with
    | none => exact .panic
    | some ro =>
      refine Rel.mk ?_ h
      rw [← setNs]
      have h1 : (Opaque.role ρ.roles ro).id = ρ.role ro.id := rfl
      simp only [nsobj, h1, roles_set]

theorem nsAddScopes (h : Stored w) (n : Nat) (ss : List (Str × Nat)) :
    Rel ρ (w.nsAddScopes n ss) ((mgr ρ w).nsAddScopes n (ss.map fun s => (ρ.scope s.1, s.2))) := by
  refine Rel.loop (fun w s h => ?_) ss h
  simp only [mgr_nsobjs]
  cases w.nsobjs[n]? with
  | none => exact .panic
  | some no =>
    refine Rel.mk ?_ h
    rw [← setNs]
    simp only [nsobj, scopes_set]

/-! ## Queries -/

@[simp] theorem tp_tenant (x : TP) : (ρ.tp x).tenant = ρ.tenant x.tenant := rfl
@[simp] theorem tp_principal (x : TP) : (ρ.tp x).principal = ρ.principal x.principal := rfl
@[simp] theorem tp_role (x : TP) : (ρ.tp x).role = ρ.role x.role := rfl
@[simp] theorem tp_namespace (x : TP) : (ρ.tp x).namespace_ = ρ.ns x.namespace_ := rfl
@[simp] theorem tp_scope (x : TP) : (ρ.tp x).scope = ρ.scope x.scope := rfl

theorem filter_tp {P P' : TP → Bool} (h : ∀ x, P' (ρ.tp x) = P x) (l : List TP) : (l.map ρ.tp).filter P' = (l.filter P).map ρ.tp := by
  rw [List.filter_map]
  congr 2
  funext x
  exact h x

theorem any_tp {P P' : TP → Bool} (h : ∀ x, P' (ρ.tp x) = P x) (l : List TP) : (l.map ρ.tp).any P' = l.any P := by
  rw [List.any_map]
  congr 1
  funext x
  exact h x

theorem anyI_map {α α' : Type} {f : Nat → α → Out Bool} {f' : Nat → α' → Out Bool} {m : α → α'} (h : ∀ i x, f' i (m x) = f i x) (l : List α) :
    ∀ i, Out.anyI f' i (l.map m) = Out.anyI f i l := by
  induction l with
  | nil => intro i; rfl
  | cons x l ih => intro i; simp only [List.map_cons, Out.anyI, h, ih]

theorem slicesCompact_map {f : Str → Str} (hf : ∀ a b, f a = f b → a = b) (l : List Str) : slicesCompact (l.map f) = (slicesCompact l).map f :=
  Opaque.slicesCompact_map (ρ := ⟨f, f, hf, hf⟩) l

theorem collect_encode {g : TP → TP} (l : List TP) (h : ∀ x ∈ l, Clean (g x)) : ∀ i,
    Out.collectI (fun _ h => (V1.decode h).map fun x => [x]) i (l.map fun x => V1.encode (g x)) = .ok (l.map g) := by
  induction l with
  | nil => intro i; rfl
  | cons x l ih =>
    intro i
    rw [List.map_cons, Out.collectI, V1.C36_roundtrip.2 (h x (List.mem_cons_self ..)), Out.map_ok]
    have := ih (fun y hy => h y (List.mem_cons_of_mem _ hy)) (i + 1)
    rw [Out.bind_ok, this]
    rfl

section
variable {σ σ' : List Val → List Nat} (hs : SameOrders ρ.roles σ σ') (hk : ρ.KeepsClean) (hst : Stored w) (hc : ∀ x ∈ w.log, Clean x)

theorem mem_distinct {l : List TP} {x : TP} (h : x ∈ distinct l) : x ∈ l := by
  rcases mem_foldl h with h | h
  · cases h
  · exact h

theorem mem_permute {α : Type} {τ : List Nat} {l : List α} {x : α} (h : x ∈ permute τ l) : x ∈ l := (permute_perm τ l).mem_iff.1 h

include hst hc in
theorem rows_eq (site : List Val) : w.rows (.byIndex σ) site = .ok (permute (σ site) (distinct w.log)) := by
  have h1 : w.tps = (distinct w.log).map V1.encode := by
    rw [hst]
    refine foldl_map (S := []) fun x hx y hy e => ?_
    exact encode_inj (hc x (by simpa using hx)) (hc y (by simpa using hy)) e
  unfold V1.rows
  show Out.collectI _ 0 (permute (σ site) w.tps) = _
  rw [h1, permute_map]
  have := collect_encode (g := fun x => x) (permute (σ site) (distinct w.log)) (fun x hx => hc x (mem_distinct (mem_permute hx))) 0
  rw [List.map_id'] at this
  exact this

theorem tp_inj {x y : TP} (h : ρ.tp x = ρ.tp y) : x = y := by
  obtain ⟨t, p, r, n, s, m⟩ := x
  obtain ⟨t', p', r', n', s', m'⟩ := y
  simpa [Renaming1.tp] using h

include hs hk hst hc in
theorem rows (site : List Val) : (mgr ρ w).rows (.byIndex σ') (site.map ρ.roles.val) = (w.rows (.byIndex σ) site).map (·.map ρ.tp) := by
  rw [rows_eq hst hc]
  have h1 : (mgr ρ w).tps = (distinct w.log).map fun x => V1.encode (ρ.tp x) := by
    refine foldl_map (S := []) fun x hx y hy e => ?_
    exact tp_inj (encode_inj (hk _ (hc x (by simpa using hx))) (hk _ (hc y (by simpa using hy))) e)
  unfold V1.rows
  show Out.collectI _ 0 (permute (σ' (site.map ρ.roles.val)) (mgr ρ w).tps) = _
  rw [h1, permute_map, hs]
  exact collect_encode (g := ρ.tp) (permute (σ site) (distinct w.log)) (fun x hx => hk _ (hc x (mem_distinct (mem_permute hx)))) 0

include hs hk hst hc in
theorem tenantsForPrincipal (site : List Val) (p : Str) :
    (mgr ρ w).tenantsForPrincipal (.byIndex σ') (site.map ρ.roles.val) (ρ.principal p) = (w.tenantsForPrincipal (.byIndex σ) site p).map (·.map ρ.tenant) := by
  unfold V1.tenantsForPrincipal
  rw [rows hs hk hst hc]
  cases w.rows (.byIndex σ) site with
  | panic => rfl
  | diverge => rfl
  | ok l =>
    simp only [Out.map_ok]
    rw [filter_tp (P := fun x => decide (x.principal = p)) (fun x => by simp), List.map_map, ← slicesCompact_map ρ.tenant_inj, List.map_map]
    rfl

include hs hk hst hc in
theorem principalRoles (site : List Val) (t p : Str) :
    (mgr ρ w).principalRoles (.byIndex σ') (site.map ρ.roles.val) (ρ.tenant t) (ρ.principal p) = (w.principalRoles (.byIndex σ) site t p).map (·.map ρ.tp) := by
  unfold V1.principalRoles
  rw [rows hs hk hst hc]
  cases w.rows (.byIndex σ) site with
  | panic => rfl
  | diverge => rfl
  | ok l =>
    simp only [Out.map_ok]
    rw [filter_tp (P := fun x => decide (x.principal = p ∧ x.tenant = t)) (fun x => by simp)]

include hs hk hst hc in
theorem tenantRoles (site : List Val) (t : Str) :
    (mgr ρ w).tenantRoles (.byIndex σ') (site.map ρ.roles.val) (ρ.tenant t) = (w.tenantRoles (.byIndex σ) site t).map (·.map ρ.tp) := by
  unfold V1.tenantRoles
  rw [rows hs hk hst hc]
  cases w.rows (.byIndex σ) site with
  | panic => rfl
  | diverge => rfl
  | ok l =>
    simp only [Out.map_ok]
    rw [filter_tp (P := fun x => decide (x.tenant = t)) (fun x => by simp)]

end

/-! ## Assigning principals -/

theorem addWithDefault (h : Stored w) (c : Nat) (t : T1Obj) (p r : Str) (sc : Option Str) :
    Rel ρ (w.addWithDefault c t p r sc) ((mgr ρ w).addWithDefault c (tobj ρ t) (ρ.principal p) (ρ.role r) (sc.map ρ.scope)) := by
  unfold V1.addWithDefault
  refine Rel.bind (tAddPrincipalRole h c p r c none sc []) fun w1 h1 => ?_
  have h2 : (tobj ρ t).defNs = t.defNs := rfl
  rw [h2]
  cases t.defNs with
  | none => exact .ok h1
  | some a => exact tAddPrincipalRole h1 c p r c (some a) sc []

theorem tAddPrincipal (h : Stored w) (c : Nat) (p : Str) (rs : List Str) :
    Rel ρ (w.tAddPrincipal c p rs) ((mgr ρ w).tAddPrincipal c (ρ.principal p) (rs.map ρ.role)) := by
  refine withT fun t _ => Rel.loop (fun w r h => ?_) rs h
  have h1 : (tobj ρ t).roles.get (ρ.role r) = t.roles.get r := roles_get _ _
  rw [h1]
  split
  · exact addWithDefault h c t p r none
  · exact .ok h

section
variable {σ σ' : List Val → List Nat} (hs : SameOrders ρ.roles σ σ') (hk : ρ.KeepsClean) (hc : ∀ x ∈ w.log, Clean x)

/-- A query followed by changes. -/
theorem Rel.query {α β : Type} {r : Out α} {r' : Out β} {m : α → β} (h : r' = r.map m) {f : α → Out V1} {f' : β → Out V1} (hf : ∀ x, Rel ρ (f x) (f' (m x))) :
    Rel ρ (r.bind f) (r'.bind f') := by
  subst h
  cases r with
  | panic => exact .panic
  | diverge => exact ⟨rfl, fun _ e => by cases e⟩
  | ok x => exact hf x

include hs hk hc in
theorem tAddPrincipalInNamespace (h : Stored w) (site : List Val) (c : Nat) (p n : Str) (rs : List Str) :
    Rel ρ (w.tAddPrincipalInNamespace (.byIndex σ) site c p n rs)
      ((mgr ρ w).tAddPrincipalInNamespace (.byIndex σ') (site.map ρ.roles.val) c (ρ.principal p) (ρ.ns n) (rs.map ρ.role)) := by
  refine withT fun t _ => ?_
  have h1 : (tobj ρ t).namespaces.get (ρ.ns n) = t.namespaces.get n := ns_get _ _
  have h2 : (tobj ρ t).managed = t.managed := rfl
  rw [h1]
  cases t.namespaces.get n with
  | none => exact .ok h
  | some a =>
    simp only [List.length_map, h2]
    split
    · refine Rel.loop (fun w r h => ?_) rs h
      have h3 : (tobj ρ t).roles.get (ρ.role r) = t.roles.get r := roles_get _ _
      rw [h3]
      cases t.roles.get r with
      | none => exact .ok h
      | some ra =>
        simp only [mgr_roles]
        cases w.heap.roles[ra]? with
        | none => exact .panic
        | some ro => exact tAddPrincipalRole h c p ro.id c (some a) none []
    · split
      · refine Rel.query (tenantRoles hs hk h hc site t.id) fun l => ?_
        refine Rel.bind (Rel.loop (fun w x h => ?_) l h) fun w1 h1 => ?_
        · simp only [tp_principal, tp_namespace, principal_eq, ns_none, ns_eq, ne_eq]
          split
          · exact tAddPrincipalRole h c p x.role c (some a) none []
          · exact .ok h
        · have := tAddPrincipalRole (ρ := ρ) h1 c p [] c (some a) none []
          rwa [ρ.role_nil] at this
      · exact .panic

include hs hk hc in
theorem tAssignScopesToPrincipal (h : Stored w) (site : List Val) (c : Nat) (p : Str) (ss : List Str) :
    Rel ρ (w.tAssignScopesToPrincipal (.byIndex σ) site c p ss)
      ((mgr ρ w).tAssignScopesToPrincipal (.byIndex σ') (site.map ρ.roles.val) c (ρ.principal p) (ss.map ρ.scope)) := by
  refine withT fun t _ => ?_
  have h2 : (tobj ρ t).managed = t.managed := rfl
  simp only [h2]
  split
  · refine Rel.query (principalRoles hs hk h hc site t.id p) fun l => ?_
    simp only [List.map_eq_nil_iff]
    split
    · exact .ok h
    · refine Rel.loop (fun w s h => ?_) ss h
      have h3 : (tobj ρ t).scopes.get (ρ.scope s) = t.scopes.get s := scopes_get _ _
      rw [h3]
      split
      · refine Rel.bind (Rel.loop (fun w x h => ?_) l h) fun w1 h1 => ?_
        · exact addWithDefault h c t p x.role (some s)
        · have := tAddPrincipalRole (ρ := ρ) h1 c p [] c none (some s) []
          rwa [ρ.role_nil] at this
      · exact .ok h
  · exact .panic

include hs hk hc in
theorem tAssignScopesWithRole (h : Stored w) (site : List Val) (c : Nat) (p r : Str) (ss : List Str) :
    Rel ρ (w.tAssignScopesWithRole (.byIndex σ) site c p r ss)
      ((mgr ρ w).tAssignScopesWithRole (.byIndex σ') (site.map ρ.roles.val) c (ρ.principal p) (ρ.role r) (ss.map ρ.scope)) := by
  unfold V1.tAssignScopesWithRole
  simp only [List.length_map]
  split
  · exact .ok h
  · refine withT fun t _ => ?_
    have h2 : (tobj ρ t).managed = t.managed := rfl
    simp only [h2]
    split
    · refine Rel.query (principalRoles hs hk h hc site t.id p) fun l => ?_
      have h4 : (tobj ρ t).roles.get (ρ.role r) = t.roles.get r := roles_get _ _
      simp only [List.map_eq_nil_iff, h4]
      split
      · exact .ok h
      · split
        · refine Rel.loop (fun w s h => ?_) ss h
          have h3 : (tobj ρ t).scopes.get (ρ.scope s) = t.scopes.get s := scopes_get _ _
          rw [h3]
          split
          · exact addWithDefault h c t p r (some s)
          · exact .ok h
        · exact .ok h
    · exact .panic

end

/-! ## Histories -/

theorem apply {op op' : V1Op} (hr : Renamed1 ρ op op') (hk : ρ.KeepsClean) (hc : ∀ x ∈ w.log, Clean x) (h : Stored w) :
    Rel ρ (op.apply w) (op'.apply (mgr ρ w)) := by
  cases hr with
  | role op =>
    have h1 := Opaque.roleOp (ρ := ρ.roles) op w.heap
    have h2 : (mgr ρ w).heap = Opaque.heap ρ.roles w.heap := rfl
    simp only [V1Op.apply]
    rw [h2, h1]
    cases op.apply w.heap with
    | panic => exact .panic
    | diverge => exact ⟨rfl, fun _ e => by cases e⟩
    | ok x => exact Rel.mk rfl h
  | newTenant id => exact Rel.mk (by simp [V1.newTenant, mgr, tobj, mapKeys]) h
  | newNamespace id => exact Rel.mk (by simp [V1.newNamespace, mgr, nsobj, mapKeys]) h
  | addTenant a => exact addTenant h a
  | addNamespace a => exact addNamespace h a
  | addScope id obj =>
    simp only [V1Op.apply, V1.addScope]
    have h1 : (mgr ρ w).scopes.get (ρ.scope id) = w.scopes.get id := scopes_get _ _
    rw [h1]
    cases w.scopes.get id with
    | some d => exact .ok h
    | none => exact Rel.mk (by simp [mgr]) h
  | addPrincipal id obj =>
    simp only [V1Op.apply, V1.addPrincipal]
    have h1 : (mgr ρ w).principals.get (ρ.principal id) = w.principals.get id := principals_get _ _
    rw [h1]
    cases w.principals.get id with
    | some d => exact .ok h
    | none => exact Rel.mk (by simp [mgr]) h
  | addRole r => exact addRole h r
  | addAttribute a obj =>
    simp only [V1Op.apply, V1.addAttribute]
    have h1 : (mgr ρ w).attrs = w.attrs := rfl
    rw [h1]
    cases w.attrs.get a.toStr with
    | some d => exact .ok h
    | none => exact Rel.mk (by simp [mgr]) h
  | addAttributeGroup ga => exact addAttributeGroup h ga
  | addPermissionsToRole r g as =>
    have h0 : (mgr ρ w).heap = Opaque.heap ρ.roles w.heap := rfl
    have h1 : (mgr ρ w).roles.get (ρ.role r) = w.roles.get r := roles_get _ _
    have h2 : (mgr ρ w).attrGroups.get (ρ.group g) = w.attrGroups.get g := groups_get _ _
    simp only [V1Op.apply, RHeap.addPermissionsToRole, h0, h1, h2]
    cases w.roles.get r with
    | none => exact .ok h
    | some a =>
      cases w.attrGroups.get g with
      | none => exact .ok h
      | some ga =>
        simp only [Opaque.heap_groups]
        cases w.heap.groups[ga]? with
        | none => exact .panic
        | some go =>
          have h3 : ∀ as, RHeap.allAssociated (Opaque.group ρ.roles go) as = RHeap.allAssociated go as := by
            intro as
            induction as with
            | nil => rfl
            | cons a as ih => simp only [RHeap.allAssociated, ih]; rfl
          simp only [Option.map_some, h3]
          split
          · have := Opaque.roleOp (ρ := ρ.roles) (.addPerm a g as) w.heap
            simp only [Renaming.roleOp, RoleOp.apply] at this
            have h6 : ρ.roles.group g = ρ.group g := rfl
            rw [h6] at this
            cases h4 : (Opaque.heap ρ.roles w.heap).addPermission a (ρ.group g) as <;> cases h5 : w.heap.addPermission a g as <;>
              rw [h4, h5] at this <;> simp at this ⊢
            · rw [this]; exact Rel.mk rfl h
            · exact .panic
            · exact ⟨rfl, fun _ e => by cases e⟩
          · exact .ok h
  | addPrincipalRole p r c ns sc m => exact addPrincipalRole h p r c ns sc m
  | tAddDescendent c ds => exact tAddDescendent h c ds
  | tSetDefaultNamespace c n => exact tSetDefaultNamespace h c n
  | tAddNamespace c ns => exact tAddNamespace h c ns
  | tAddRole c rs => exact tAddRole h c rs
  | tAddScopes c ss => exact tAddScopes h c ss
  | tAddScopesToNamespace c n ss => exact tAddScopesToNamespace c n ss h
  | tAddRolesToNamespace c n rs => exact tAddRolesToNamespace c n rs h
  | tAddPrincipalRole c p r d ns sc m => exact tAddPrincipalRole h c p r d ns sc m
  | tAddPrincipal c p rs => exact tAddPrincipal h c p rs
  | tAddPrincipalInNamespace σ σ' site c p n rs hs => exact tAddPrincipalInNamespace hs hk hc h site c p n rs
  | tAssignScopesToPrincipal σ σ' site c p ss hs => exact tAssignScopesToPrincipal hs hk hc h site c p ss
  | tAssignScopesWithRole σ σ' site c p r ss hs => exact tAssignScopesWithRole hs hk hc h site c p r ss
  | nsAddRoles n rs => exact nsAddRoles h n rs
  | nsAddScopes n ss => exact nsAddScopes h n ss

theorem log_mono {ops : List V1Op} {w1 : V1} (h : V1Op.run w ops = .ok w1) (inv : V1.Inv w) : ∀ x ∈ w.log, x ∈ w1.log := by
  induction ops generalizing w with
  | nil => cases h; exact fun _ h => h
  | cons op ops ih =>
    obtain ⟨w2, h1, h2⟩ := Out.bind_eq_ok.1 h
    have h3 := V1Op.good h1 inv
    obtain ⟨L, hL⟩ := h3.2.log
    exact fun x hx => ih h2 h3.1 x (by rw [hL]; simp [hx])

theorem run {ops ops' : List V1Op} (hr : List.Forall₂ (Renamed1 ρ) ops ops') (hk : ρ.KeepsClean) {w w1 : V1} (h : V1Op.run w ops = .ok w1)
    (inv : V1.Inv w) (hst : Stored w) (hc : ∀ x ∈ w1.log, Clean x) : V1Op.run (mgr ρ w) ops' = .ok (mgr ρ w1) ∧ Stored w1 := by
  induction hr generalizing w with
  | nil => cases h; exact ⟨rfl, hst⟩
  | cons h1 h2 ih =>
    have h0 := log_mono h inv
    obtain ⟨w2, h3, h4⟩ := Out.bind_eq_ok.1 h
    have h5 := apply h1 hk (fun x hx => hc x (h0 x hx)) hst
    rw [h3] at h5
    have h6 := ih h4 (V1Op.good h3 inv).1 (h5.2 _ rfl)
    refine ⟨?_, h6.2⟩
    rw [V1Op.run, h5.1]
    exact h6.1

/-! ## Decisions -/

/-- A request renamed. -/
def request (ρ : Renaming1) (r : Request) : Request :=
  { tenant := Renaming1.part ρ.tenant r.tenant, namespace_ := Renaming1.part ρ.ns r.namespace_, scope := Renaming1.part ρ.scope r.scope,
    group := Renaming1.part ρ.group r.group, activity := r.activity }

theorem foldl_opts (opts : List Opt) (r : Request) : (opts.map ρ.opt).foldl Opt.apply (request ρ r) = request ρ (opts.foldl Opt.apply r) := by
  induction opts generalizing r with
  | nil => rfl
  | cons x opts ih =>
    rw [List.map_cons, List.foldl_cons, List.foldl_cons, ← ih]
    cases x <;> rfl

theorem part_nil {f : Str → Str} (v : Val) : Renaming1.part f v = .nil ↔ v = .nil := by cases v <;> simp [Renaming1.part]

theorem part_toStr {f : Str → Str} (h0 : f [] = []) (v : Val) : toStr (Renaming1.part f v) = f (toStr v) := by
  cases v <;> simp [Renaming1.part, toStr, h0]

theorem withT' {α β : Type} {m : α → β} {f : T1Obj → Out α} {f' : T1Obj → Out β} (h : ∀ t, f' (tobj ρ t) = (f t).map m) (c : Nat) :
    (mgr ρ w).withT c f' = (w.withT c f).map m := by
  unfold V1.withT
  rw [mgr_tobjs]
  cases w.tobjs[c]? with
  | none => rfl
  | some t => exact h t

theorem withTB {f f' : T1Obj → Out Bool} (h : ∀ t, f' (tobj ρ t) = f t) (c : Nat) : (mgr ρ w).withT c f' = w.withT c f := by
  have := withT' (ρ := ρ) (w := w) (m := id) (f := f) (f' := f') (fun t => by rw [h t]; cases f t <;> rfl) c
  rw [this]
  cases w.withT c f <;> rfl

/-- The order of a loop over a map with renamed keys. -/
theorem keys_ord {σ σ' : List Val → List Nat} (hs : SameOrders ρ.roles σ σ') {f : Str → Str} (site : List Val) (m : GoMap Str Nat) :
    (Ord.byIndex σ').ord (site.map ρ.roles.val) _ (mapKeys f m) = ((Ord.byIndex σ).ord site _ m).map fun e => (f e.1, e.2) :=
  ord_map hs site _ m

theorem pickRoles (t : T1Obj) (l : List TP) (n s : Str) (nss nrs : List Str) :
    V1.pickRoles (tobj ρ t) (l.map ρ.tp) (ρ.ns n) (ρ.scope s) (nss.map ρ.scope) (nrs.map ρ.role) = (V1.pickRoles t l n s nss nrs).map (·.map ρ.role) := by
  have h1 : ((l.map ρ.tp).filter fun y => decide (y.scope ≠ [])).map (·.scope) = ((l.filter fun y => decide (y.scope ≠ [])).map (·.scope)).map ρ.scope := by
    rw [filter_tp (P := fun y => decide (y.scope ≠ [])) (fun x => by simp), List.map_map, List.map_map]; rfl
  have h2 : ((l.map ρ.tp).filter fun y => decide (y.namespace_ ≠ [] ∧ y.scope ≠ [])) = (l.filter fun y => decide (y.namespace_ ≠ [] ∧ y.scope ≠ [])).map ρ.tp :=
    filter_tp (fun x => by simp) l
  have h3 : ((l.map ρ.tp).filter fun y => decide (y.namespace_ = [] ∧ y.scope = [])) = (l.filter fun y => decide (y.namespace_ = [] ∧ y.scope = [])).map ρ.tp :=
    filter_tp (fun x => by simp) l
  unfold V1.pickRoles
  simp only [h1, h2, h3]
  generalize (l.filter fun y => decide (y.scope ≠ [])).map (·.scope) = scs
  generalize (l.filter fun y => decide (y.namespace_ ≠ [] ∧ y.scope ≠ [])) = nsr
  generalize (l.filter fun y => decide (y.namespace_ = [] ∧ y.scope = [])) = tr
  have h4 : (nsr.map ρ.tp).filter (fun y => decide (y.namespace_ = ρ.ns n ∧ y.scope = ρ.scope s)) =
      (nsr.filter fun y => decide (y.namespace_ = n ∧ y.scope = s)).map ρ.tp := filter_tp (fun x => by simp) nsr
  have h5 : (tr.map ρ.tp).map (·.role) = (tr.map (·.role)).map ρ.role := by rw [List.map_map, List.map_map]; rfl
  have h6 : ∀ l : List TP, (l.map ρ.tp).map (·.role) = (l.map (·.role)).map ρ.role := fun l => by rw [List.map_map, List.map_map]; rfl
  have h7 : (if 0 < (nrs.map ρ.role).length then nrs.map ρ.role else (tr.map ρ.tp).map (·.role)) =
      (if 0 < nrs.length then nrs else tr.map (·.role)).map ρ.role := by
    rw [h5, List.length_map]; split <;> rfl
  simp only [h7]
  generalize (if 0 < nrs.length then nrs else tr.map (·.role)) = al
  simp only [h4, h6, List.length_map, mem_map_inj ρ.scope_inj, ne_eq, ns_none, scope_none]
  split
  · rfl
  · have h8 : (if ¬n = [] ∧ ¬s = [] ∧ 0 < nsr.length then al.map ρ.role ++ ((nsr.filter fun y => decide (y.namespace_ = n ∧ y.scope = s)).map (·.role)).map ρ.role
        else al.map ρ.role) =
        (if ¬n = [] ∧ ¬s = [] ∧ 0 < nsr.length then al ++ (nsr.filter fun y => decide (y.namespace_ = n ∧ y.scope = s)).map (·.role) else al).map ρ.role := by
      split <;> simp
    rw [h8]
    generalize (if ¬n = [] ∧ ¬s = [] ∧ 0 < nsr.length then al ++ (nsr.filter fun y => decide (y.namespace_ = n ∧ y.scope = s)).map (·.role) else al) = al
    have h9 : (∀ r ∈ al.map ρ.role, ((tobj ρ t).roles.get r).isSome) ↔ ∀ r ∈ al, (t.roles.get r).isSome := by
      have h10 : ∀ r, (tobj ρ t).roles.get (ρ.role r) = t.roles.get r := fun r => roles_get _ _
      constructor
      · intro h r hr
        rw [← h10]
        exact h _ (List.mem_map.2 ⟨r, hr, rfl⟩)
      · intro h r hr
        obtain ⟨r0, hr0, rfl⟩ := List.mem_map.1 hr
        rw [h10]
        exact h r0 hr0
    simp only [h9, slicesCompact_map ρ.role_inj]
    split <;> rfl

section
variable {σ σ' : List Val → List Nat} (hs : SameOrders ρ.roles σ σ')

include hs in
theorem namespaceLists (site : List Val) (t : T1Obj) (n : Str) :
    (mgr ρ w).namespaceLists (.byIndex σ') (site.map ρ.roles.val) (tobj ρ t) (ρ.ns n) =
      (w.namespaceLists (.byIndex σ) site t n).map fun x => (x.1.map ρ.scope, x.2.map ρ.role) := by
  unfold V1.namespaceLists
  have h1 : (tobj ρ t).namespaces.get (ρ.ns n) = t.namespaces.get n := ns_get _ _
  rw [h1]
  cases t.namespaces.get n with
  | none => rfl
  | some a =>
    simp only [mgr_nsobjs]
    cases w.nsobjs[a]? with
    | none => rfl
    | some no =>
      have h2 := keys_ord hs (f := ρ.scope) (site ++ [.int 0]) no.scopes
      have h3 := keys_ord hs (f := ρ.role) (site ++ [.int 1]) no.roles
      rw [List.map_append] at h2 h3
      have h4 : (nsobj ρ no).scopes = mapKeys ρ.scope no.scopes := rfl
      have h5 : (nsobj ρ no).roles = mapKeys ρ.role no.roles := rfl
      simp only [Option.map_some, h4, h5]
      have h6 : ∀ n : Nat, [(.int n : Val)].map ρ.roles.val = [.int n] := fun _ => rfl
      simp only [List.map_cons, List.map_nil, Opaque.val_int] at h2 h3
      rw [h2, h3]
      simp

include hs in
theorem getAllowedRoles (site : List Val) (prs : Option (List TP)) (n s : Str) :
    (mgr ρ w).getAllowedRoles (.byIndex σ') (site.map ρ.roles.val) (prs.map (·.map ρ.tp)) (ρ.ns n) (ρ.scope s) =
      (w.getAllowedRoles (.byIndex σ) site prs n s).map (·.map (·.map ρ.role)) := by
  match prs with
  | none => rfl
  | some [] => rfl
  | some (x :: xs) =>
    simp only [V1.getAllowedRoles, Option.map_some, List.map_cons]
    have h1 : (mgr ρ w).tenants.get (ρ.tp x).tenant = w.tenants.get x.tenant := tenants_get _ _
    rw [h1]
    cases w.tenants.get x.tenant with
    | none => rfl
    | some c =>
      refine withT' (fun t => ?_) c
      have h2 : (tobj ρ t).scopes.get (ρ.scope s) = t.scopes.get s := scopes_get _ _
      have h3 : (tobj ρ t).namespaces.get (ρ.ns n) = t.namespaces.get n := ns_get _ _
      simp only [h2, h3, ne_eq, scope_none, ns_none, namespaceLists hs]
      split
      · rfl
      · cases w.namespaceLists (.byIndex σ) site t n with
        | panic => rfl
        | diverge => rfl
        | ok nss =>
          simp only [Out.map_ok]
          have := pickRoles (ρ := ρ) t (x :: xs) n s nss.1 nss.2
          rw [List.map_cons] at this
          rw [this]

end

theorem nilSlice (l : List TP) : V1.nilSlice (l.map ρ.tp) = (V1.nilSlice l).map (·.map ρ.tp) := by
  unfold V1.nilSlice
  simp only [List.map_eq_nil_iff]
  split <;> rfl

theorem registeredRoles (ids : List Str) : (mgr ρ w).registeredRoles (ids.map ρ.role) = mapKeys ρ.role (w.registeredRoles ids) := by
  unfold V1.registeredRoles
  have key : ∀ m : GoMap Str Nat, (ids.map ρ.role).foldl (fun m r => match (mgr ρ w).roles.get r with
      | some a => m.set r a
      | none => m) (mapKeys ρ.role m) = mapKeys ρ.role (ids.foldl (fun m r => match w.roles.get r with
      | some a => m.set r a
      | none => m) m) := by
    induction ids with
    | nil => intro m; rfl
    | cons r ids ih =>
      intro m
      have h1 : (mgr ρ w).roles.get (ρ.role r) = w.roles.get r := roles_get _ _
      rw [List.map_cons, List.foldl_cons, List.foldl_cons, ← ih, h1]
      cases w.roles.get r with
      | none => rfl
      | some a => simp only [roles_set]
  exact key []

section
variable {σ σ' : List Val → List Nat} (hs : SameOrders ρ.roles σ σ')

include hs in
theorem anyRole (fuel : Nat) (site : List Val) (roles : GoMap Str Nat) (group act : Str) (allowed : List Str) :
    (mgr ρ w).anyRole (.byIndex σ') fuel (site.map ρ.roles.val) (mapKeys ρ.role roles) (ρ.group group) act (allowed.map ρ.role) =
      w.anyRole (.byIndex σ) fuel site roles group act allowed := by
  unfold V1.anyRole
  have h1 := keys_ord hs (f := ρ.role) (site ++ [.int 0]) roles
  simp only [List.map_append, List.map_cons, List.map_nil, Opaque.val_int] at h1
  rw [h1]
  refine anyI_map (fun i e => ?_) _ 0
  have h2 := Opaque.has hs w.heap group act allowed fuel (site ++ [.int 1, .int i]) e.2
  simp only [List.map_append, List.map_cons, List.map_nil, Opaque.val_int] at h2
  exact h2

variable (hk : ρ.KeepsClean) (hst : Stored w) (hc : ∀ x ∈ w.log, Clean x)

theorem map_self {x : Out Bool} : x.map (fun b => b) = x := by cases x <;> rfl

include hs hk hst hc in
theorem authNamespace (site : List Val) (p n : Str) :
    (mgr ρ w).authNamespace (.byIndex σ') (site.map ρ.roles.val) (ρ.principal p) (ρ.ns n) = w.authNamespace (.byIndex σ) site p n := by
  have h1 := tenantsForPrincipal hs hk hst hc (site ++ [.int 0]) p
  simp only [List.map_append, List.map_cons, List.map_nil, Opaque.val_int] at h1
  refine Opaque.out_map_bind h1 fun ts => anyI_map (fun i t => ?_) ts 0
  have h2 : (mgr ρ w).tenants.get (ρ.tenant t) = w.tenants.get t := tenants_get _ _
  rw [h2]
  cases w.tenants.get t with
  | none => rfl
  | some c =>
    refine withTB (fun u => ?_) c
    have h3 : (tobj ρ u).namespaces.get (ρ.ns n) = u.namespaces.get n := ns_get _ _
    rw [h3]

include hs hk hst hc in
theorem authScope (site : List Val) (p s : Str) :
    (mgr ρ w).authScope (.byIndex σ') (site.map ρ.roles.val) (ρ.principal p) (ρ.scope s) = w.authScope (.byIndex σ) site p s := by
  have h1 := tenantsForPrincipal hs hk hst hc (site ++ [.int 0]) p
  simp only [List.map_append, List.map_cons, List.map_nil, Opaque.val_int] at h1
  refine Opaque.out_map_bind h1 fun ts => anyI_map (fun i t => ?_) ts 0
  have h2 : (mgr ρ w).tenants.get (ρ.tenant t) = w.tenants.get t := tenants_get _ _
  rw [h2]
  cases w.tenants.get t with
  | none => rfl
  | some c =>
    refine withTB (fun u => ?_) c
    have h3 : (tobj ρ u).scopes.get (ρ.scope s) = u.scopes.get s := scopes_get _ _
    have h4 := principalRoles hs hk hst hc (site ++ [.int 1, .int i]) u.id p
    simp only [List.map_append, List.map_cons, List.map_nil, Opaque.val_int] at h4
    have h5 : (tobj ρ u).id = ρ.tenant u.id := rfl
    rw [h3, h5, h4]
    split
    · cases w.principalRoles (.byIndex σ) (site ++ [.int 1, .int i]) u.id p with
      | panic => rfl
      | diverge => rfl
      | ok l =>
        simp only [Out.map_ok]
        rw [any_tp (P := fun x => decide (x.scope = s)) (fun x => by simp)]
    · rfl

include hs hk hst hc in
theorem authTN (site : List Val) (p t n : Str) :
    (mgr ρ w).authTN (.byIndex σ') (site.map ρ.roles.val) (ρ.principal p) (ρ.tenant t) (ρ.ns n) = w.authTN (.byIndex σ) site p t n := by
  unfold V1.authTN
  rw [principalRoles hs hk hst hc]
  cases w.principalRoles (.byIndex σ) site t p with
  | panic => rfl
  | diverge => rfl
  | ok l =>
    simp only [Out.map_ok]
    rw [any_tp (P := fun x => decide (x.namespace_ = n)) (fun x => by simp)]

include hs hk hst hc in
theorem authTS (site : List Val) (p t s : Str) :
    (mgr ρ w).authTS (.byIndex σ') (site.map ρ.roles.val) (ρ.principal p) (ρ.tenant t) (ρ.scope s) = w.authTS (.byIndex σ) site p t s := by
  unfold V1.authTS
  rw [principalRoles hs hk hst hc]
  cases w.principalRoles (.byIndex σ) site t p with
  | panic => rfl
  | diverge => rfl
  | ok l =>
    simp only [Out.map_ok]
    rw [any_tp (P := fun x => decide (x.scope = s)) (fun x => by simp)]

include hs hk hst hc in
theorem authNS (site : List Val) (p n s : Str) :
    (mgr ρ w).authNS (.byIndex σ') (site.map ρ.roles.val) (ρ.principal p) (ρ.ns n) (ρ.scope s) = w.authNS (.byIndex σ) site p n s := by
  have h1 := tenantsForPrincipal hs hk hst hc (site ++ [.int 0]) p
  simp only [List.map_append, List.map_cons, List.map_nil, Opaque.val_int] at h1
  refine Opaque.out_map_bind h1 fun ts => anyI_map (fun i t => ?_) ts 0
  have h4 := principalRoles hs hk hst hc (site ++ [.int 1, .int i]) t p
  simp only [List.map_append, List.map_cons, List.map_nil, Opaque.val_int] at h4
  rw [h4]
  cases w.principalRoles (.byIndex σ) (site ++ [.int 1, .int i]) t p with
  | panic => rfl
  | diverge => rfl
  | ok l =>
    simp only [Out.map_ok]
    rw [any_tp (P := fun x => decide (x.namespace_ = n ∧ x.scope = s)) (fun x => by simp)]

include hs hk hst hc in
theorem authTNS (site : List Val) (p t n s : Str) :
    (mgr ρ w).authTNS (.byIndex σ') (site.map ρ.roles.val) (ρ.principal p) (ρ.tenant t) (ρ.ns n) (ρ.scope s) = w.authTNS (.byIndex σ) site p t n s := by
  have h1 := principalRoles hs hk hst hc (site ++ [.int 0]) t p
  simp only [List.map_append, List.map_cons, List.map_nil, Opaque.val_int] at h1
  refine Opaque.out_map_bind h1 fun l => ?_
  rw [any_tp (P := fun x => decide (x.namespace_ = n ∧ x.scope = s)) (fun x => by simp)]
  split
  · rfl
  · have h4 := tenantRoles hs hk hst hc (site ++ [.int 1]) t
    simp only [List.map_append, List.map_cons, List.map_nil, Opaque.val_int] at h4
    rw [h4]
    cases w.tenantRoles (.byIndex σ) (site ++ [.int 1]) t with
    | panic => rfl
    | diverge => rfl
    | ok l =>
      simp only [Out.map_ok]
      rw [any_tp (P := fun x => decide (x.namespace_ = n ∧ x.scope = s)) (fun x => by simp)]

include hs hk hst hc in
theorem authActivity (fuel : Nat) (site : List Val) (p act : Str) :
    (mgr ρ w).authActivity (.byIndex σ') fuel (site.map ρ.roles.val) (ρ.principal p) act = w.authActivity (.byIndex σ) fuel site p act := by
  have h1 := tenantsForPrincipal hs hk hst hc (site ++ [.int 0]) p
  simp only [List.map_append, List.map_cons, List.map_nil, Opaque.val_int] at h1
  refine Opaque.out_map_bind h1 fun ts => ?_
  refine Opaque.out_map_bind (m := fun l : List Str => l.map ρ.role) (Opaque.collectI_map2 (k := ρ.role) (fun i t => ?_) 0 ts) fun ids => ?_
  · have h4 := principalRoles hs hk hst hc (site ++ [.int 1, .int i]) t p
    simp only [List.map_append, List.map_cons, List.map_nil, Opaque.val_int] at h4
    refine bind_map h4 fun l _ => ?_
    have h5 := getAllowedRoles (w := w) hs (site ++ [.int 2, .int i]) (V1.nilSlice l) [] []
    simp only [List.map_append, List.map_cons, List.map_nil, Opaque.val_int, ρ.ns_nil, ρ.scope_nil] at h5
    rw [nilSlice, h5]
    cases w.getAllowedRoles (.byIndex σ) (site ++ [.int 2, .int i]) (V1.nilSlice l) [] [] with
    | panic => rfl
    | diverge => rfl
    | ok x => cases x <;> rfl
  · have h6 := anyRole (w := w) hs fuel (site ++ [.int 3]) (w.registeredRoles (slicesCompact ids)) [] act (slicesCompact ids)
    simp only [List.map_append, List.map_cons, List.map_nil, Opaque.val_int, ρ.group_nil] at h6
    simp only [slicesCompact_map ρ.role_inj, registeredRoles]
    exact h6

include hs in
theorem allowedRoleIDs (site : List Val) (t : T1Obj) (roles : List Str) :
    (mgr ρ w).allowedRoleIDs (.byIndex σ') (site.map ρ.roles.val) (tobj ρ t) (roles.map ρ.role) =
      (w.allowedRoleIDs (.byIndex σ) site t roles).map (·.map ρ.role) := by
  unfold V1.allowedRoleIDs
  have h1 := keys_ord hs (f := ρ.role) site t.roles
  have h2 : (tobj ρ t).roles = mapKeys ρ.role t.roles := rfl
  rw [h2, h1]
  refine Opaque.collectI_map2 (fun i e => ?_) 0 _
  simp only [mgr_roles]
  cases w.heap.roles[e.2]? with
  | none => rfl
  | some ro =>
    have h3 : (Opaque.role ρ.roles ro).id = ρ.role ro.id := rfl
    simp only [Option.map_some, h3, Out.map_ok]
    rw [List.filter_map, List.map_map, List.map_map]
    have h4 : ((fun rt => decide (ρ.role ro.id = rt)) ∘ ρ.role) = fun rt => decide (ro.id = rt) := by
      funext x
      simp
    rw [h4]
    rfl

include hs hk hst hc in
theorem authComplex (fuel : Nat) (site : List Val) (p : Str) (r : Request) :
    (mgr ρ w).authComplex (.byIndex σ') fuel (site.map ρ.roles.val) (ρ.principal p) (request ρ r) = w.authComplex (.byIndex σ) fuel site p r := by
  unfold V1.authComplex
  have e1 : toStr (request ρ r).tenant = ρ.tenant (toStr r.tenant) := part_toStr ρ.tenant_nil _
  have e2 : toStr (request ρ r).namespace_ = ρ.ns (toStr r.namespace_) := part_toStr ρ.ns_nil _
  have e3 : toStr (request ρ r).scope = ρ.scope (toStr r.scope) := part_toStr ρ.scope_nil _
  have e4 : toStr (request ρ r).group = ρ.group (toStr r.group) := part_toStr ρ.group_nil _
  have e5 : (request ρ r).activity = r.activity := rfl
  have h1 : (mgr ρ w).tenants.get (ρ.tenant (toStr r.tenant)) = w.tenants.get (toStr r.tenant) := tenants_get _ _
  simp only [e1, e2, e3, e4, e5, h1]
  cases w.tenants.get (toStr r.tenant) with
  | none => rfl
  | some c =>
    refine withTB (fun t => ?_) c
    have h4 := principalRoles hs hk hst hc (site ++ [.int 0]) (toStr r.tenant) p
    simp only [List.map_append, List.map_cons, List.map_nil, Opaque.val_int] at h4
    refine Opaque.out_map_bind h4 fun l => ?_
    have h2 : (tobj ρ t).scopes.get (ρ.scope (toStr r.scope)) = t.scopes.get (toStr r.scope) := scopes_get _ _
    have h3 : (tobj ρ t).namespaces.get (ρ.ns (toStr r.namespace_)) = t.namespaces.get (toStr r.namespace_) := ns_get _ _
    simp only [List.map_eq_nil_iff, h2, h3, ne_eq, ns_none, scope_none]
    split
    · rfl
    · split
      · rfl
      · split
        · rfl
        · have h5 := getAllowedRoles (w := w) hs (site ++ [.int 1]) (V1.nilSlice l) (toStr r.namespace_) (toStr r.scope)
          simp only [List.map_append, List.map_cons, List.map_nil, Opaque.val_int] at h5
          rw [nilSlice]
          refine Opaque.out_map_bind h5 fun al => ?_
          have h6 := allowedRoleIDs (w := w) hs (site ++ [.int 2]) t (al.getD [])
          simp only [List.map_append, List.map_cons, List.map_nil, Opaque.val_int] at h6
          have h7 : (al.map (·.map ρ.role)).getD [] = (al.getD []).map ρ.role := by cases al <;> rfl
          rw [h7]
          refine Opaque.out_map_bind h6 fun ids => ?_
          have h8 := anyRole (w := w) hs fuel (site ++ [.int 3]) (w.registeredRoles (l.map (·.role))) (toStr r.group) (toStr r.activity) ids
          simp only [List.map_append, List.map_cons, List.map_nil, Opaque.val_int] at h8
          have h9 : (l.map ρ.tp).map (·.role) = (l.map (·.role)).map ρ.role := by rw [List.map_map, List.map_map]; rfl
          rw [h9, registeredRoles]
          exact h8

include hs hk hst hc in
theorem authorize (fuel : Nat) (site : List Val) (p : Str) (opts : List Opt) :
    (mgr ρ w).authorize (.byIndex σ') fuel (site.map ρ.roles.val) (ρ.principal p) (opts.map ρ.opt) = w.authorize (.byIndex σ) fuel site p opts := by
  unfold V1.authorize
  have h1 := foldl_opts (ρ := ρ) opts {}
  have h2 : request ρ {} = {} := rfl
  rw [h2] at h1
  rw [h1]
  generalize opts.foldl Opt.apply {} = r
  unfold V1.answer
  have h3 : (mgr ρ w).principals.get (ρ.principal p) = w.principals.get p := principals_get _ _
  rw [h3]
  cases w.principals.get p with
  | none => rfl
  | some _ =>
    have e1 : toStr (request ρ r).tenant = ρ.tenant (toStr r.tenant) := part_toStr ρ.tenant_nil _
    have e2 : toStr (request ρ r).namespace_ = ρ.ns (toStr r.namespace_) := part_toStr ρ.ns_nil _
    have e3 : toStr (request ρ r).scope = ρ.scope (toStr r.scope) := part_toStr ρ.scope_nil _
    have e5 : (request ρ r).activity = r.activity := rfl
    have n1 : (request ρ r).tenant = .nil ↔ r.tenant = .nil := part_nil _
    have n2 : (request ρ r).namespace_ = .nil ↔ r.namespace_ = .nil := part_nil _
    have n3 : (request ρ r).scope = .nil ↔ r.scope = .nil := part_nil _
    have n4 : (request ρ r).group = .nil ↔ r.group = .nil := part_nil _
    have a1 : (mgr ρ w).authTenant (ρ.tenant (toStr r.tenant)) = w.authTenant (toStr r.tenant) := by
      unfold V1.authTenant
      have : (mgr ρ w).tenants.get (ρ.tenant (toStr r.tenant)) = w.tenants.get (toStr r.tenant) := tenants_get _ _
      rw [this]
    simp only [e1, e2, e3, e5, ne_eq, n1, n2, n3, n4, a1, authNamespace hs hk hst hc, authScope hs hk hst hc, authActivity hs hk hst hc,
      authTN hs hk hst hc, authTS hs hk hst hc, authNS hs hk hst hc, authTNS hs hk hst hc, authComplex hs hk hst hc]

end
end Opaque1

/-! ## Theorems -/

/-- C143, as one would expect it: a history with all ids renamed leads to the same decisions. -/
def V1.C143_full : Prop := ∀ (ρ : Renaming1) (ops ops' : List V1Op) (w : V1), List.Forall₂ (Renamed1 ρ) ops ops' → V1Op.run {} ops = .ok w →
  ∃ w', V1Op.run {} ops' = .ok w' ∧ ∀ σ σ' fuel site p opts, SameOrders ρ.roles σ σ' →
    w'.authorize (.byIndex σ') fuel (site.map ρ.roles.val) (ρ.principal p) (opts.map ρ.opt) = w.authorize (.byIndex σ) fuel site p opts

/-- C143 where neither the old nor the new ids of assignments contain `_`: ids have no meaning beyond being equal or not, and each
kind may be renamed on its own.  Missing are ids with `_`, for which the statement is false (`C143_full_false`, `C143_old_false`). -/
theorem V1.C143_partial (ρ : Renaming1) (hk : ρ.KeepsClean) {ops ops' : List V1Op} (hr : List.Forall₂ (Renamed1 ρ) ops ops') {w : V1}
    (h : V1Op.run {} ops = .ok w) (hc : ∀ x ∈ w.log, Clean x) :
    ∃ w', V1Op.run {} ops' = .ok w' ∧ w'.log = w.log.map ρ.tp ∧ ∀ σ σ' fuel site p opts, SameOrders ρ.roles σ σ' →
      w'.authorize (.byIndex σ') fuel (site.map ρ.roles.val) (ρ.principal p) (opts.map ρ.opt) = w.authorize (.byIndex σ) fuel site p opts := by
  have h0 := Opaque1.run hr hk h V1.Inv.empty rfl hc
  exact ⟨_, h0.1, rfl, fun σ σ' fuel site p opts hs => Opaque1.authorize hs hk h0.2 hc fuel site p opts⟩

/-- C143, for the queries: the renamed history lists the same tenants of a principal under their new names, and the same rows. -/
theorem V1.C143_queries (ρ : Renaming1) (hk : ρ.KeepsClean) {ops ops' : List V1Op} (hr : List.Forall₂ (Renamed1 ρ) ops ops') {w w' : V1}
    (h : V1Op.run {} ops = .ok w) (h' : V1Op.run {} ops' = .ok w') (hc : ∀ x ∈ w.log, Clean x) {σ σ' : List Val → List Nat}
    (hs : SameOrders ρ.roles σ σ') (site : List Val) :
    (∀ p, w'.tenantsForPrincipal (.byIndex σ') (site.map ρ.roles.val) (ρ.principal p) = (w.tenantsForPrincipal (.byIndex σ) site p).map (·.map ρ.tenant)) ∧
    (∀ t p, w'.principalRoles (.byIndex σ') (site.map ρ.roles.val) (ρ.tenant t) (ρ.principal p) =
      (w.principalRoles (.byIndex σ) site t p).map (·.map ρ.tp)) ∧
    ∀ l n s, w'.getAllowedRoles (.byIndex σ') (site.map ρ.roles.val) (l.map (·.map ρ.tp)) (ρ.ns n) (ρ.scope s) =
      (w.getAllowedRoles (.byIndex σ) site l n s).map (·.map (·.map ρ.role)) := by
  have h0 := Opaque1.run hr hk h V1.Inv.empty rfl hc
  have h1 : w' = Opaque1.mgr ρ w := by
    have : V1Op.run {} ops' = _ := h0.1
    rw [h'] at this
    cases this; rfl
  subst h1
  exact ⟨fun p => Opaque1.tenantsForPrincipal hs hk h0.2 hc site p, fun t p => Opaque1.principalRoles hs hk h0.2 hc site t p,
    fun l n s => Opaque1.getAllowedRoles hs site l n s⟩

/-! ## Examples -/

namespace Opaque1
open Opaque2 (pre pre_inj)

/-- Every kind of id gets another letter; principals get the given one. -/
def exRho (b : UInt8) : Renaming1 where
  tenant := pre 116
  principal := pre b
  ns := pre 110
  scope := pre 115
  role := pre 114
  group := pre 103
  tenant_inj := pre_inj _
  principal_inj := pre_inj _
  ns_inj := pre_inj _
  scope_inj := pre_inj _
  role_inj := pre_inj _
  group_inj := pre_inj _
  tenant_nil := rfl
  principal_nil := rfl
  ns_nil := rfl
  scope_nil := rfl
  role_nil := rfl
  group_nil := rfl

theorem pre_clean {b : UInt8} (hb : b ≠ 95) {s : Str} (h : NoUnderscore s) : NoUnderscore (pre b s) := by
  unfold pre
  split
  · simp [NoUnderscore]
  · intro hm
    rcases List.mem_cons.1 hm with hm | hm
    · exact hb hm.symm
    · exact h hm

theorem exRho_clean : (exRho 112).KeepsClean := fun _ ⟨h1, h2, h3, h4, h5⟩ =>
  ⟨pre_clean (by decide) h1, pre_clean (by decide) h2, pre_clean (by decide) h3, pre_clean (by decide) h4, pre_clean (by decide) h5⟩

/-- A tenant with a namespace, a scope and a role with one activity; `p` has the role in the scope, `x` has nothing. -/
def exOps (o : Ord) (t n s r g p x : Str) : List V1Op :=
  [.newTenant t, .newNamespace n, .addTenant 0, .addNamespace 0, .role (.newRole r), .addRole 0, .role (.addPerm 0 g [⟨str "/a", str "GET"⟩]),
   .addPrincipal p 0, .addPrincipal x 1, .tAddRole 0 [0], .tAddScopes 0 [(s, 0)], .tAddNamespace 0 [0], .tSetDefaultNamespace 0 n,
   .tAddScopesToNamespace 0 n [s], .tAddPrincipal 0 p [r], .tAssignScopesWithRole o [] 0 p r [s]]

theorem exRenamed (b : UInt8) (p x : Str) : List.Forall₂ (Renamed1 (exRho b)) (exOps Opaque.exOrd (str "t") (str "n") (str "s") (str "r") (str "g") p x)
    (exOps Opaque.exOrd (str "tt") (str "nn") (str "ss") (str "rr") (str "gg") (pre b p) (pre b x)) := by
  have h1 := Renamed1.role (ρ := exRho b) (.newRole (str "r"))
  have h2 := Renamed1.role (ρ := exRho b) (.addPerm 0 (str "g") [⟨str "/a", str "GET"⟩])
  have h3 := Renamed1.tAssignScopesWithRole (ρ := exRho b) (fun _ => []) (fun _ => []) [] 0 p (str "r") [str "s"] (fun _ => rfl)
  exact .cons (.newTenant _) <| .cons (.newNamespace _) <| .cons (.addTenant _) <| .cons (.addNamespace _) <| .cons h1 <| .cons (.addRole _) <| .cons h2 <|
    .cons (.addPrincipal _ _) <| .cons (.addPrincipal _ _) <| .cons (.tAddRole _ _) <| .cons (.tAddScopes _ _) <| .cons (.tAddNamespace _ _) <|
    .cons (.tSetDefaultNamespace _ _) <| .cons (.tAddScopesToNamespace _ _ _) <| .cons (.tAddPrincipal _ _ _) <| .cons h3 .nil

def exAsk (t n s g : Str) : List Opt :=
  [.tenant (.str t), .namespace_ (.str n), .scope (.str s), .group (.str g), .activity (.str (str "/a GET"))]

instance (s : Str) : Decidable (NoUnderscore s) := inferInstanceAs (Decidable (_ ∉ _))
instance (x : TP) : Decidable (Clean x) := inferInstanceAs (Decidable (_ ∧ _))

/-- C143: a history meeting the hypotheses of `C143_partial`, in which `p` is granted and `x` is not. -/
example : (exRho 112).KeepsClean ∧ List.Forall₂ (Renamed1 (exRho 112)) (exOps Opaque.exOrd (str "t") (str "n") (str "s") (str "r") (str "g") (str "p") (str "x"))
      (exOps Opaque.exOrd (str "tt") (str "nn") (str "ss") (str "rr") (str "gg") (str "pp") (str "px")) ∧
    ∃ w, V1Op.run {} (exOps .fwd (str "t") (str "n") (str "s") (str "r") (str "g") (str "p") (str "x")) = .ok w ∧ (∀ x ∈ w.log, Clean x) ∧
      w.authorize .fwd 5 [] (str "p") (exAsk (str "t") (str "n") (str "s") (str "g")) = .ok true ∧
      w.authorize .fwd 5 [] (str "x") (exAsk (str "t") (str "n") (str "s") (str "g")) = .ok false :=
  ⟨exRho_clean, exRenamed 112 (str "p") (str "x"), Out.chk_ok (by decide +kernel)⟩

/-- C143: so it is in the renamed history. -/
example : ∃ w, V1Op.run {} (exOps .fwd (str "tt") (str "nn") (str "ss") (str "rr") (str "gg") (str "pp") (str "px")) = .ok w ∧
    w.authorize .fwd 5 [] (str "pp") (exAsk (str "tt") (str "nn") (str "ss") (str "gg")) = .ok true ∧
    w.authorize .fwd 5 [] (str "px") (exAsk (str "tt") (str "nn") (str "ss") (str "gg")) = .ok false := Out.chk_ok (by decide +kernel)

/-- A history whose renamed form answers differently. -/
theorem differ {ops ops' : List V1Op} {b : UInt8} (hr : List.Forall₂ (Renamed1 (exRho b)) ops ops') {p : Str} {opts : List Opt} {x y : Bool}
    (h1 : (V1Op.run {} ops).Chk fun w => w.authorize .fwd 5 [] p opts = .ok x)
    (h2 : (V1Op.run {} ops').Chk fun w => w.authorize .fwd 5 [] (pre b p) (opts.map (exRho b).opt) = .ok y) (hxy : x ≠ y) : ¬ V1.C143_full := by
  intro h
  obtain ⟨w, h3, h4⟩ := Out.chk_ok h1
  obtain ⟨w', h5, h6⟩ := Out.chk_ok h2
  obtain ⟨w1, h7, h8⟩ := h _ _ _ w hr h3
  rw [h5] at h7
  cases h7
  have h9 := h8 (fun _ => []) (fun _ => []) 5 [] p opts (fun _ => rfl)
  have h10 : Ord.byIndex (fun _ => []) = .fwd := Opaque.exOrd_eq
  rw [h10, h4] at h9
  have h11 : w'.authorize .fwd 5 [] (pre b p) (opts.map (exRho b).opt) = .ok x := h9
  rw [h6] at h11
  cases h11
  exact hxy rfl

end Opaque1

/-- C143: the statement without conditions is false.  Here the old ids have no `_`, and the new ids of principals begin with it:
the stored assignments are cut before the name, and what was granted is denied. -/
theorem V1.C143_full_false : ¬ V1.C143_full := by
  have hr := Opaque1.exRenamed 95 (str "p") (str "x")
  rw [Opaque.exOrd_eq] at hr
  exact Opaque1.differ hr (p := str "p") (opts := Opaque1.exAsk (str "t") (str "n") (str "s") (str "g")) (x := true) (y := false)
    (by decide +kernel) (by decide +kernel) (by decide)

/-- C143: it is false also of renamings that keep ids free of `_`, if an old id has one.  The principal `a_b` has the role `r` in `t`, and
this is read as the role `b` of `a` in a tenant `r` and a namespace `t`; under new names `a` is not granted these. -/
theorem V1.C143_old_false : (Opaque1.exRho 112).KeepsClean ∧ ∃ (ops ops' : List V1Op) (w w' : V1), List.Forall₂ (Renamed1 (Opaque1.exRho 112)) ops ops' ∧
    V1Op.run {} ops = .ok w ∧ V1Op.run {} ops' = .ok w' ∧
    w.authorize .fwd 5 [] (str "a") [.tenant (.str (str "r")), .namespace_ (.str (str "t"))] = .ok true ∧
    w'.authorize .fwd 5 [] (str "pa") [.tenant (.str (str "tr")), .namespace_ (.str (str "nt"))] = .ok false := by
  have hr := Opaque1.exRenamed 112 (str "a_b") (str "a")
  rw [Opaque.exOrd_eq] at hr
  obtain ⟨w, h1, h2⟩ := Out.chk_ok (x := V1Op.run {} (Opaque1.exOps .fwd (str "t") (str "n") (str "s") (str "r") (str "g") (str "a_b") (str "a")))
    (P := fun w => w.authorize .fwd 5 [] (str "a") [.tenant (.str (str "r")), .namespace_ (.str (str "t"))] = .ok true) (by decide +kernel)
  obtain ⟨w', h3, h4⟩ := Out.chk_ok (x := V1Op.run {} (Opaque1.exOps .fwd (str "tt") (str "nn") (str "ss") (str "rr") (str "gg") (str "pa_b") (str "pa")))
    (P := fun w => w.authorize .fwd 5 [] (str "pa") [.tenant (.str (str "tr")), .namespace_ (.str (str "nt"))] = .ok false) (by decide +kernel)
  exact ⟨Opaque1.exRho_clean, _, _, w, w', hr, h1, h3, h2, h4⟩

end Verif
