import Verif.Props.Opaque
import Verif.Lemmas.V2Ops

/-!
# Ids have no meaning (v2)

As `Verif/Props/Opaque.lean`, for package v2.  Tenants, principals, namespaces, scopes and roles have separate names there, so
each kind has its own renaming; the empty text means "none" and is not renamed.  Role names are not opaque: `Can` leaves them in
the cache from which `Authorize` takes permissions.
-/

set_option linter.unusedSimpArgs false

namespace Verif

/-! ## Statement -/

namespace Spec

/-- New names for the ids of v2, for each kind its own; different names stay different, none stays none. -/
structure Renaming2 where
  tenant : Str → Str
  principal : Str → Str
  ns : Str → Str
  scope : Str → Str
  role : Str → Str
  tenant_inj : ∀ a b, tenant a = tenant b → a = b
  principal_inj : ∀ a b, principal a = principal b → a = b
  ns_inj : ∀ a b, ns a = ns b → a = b
  scope_inj : ∀ a b, scope a = scope b → a = b
  role_inj : ∀ a b, role a = role b → a = b
  tenant_nil : tenant [] = []
  principal_nil : principal [] = []
  ns_nil : ns [] = []
  scope_nil : scope [] = []
  role_nil : role [] = []

namespace Renaming2
variable (ρ : Renaming2)

/-- The stamp of a loop with the tenants on it renamed. -/
def stamp (s : List Val) : List Val := s.map fun v => match v with
  | .str t => .str (ρ.tenant t)
  | v => v

/-- A request renamed; resource and action are texts that are matched and stay. -/
def req (r : Req2) : Req2 :=
  { r with principal := ρ.principal r.principal, tenant := ρ.tenant r.tenant, namespace_ := ρ.ns r.namespace_, scope := ρ.scope r.scope }

/-- An assignment renamed. -/
def pr (u : PR) : PR :=
  { u with principal := ρ.principal u.principal, tenant := ρ.tenant u.tenant, namespace_ := ρ.ns u.namespace_, scope := ρ.scope u.scope,
           role := ρ.role u.role }

end Renaming2

/-- Corresponding environments: the same orders and times under the renamed stamps. -/
structure SameEnv (ρ : Renaming2) (e e' : Env) : Prop where
  orders : ∃ σ σ', e.o = .byIndex σ ∧ e'.o = .byIndex σ' ∧ ∀ s, σ' (ρ.stamp s) = σ s
  now : ∀ s, e'.now (ρ.stamp s) = e.now s

/-- The second call is the first one with all ids renamed, in a corresponding environment. -/
inductive Renamed2 (ρ : Renaming2) : V2Op → V2Op → Prop
  | newRole (n : Str) : Renamed2 ρ (.newRole n) (.newRole (ρ.role n))
  | addPermission (a : Nat) (ps : List Perm2) : Renamed2 ρ (.addPermission a ps) (.addPermission a ps)
  | removePermission (a : Nat) (ps : List Perm2) : Renamed2 ρ (.removePermission a ps) (.removePermission a ps)
  | addRoles (as : List Nat) : Renamed2 ρ (.addRoles as) (.addRoles as)
  | addChildRole (fuel : Nat) (p : Str) (cs : List Str) :
    Renamed2 ρ (.addChildRole fuel p cs) (.addChildRole fuel (ρ.role p) (cs.map ρ.role))
  | newTenant (id : Str) (n : Option Str) : Renamed2 ρ (.newTenant id n) (.newTenant (ρ.tenant id) (n.map ρ.ns))
  | addNamespace (c : Nat) (n : Str) (d : Bool) : Renamed2 ρ (.addNamespace c n d) (.addNamespace c (ρ.ns n) d)
  | addScopes (c : Nat) (n : Str) (scs : List Str) : Renamed2 ρ (.addScopes c n scs) (.addScopes c (ρ.ns n) (scs.map ρ.scope))
  | addChildTenant (c : Nat) (ds : List Nat) : Renamed2 ρ (.addChildTenant c ds) (.addChildTenant c ds)
  | setStatus (c : Nat) (s : Int) : Renamed2 ρ (.setStatus c s) (.setStatus c s)
  | addTenant (c : Nat) : Renamed2 ρ (.addTenant c) (.addTenant c)
  | setDefaultTenant (t : Str) : Renamed2 ρ (.setDefaultTenant t) (.setDefaultTenant (ρ.tenant t))
  | newPrincipalRole (u : PR) : Renamed2 ρ (.newPrincipalRole u) (.newPrincipalRole (ρ.pr u))
  | setExpiry (i : Nat) (now e : Int) : Renamed2 ρ (.setExpiry i now e) (.setExpiry i now e)
  | setExpiryDuration (i : Nat) (parse : Str → Option Int) (now : Int) (a : DurArg) :
    Renamed2 ρ (.setExpiryDuration i parse now a) (.setExpiryDuration i parse now a)
  | clearExpiry (i : Nat) : Renamed2 ρ (.clearExpiry i) (.clearExpiry i)
  | addPrincipalRole (is : List Nat) : Renamed2 ρ (.addPrincipalRole is) (.addPrincipalRole is)
  | removePrincipalRole (u : PR) : Renamed2 ρ (.removePrincipalRole u) (.removePrincipalRole (ρ.pr u))
  | authorize (e e' : Env) (fuel : Nat) (site : List Val) (r : Req2) (h : SameEnv ρ e e') :
    Renamed2 ρ (.authorize e fuel site r) (.authorize e' fuel (ρ.stamp site) (ρ.req r))
  | can (e e' : Env) (fuel : Nat) (site : List Val) (r : Req2) (roles : List Str) (h : SameEnv ρ e e') :
    Renamed2 ρ (.can e fuel site r roles) (.can e' fuel (ρ.stamp site) (ρ.req r) (roles.map ρ.role))

end Spec

open Spec

/-! ## Lists and maps -/

namespace Opaque2
open Opaque (mapKeys mapKeys_get mapKeys_set mapKV mapKV_get mapKV_set bind_map permute_map)
variable {ρ : Renaming2}

theorem inj_nil {f : Str → Str} (hi : ∀ a b, f a = f b → a = b) (h0 : f [] = []) (a : Str) : f a = [] ↔ a = [] :=
  ⟨fun h => hi _ _ (h.trans h0.symm), fun h => h ▸ h0⟩

theorem inj_eq {f : Str → Str} (hi : ∀ a b, f a = f b → a = b) (a b : Str) : f a = f b ↔ a = b := ⟨hi a b, fun h => h ▸ rfl⟩

@[simp] theorem tenant_eq (a b : Str) : ρ.tenant a = ρ.tenant b ↔ a = b := inj_eq ρ.tenant_inj a b
@[simp] theorem principal_eq (a b : Str) : ρ.principal a = ρ.principal b ↔ a = b := inj_eq ρ.principal_inj a b
@[simp] theorem ns_eq (a b : Str) : ρ.ns a = ρ.ns b ↔ a = b := inj_eq ρ.ns_inj a b
@[simp] theorem scope_eq (a b : Str) : ρ.scope a = ρ.scope b ↔ a = b := inj_eq ρ.scope_inj a b
@[simp] theorem role_eq (a b : Str) : ρ.role a = ρ.role b ↔ a = b := inj_eq ρ.role_inj a b
@[simp] theorem tenant_none (a : Str) : ρ.tenant a = [] ↔ a = [] := inj_nil ρ.tenant_inj ρ.tenant_nil a
@[simp] theorem principal_none (a : Str) : ρ.principal a = [] ↔ a = [] := inj_nil ρ.principal_inj ρ.principal_nil a
@[simp] theorem ns_none (a : Str) : ρ.ns a = [] ↔ a = [] := inj_nil ρ.ns_inj ρ.ns_nil a
@[simp] theorem scope_none (a : Str) : ρ.scope a = [] ↔ a = [] := inj_nil ρ.scope_inj ρ.scope_nil a
@[simp] theorem role_none (a : Str) : ρ.role a = [] ↔ a = [] := inj_nil ρ.role_inj ρ.role_nil a

theorem mem_map_inj {f : Str → Str} (hi : ∀ a b, f a = f b → a = b) (x : Str) (l : List Str) : f x ∈ l.map f ↔ x ∈ l := by
  rw [List.mem_map]
  exact ⟨fun ⟨y, hy, e⟩ => hi _ _ e ▸ hy, fun h => ⟨x, h, rfl⟩⟩

theorem addStr_map {f : Str → Str} (hi : ∀ a b, f a = f b → a = b) (S : List Str) (x : Str) : addStr (S.map f) (f x) = (addStr S x).map f := by
  unfold addStr
  simp only [mem_map_inj hi]
  split <;> simp

theorem foldl_addStr {f : Str → Str} (hi : ∀ a b, f a = f b → a = b) (l S : List Str) : (l.map f).foldl addStr (S.map f) = (l.foldl addStr S).map f := by
  induction l generalizing S with
  | nil => rfl
  | cons x l ih => rw [List.map_cons, List.foldl_cons, List.foldl_cons, addStr_map hi, ih]

theorem loop_map {S S' : Type} {α α' : Type} {f : S → α → Out S} {f' : S' → α' → Out S'} {m : S → S'} {k : α → α'}
    (h : ∀ s x, f' (m s) (k x) = (f s x).map m) (l : List α) (s : S) : Out.loop f' (m s) (l.map k) = (Out.loop f s l).map m := by
  induction l generalizing s with
  | nil => rfl
  | cons x l ih =>
    rw [List.map_cons, Out.loop, Out.loop]
    exact bind_map (h s x) fun s1 _ => ih s1

theorem loop_same {S S' : Type} {α : Type} {f : S → α → Out S} {f' : S' → α → Out S'} {m : S → S'}
    (h : ∀ s x, f' (m s) x = (f s x).map m) (l : List α) (s : S) : Out.loop f' (m s) l = (Out.loop f s l).map m := by
  have := loop_map (k := id) h l s
  rwa [List.map_id] at this

theorem collectI_map' {α α' β β' : Type} {f : Nat → α → Out (List β)} {f' : Nat → α' → Out (List β')} {m : α → α'} {k : β → β'}
    (h : ∀ i x, f' i (m x) = (f i x).map (·.map k)) (i : Nat) (l : List α) :
    Out.collectI f' i (l.map m) = (Out.collectI f i l).map (·.map k) := Opaque.collectI_map2 h i l

theorem stamp_append (s t : List Val) : ρ.stamp (s ++ t) = ρ.stamp s ++ ρ.stamp t := by simp [Renaming2.stamp]

theorem ord_map {e e' : Env} (he : SameEnv ρ e e') {α β : Type} (s : List Val) (f : α → β) (l : List α) :
    e'.o.ord (ρ.stamp s) _ (l.map f) = (e.o.ord s _ l).map f := by
  obtain ⟨σ, σ', h1, h2, h3⟩ := he.orders
  rw [h1, h2]
  show permute (σ' (ρ.stamp s)) (l.map f) = (permute (σ s) l).map f
  rw [h3 s, permute_map]

theorem ord_same {e e' : Env} (he : SameEnv ρ e e') {α : Type} (s : List Val) (l : List α) : e'.o.ord (ρ.stamp s) _ l = e.o.ord s _ l := by
  have := ord_map he s id l
  rwa [List.map_id, List.map_id] at this

/-! ## Roles

The entries of the role cache are permissions or role names; `g` says how they are renamed. -/

section
variable {g : Str → Str} (hg : ∀ a b, g a = g b → a = b)

/-- A role renamed. -/
def robj (ρ : Renaming2) (r : R2) : R2 := { r with name := ρ.role r.name }

/-- The role graph renamed. -/
def dag (ρ : Renaming2) (g : Str → Str) (d : Dag) : Dag where
  objs := d.objs.map (robj ρ)
  roles := mapKeys ρ.role d.roles
  edges := mapKV ρ.role (·.map ρ.role) d.edges
  resolved := mapKV ρ.role (·.map g) d.resolved

@[simp] theorem dag_objs (d : Dag) (a : Nat) : (dag ρ g d).objs[a]? = (d.objs[a]?).map (robj ρ) := by simp [dag]

theorem addPermission (d : Dag) (a : Nat) (ps : List Perm2) : (dag ρ g d).addPermission a ps = (d.addPermission a ps).map (dag ρ g) := by
  simp only [Dag.addPermission, dag_objs]
  cases d.objs[a]? with
  | none => rfl
  | some r => simp [dag, robj]

theorem removePermission (d : Dag) (a : Nat) (ps : List Perm2) : (dag ρ g d).removePermission a ps = (d.removePermission a ps).map (dag ρ g) := by
  simp only [Dag.removePermission, dag_objs]
  cases d.objs[a]? with
  | none => rfl
  | some r => simp [dag, robj]

theorem addRole (d : Dag) (as : List Nat) : (dag ρ g d).addRole as = (d.addRole as).map (dag ρ g) := by
  apply loop_same
  intro d a
  simp only [dag_objs]
  cases d.objs[a]? with
  | none => rfl
  | some r => simp [dag, robj, mapKeys_set ρ.role_inj]

theorem children (d : Dag) (r : Str) : (dag ρ g d).children (ρ.role r) = (d.children r).map ρ.role := by
  unfold Dag.children
  have : (dag ρ g d).edges.get (ρ.role r) = (d.edges.get r).map (·.map ρ.role) := mapKV_get ρ.role_inj _ _
  rw [this]
  cases d.edges.get r <;> rfl

/-- The result of a search for cycles, renamed. -/
def found (ρ : Renaming2) (x : Bool × List Str) : Bool × List Str := (x.1, x.2.map ρ.role)

theorem dfsLoop {f f' : Str → List Str → Out (Bool × List Str)} (h : ∀ r V, f' (ρ.role r) (V.map ρ.role) = (f r V).map (found ρ)) (cs V : List Str) :
    Dag.dfsLoop f' (cs.map ρ.role) (V.map ρ.role) = (Dag.dfsLoop f cs V).map (found ρ) := by
  induction cs generalizing V with
  | nil => rfl
  | cons c cs ih =>
    rw [List.map_cons, Dag.dfsLoop, Dag.dfsLoop]
    apply bind_map (h c V)
    intro x _
    show (if x.1 then _ else _) = _
    by_cases h1 : x.1
    · rw [if_pos h1, if_pos h1]; rfl
    · rw [if_neg h1, if_neg h1]; exact ih x.2

theorem dfs (d : Dag) (n : Nat) (r : Str) (V : List Str) : (dag ρ g d).dfs n (ρ.role r) (V.map ρ.role) = (d.dfs n r V).map (found ρ) := by
  induction n generalizing r V with
  | zero => rfl
  | succ n ih =>
    rw [Dag.dfs, Dag.dfs]
    simp only [mem_map_inj ρ.role_inj, children]
    split
    · rfl
    · have := dfsLoop ih (d.children r) (V ++ [r])
      simp only [List.map_append, List.map_cons, List.map_nil] at this
      exact this

theorem addChildRole (d : Dag) (fuel : Nat) (p : Str) (cs : List Str) :
    (dag ρ g d).addChildRole fuel (ρ.role p) (cs.map ρ.role) = (d.addChildRole fuel p cs).map fun x => (x.1, dag ρ g x.2) := by
  unfold Dag.addChildRole Dag.checkCircular
  have := dfsLoop (dfs (ρ := ρ) (g := g) d fuel) cs [p]
  simp only [List.map_cons, List.map_nil] at this
  rw [this]
  cases Dag.dfsLoop (d.dfs fuel) cs [p] with
  | panic => rfl
  | diverge => rfl
  | ok x =>
    simp only [Out.map_ok, found]
    split
    · rfl
    · have h1 := mapKV_set (g := fun l : List Str => l.map ρ.role) ρ.role_inj d.edges p (d.children p ++ cs)
      simp only [List.map_append] at h1
      simp only [children, Out.map_ok]
      have h2 : (dag ρ g d).edges = mapKV ρ.role (fun l : List Str => l.map ρ.role) d.edges := rfl
      rw [h2, h1]
      rfl

include hg in
theorem bfs {emit emit' : R2 → List Str} (he : ∀ r, emit' (robj ρ r) = (emit r).map g) (d : Dag) (n : Nat) :
    ∀ q V res : List Str, (dag ρ g d).bfs emit' n (q.map ρ.role) (V.map ρ.role) (res.map g) = (d.bfs emit n q V res).map (·.map g) := by
  induction n with
  | zero => intro q V res; cases q <;> simp [Dag.bfs]
  | succ n ih =>
    intro q V res
    cases q with
    | nil => simp [Dag.bfs]
    | cons c q =>
      rw [List.map_cons, Dag.bfs, Dag.bfs]
      simp only [mem_map_inj ρ.role_inj]
      have h1 : (dag ρ g d).roles.get (ρ.role c) = d.roles.get c := mapKeys_get ρ.role_inj _ _
      have h2 := fun q res => ih q (V ++ [c]) res
      simp only [List.map_append, List.map_cons, List.map_nil] at h2
      rw [h1]
      split
      · exact ih q V res
      · cases d.roles.get c with
        | none => exact h2 q res
        | some a =>
          simp only [dag_objs]
          cases d.objs[a]? with
          | none => rfl
          | some r =>
            simp only [Option.map_some, he, foldl_addStr hg, children]
            have := h2 (q ++ d.children c) ((emit r).foldl addStr res)
            simp only [List.map_append] at this
            exact this

/-- What a resolution returns and leaves, renamed. -/
def resolved (ρ : Renaming2) (g : Str → Str) (x : List Str × Dag) : List Str × Dag := (x.1.map g, dag ρ g x.2)

include hg in
theorem resolve {emit emit' : R2 → List Str} (he : ∀ r, emit' (robj ρ r) = (emit r).map g) (d : Dag) (fuel : Nat) (r : Str) :
    (dag ρ g d).resolve emit' fuel (ρ.role r) = (d.resolve emit fuel r).map (resolved ρ g) := by
  unfold Dag.resolve
  have h1 : (dag ρ g d).resolved.get (ρ.role r) = (d.resolved.get r).map (·.map g) := mapKV_get ρ.role_inj _ _
  rw [h1]
  cases d.resolved.get r with
  | some s => rfl
  | none =>
    have h2 := bfs hg he d fuel [r] [] []
    simp only [List.map_cons, List.map_nil] at h2
    simp only [Option.map_none, h2]
    cases d.bfs emit fuel [r] [] [] with
    | panic => rfl
    | diverge => rfl
    | ok s =>
      have h3 := mapKV_set (g := fun l : List Str => l.map g) ρ.role_inj d.resolved r s
      simp only [Out.map_ok]
      have h4 : (dag ρ g d).resolved = mapKV ρ.role (fun l : List Str => l.map g) d.resolved := rfl
      rw [h4, h3]
      rfl

end

/-! ## Authorizers -/

/-- A tenant renamed. -/
def tobj (ρ : Renaming2) (t : T2) : T2 where
  id := ρ.tenant t.id
  namespaces := mapKV ρ.ns (·.map ρ.scope) t.namespaces
  defNs := ρ.ns t.defNs
  status := t.status
  children := mapKeys ρ.tenant t.children

/-- An authorizer renamed. -/
def auth (ρ : Renaming2) (g : Str → Str) (w : V2) : V2 where
  dag := dag ρ g w.dag
  tobjs := w.tobjs.map (tobj ρ)
  tenants := mapKeys ρ.tenant w.tenants
  parents := mapKeys ρ.tenant w.parents
  defTenant := ρ.tenant w.defTenant
  prs := w.prs.map ρ.pr
  userRoles := w.userRoles
  index := mapKV ρ.principal (mapKeys ρ.tenant) w.index
  logger := w.logger
  log := w.log.map fun x => (ρ.req x.1, x.2)

section
variable {g : Str → Str} {w : V2}

theorem withT {α β : Type} {f : T2 → Out α} {f' : T2 → Out β} {m : α → β} (h : ∀ t, f' (tobj ρ t) = (f t).map m) (c : Nat) :
    (auth ρ g w).withT c f' = (w.withT c f).map m := by
  unfold V2.withT
  have : (auth ρ g w).tobjs[c]? = (w.tobjs[c]?).map (tobj ρ) := by simp [auth]
  rw [this]
  cases w.tobjs[c]? with
  | none => rfl
  | some t => exact h t

theorem setT (c : Nat) (t : T2) : (auth ρ g w).setT c (tobj ρ t) = auth ρ g (w.setT c t) := by simp [V2.setT, auth]

theorem prAt (x : Option Nat) : (auth ρ g w).prAt x = (w.prAt x).map ρ.pr := by
  cases x with
  | none => rfl
  | some i =>
    simp only [V2.prAt]
    have : (auth ρ g w).prs[i]? = (w.prs[i]?).map ρ.pr := by simp [auth]
    rw [this]
    cases w.prs[i]? <;> rfl

theorem tAddNamespace (c : Nat) (n : Str) (d : Bool) : (auth ρ g w).tAddNamespace c (ρ.ns n) d = (w.tAddNamespace c n d).map (auth ρ g) := by
  apply withT
  intro t
  simp only [Out.map_ok]
  rw [← setT]
  congr 2
  have h1 : (tobj ρ t).namespaces.get (ρ.ns n) = (t.namespaces.get n).map (·.map ρ.scope) := mapKV_get ρ.ns_inj _ _
  have h2 := mapKV_set (g := fun l : List Str => l.map ρ.scope) ρ.ns_inj t.namespaces n []
  rw [h1]
  cases h3 : t.namespaces.get n <;> cases d <;> simp [tobj, ← h2]

theorem tAddScope (c : Nat) (n : Str) (scs : List Str) :
    (auth ρ g w).tAddScope c (ρ.ns n) (scs.map ρ.scope) = (w.tAddScope c n scs).map fun x => (x.1, auth ρ g x.2) := by
  apply withT
  intro t
  have h1 : (tobj ρ t).namespaces.get (ρ.ns n) = (t.namespaces.get n).map (·.map ρ.scope) := mapKV_get ρ.ns_inj _ _
  rw [h1]
  cases h3 : t.namespaces.get n with
  | none => rfl
  | some s =>
    have h2 := mapKV_set (g := fun l : List Str => l.map ρ.scope) ρ.ns_inj t.namespaces n (scs.foldl addStr s)
    simp only [Option.map_some, Out.map_ok, foldl_addStr ρ.scope_inj]
    rw [← setT]
    congr 2
    simp [tobj, ← h2]

theorem tAddChild (c : Nat) (ds : List Nat) : (auth ρ g w).tAddChild c ds = (w.tAddChild c ds).map (auth ρ g) := by
  apply loop_same
  intro w d
  apply withT
  intro t
  apply withT
  intro dt
  simp only [Out.map_ok, ← setT]
  simp [tobj, mapKeys_set ρ.tenant_inj]

theorem addTenant (c : Nat) : (auth ρ g w).addTenant c = (w.addTenant c).map (auth ρ g) := by
  apply withT
  intro t
  have h0 : ({ auth ρ g w with tenants := (auth ρ g w).tenants.set (tobj ρ t).id c } : V2) =
      auth ρ g { w with tenants := w.tenants.set t.id c } := by
    simp [auth, tobj, mapKeys_set ρ.tenant_inj]
  rw [h0]
  apply loop_map
  intro w kd
  apply withT
  intro d
  simp [auth, tobj, mapKeys_set ρ.tenant_inj]

theorem addPrincipalRole (is : List Nat) : (auth ρ g w).addPrincipalRole is = (w.addPrincipalRole is).map (auth ρ g) := by
  apply loop_same
  intro w i
  apply bind_map (prAt (some i))
  intro u _
  have h1 : (auth ρ g w).index.get (ρ.pr u).principal = (w.index.get u.principal).map (mapKeys ρ.tenant) := mapKV_get ρ.principal_inj _ _
  have h2 : ((w.index.get u.principal).map (mapKeys ρ.tenant)).getD [] = mapKeys ρ.tenant ((w.index.get u.principal).getD []) := by
    cases w.index.get u.principal <;> rfl
  rw [h1, h2]
  generalize (w.index.get u.principal).getD [] = m
  have h3 : (mapKeys ρ.tenant m).get (ρ.pr u).tenant = m.get u.tenant := mapKeys_get ρ.tenant_inj _ _
  have h4 := fun l => mapKeys_set ρ.tenant_inj m u.tenant (l : List Nat)
  have h5 := fun l => mapKV_set (g := mapKeys ρ.tenant (ν := List Nat)) ρ.principal_inj w.index u.principal l
  simp only [h3, Out.map_ok]
  simp [auth, Renaming2.pr, h4, h5]

theorem matchesPR (target u : PR) : V2.matchesPR (ρ.pr target) (ρ.pr u) = V2.matchesPR target u := by
  simp only [V2.matchesPR, Renaming2.pr, ne_eq, tenant_none, principal_none, ns_none, scope_none, role_none, tenant_eq, principal_eq, ns_eq,
    scope_eq, role_eq]

theorem matchesAt (target : PR) (x : Option Nat) : (auth ρ g w).matchesAt (ρ.pr target) x = w.matchesAt target x := by
  unfold V2.matchesAt
  rw [prAt]
  have h1 : (ρ.pr target).principal = [] ↔ target.principal = [] := principal_none _
  have h2 : (ρ.pr target).tenant = [] ↔ target.tenant = [] := tenant_none _
  have h3 : (ρ.pr target).namespace_ = [] ↔ target.namespace_ = [] := ns_none _
  have h4 : (ρ.pr target).scope = [] ↔ target.scope = [] := scope_none _
  have h5 : (ρ.pr target).role = [] ↔ target.role = [] := role_none _
  simp only [h1, h2, h3, h4, h5]
  split
  · rfl
  · cases w.prAt x <;> simp [matchesPR]

theorem keepTenant (target : PR) (is : List Nat) : (auth ρ g w).keepTenant (ρ.pr target) is = w.keepTenant target is := by
  unfold V2.keepTenant
  simp only [matchesAt]

theorem keepPrincipal (target : PR) (m : GoMap Str (List Nat)) :
    (auth ρ g w).keepPrincipal (ρ.pr target) (mapKeys ρ.tenant m) = (w.keepPrincipal target m).map (mapKeys ρ.tenant) := by
  unfold V2.keepPrincipal mapKeys
  apply collectI_map'
  intro i e
  simp only [keepTenant]
  cases w.keepTenant target e.2 with
  | panic => rfl
  | diverge => rfl
  | ok is => simp only [Out.map_ok]; split <;> rfl

theorem keepIndex (target : PR) (m : GoMap Str (GoMap Str (List Nat))) :
    (auth ρ g w).keepIndex (ρ.pr target) (mapKV ρ.principal (mapKeys ρ.tenant) m) =
      (w.keepIndex target m).map (mapKV ρ.principal (mapKeys ρ.tenant)) := by
  unfold V2.keepIndex mapKV
  apply collectI_map'
  intro i e
  simp only [keepPrincipal]
  cases w.keepPrincipal target e.2 with
  | panic => rfl
  | diverge => rfl
  | ok is =>
    have : (mapKeys ρ.tenant is).length = is.length := by simp [mapKeys]
    simp only [Out.map_ok, this]
    split <;> rfl

theorem removePrincipalRole (target : PR) :
    (auth ρ g w).removePrincipalRole (ρ.pr target) = (w.removePrincipalRole target).map fun x => (x.1, auth ρ g x.2) := by
  unfold V2.removePrincipalRole
  have h1 : (auth ρ g w).removeStep (ρ.pr target) = w.removeStep target := by
    funext s xi
    simp only [V2.removeStep, matchesAt]
  have h2 : (auth ρ g w).userRoles = w.userRoles := rfl
  rw [h1, h2]
  cases Out.loop (w.removeStep target) (List.replicate w.userRoles.length none, 0, false) w.userRoles.zipIdx with
  | panic => rfl
  | diverge => rfl
  | ok s =>
    simp only [Out.bind_ok]
    split
    · rfl
    · have h3 : (auth ρ g w).index = mapKV ρ.principal (mapKeys ρ.tenant) w.index := rfl
      rw [h3, keepIndex]
      cases w.keepIndex target w.index <;> rfl

/-! ## Decisions -/

theorem traverse {S S' : Type} {m : S → S'} {e e' : Env} (he : SameEnv ρ e e') (site : List Val) (p : Str) {visit : Str → S → Out S} {visit' : Str → S' → Out S'}
    (hv : ∀ t s, visit' (ρ.tenant t) (m s) = (visit t s).map m) (n : Nat) : ∀ (c : Nat) (st : List Str × S),
    (auth ρ g w).traverse e' (ρ.stamp site) (ρ.principal p) visit' n c (st.1.map ρ.tenant, m st.2) =
      (w.traverse e site p visit n c st).map fun x => (x.1.map ρ.tenant, m x.2) := by
  induction n with
  | zero => intro c st; rfl
  | succ n ih =>
    intro c st
    rw [V2.traverse, V2.traverse]
    apply withT
    intro t
    have h1 : (tobj ρ t).id = ρ.tenant t.id := rfl
    simp only [h1, mem_map_inj ρ.tenant_inj]
    split
    · rfl
    · apply bind_map (hv t.id st.2)
      intro s _
      have h2 : (st.1.map ρ.tenant ++ [ρ.tenant t.id], m s) = (fun x : List Str × S => (x.1.map ρ.tenant, m x.2)) (st.1 ++ [t.id], s) := by simp
      refine Eq.trans (congrArg (fun z => Out.loop _ z w.userRoles.zipIdx) h2) ?_
      refine loop_same (m := fun x : List Str × S => (x.1.map ρ.tenant, m x.2)) ?_ w.userRoles.zipIdx (st.1 ++ [t.id], s)
      · intro st xi
        apply bind_map (prAt xi.1)
        intro u _
        have h3 : (ρ.pr u).principal = ρ.principal p ↔ u.principal = p := principal_eq _ _
        have h4 : (ρ.pr u).tenant = ρ.tenant t.id ↔ u.tenant = t.id := tenant_eq _ _
        have h5 : (ρ.pr u).manage = u.manage := rfl
        simp only [h3, h4, h5]
        split
        · have h6 := ord_map he (site ++ [.str t.id, .int xi.2]) (fun e : Str × Nat => (ρ.tenant e.1, e.2)) t.children
          rw [stamp_append] at h6
          have h7 : (tobj ρ t).children = t.children.map fun e : Str × Nat => (ρ.tenant e.1, e.2) := rfl
          have h8 : ρ.stamp [.str t.id, .int xi.2] = [.str (ρ.tenant t.id), .int xi.2] := rfl
          rw [h8] at h6
          rw [h7, h6]
          exact loop_map (m := fun x : List Str × S => (x.1.map ρ.tenant, m x.2)) (fun st kd => ih kd.2 st) _ st
        · rfl

/-- The state of the first loop of `resolvePrincipalPermissions`, renamed. -/
def pacc (ρ : Renaming2) (g : Str → Str) (s : V2.PAcc) : V2.PAcc := ⟨dag ρ g s.dag, s.scopedP.map g, s.globalP.map g⟩

theorem permRow (hg : ∀ x, g x = x) {e e' : Env} (he : SameEnv ρ e e') (fuel : Nat) (site : List Val) (p ns sc tid : Str) (s : V2.PAcc)
    (xi : Option Nat × Nat) :
    (auth ρ g w).permRow e' fuel (ρ.stamp site) (ρ.principal p) (ρ.ns ns) (ρ.scope sc) (ρ.tenant tid) (pacc ρ g s) xi =
      (w.permRow e fuel site p ns sc tid s xi).map (pacc ρ g) := by
  have hgi : ∀ a b, g a = g b → a = b := fun a b h => by rwa [hg, hg] at h
  apply bind_map (prAt xi.1)
  intro u _
  have h1 : (ρ.pr u).principal = ρ.principal p ↔ u.principal = p := principal_eq _ _
  have h2 : (ρ.pr u).tenant = ρ.tenant tid ↔ u.tenant = tid := tenant_eq _ _
  have h3 : (ρ.pr u).namespace_ = [] ↔ u.namespace_ = [] := ns_none _
  have h4 : (ρ.pr u).namespace_ = ρ.ns ns ↔ u.namespace_ = ns := ns_eq _ _
  have h5 : (ρ.pr u).scope = [] ↔ u.scope = [] := scope_none _
  have h6 : (ρ.pr u).scope = ρ.scope sc ↔ u.scope = sc := scope_eq _ _
  have h7 : (ρ.pr u).expired (e'.now (ρ.stamp site ++ [.str (ρ.tenant tid), .int xi.2])) = u.expired (e.now (site ++ [.str tid, .int xi.2])) := by
    have := he.now (site ++ [.str tid, .int xi.2])
    rw [stamp_append] at this
    have h8 : ρ.stamp [.str tid, .int xi.2] = [.str (ρ.tenant tid), .int xi.2] := rfl
    rw [h8] at this
    rw [this]
    rfl
  simp only [h1, h2, h3, h4, h5, h6, h7, ne_eq]
  split
  · rfl
  · split
    · rfl
    · split
      · have h9 := resolve (ρ := ρ) hgi (emit := fun r => r.perms) (emit' := fun r => r.perms)
          (fun r => by show r.perms = r.perms.map g; rw [List.map_congr_left (g := id) (fun x _ => hg x), List.map_id]) s.dag fuel u.role
        have h10 : (pacc ρ g s).dag.resolvePermissions fuel (ρ.pr u).role = (s.dag.resolvePermissions fuel u.role).map (resolved ρ g) := h9
        rw [h10]
        cases s.dag.resolvePermissions fuel u.role with
        | panic => rfl
        | diverge => rfl
        | ok pd =>
          simp only [Out.map_ok, resolved, pacc, foldl_addStr hgi]
          split
          · rfl
          · split <;> rfl
      · rfl

theorem resolvePerms (hg : ∀ x, g x = x) {e e' : Env} (he : SameEnv ρ e e') (fuel : Nat) (site : List Val) (p tid ns sc : Str) :
    (auth ρ g w).resolvePerms e' fuel (ρ.stamp site) (ρ.principal p) (ρ.tenant tid) (ρ.ns ns) (ρ.scope sc) =
      (w.resolvePerms e fuel site p tid ns sc).map fun x => (x.1, dag ρ g x.2) := by
  unfold V2.resolvePerms
  have h1 : (auth ρ g w).tenants.get (ρ.tenant tid) = w.tenants.get tid := mapKeys_get ρ.tenant_inj _ _
  rw [h1]
  cases w.tenants.get tid with
  | none => rfl
  | some c =>
    have h2 := traverse (ρ := ρ) (g := g) (w := w) (m := pacc ρ g) he site p
      (visit := fun tid s => Out.loop (w.permRow e fuel site p ns sc tid) s w.userRoles.zipIdx)
      (visit' := fun tid s => Out.loop ((auth ρ g w).permRow e' fuel (ρ.stamp site) (ρ.principal p) (ρ.ns ns) (ρ.scope sc) tid) s w.userRoles.zipIdx)
      (fun t s => loop_same (fun s xi => permRow hg he fuel site p ns sc t s xi) _ s) fuel c ([], { dag := w.dag })
    have h3 : (([] : List Str), ({ dag := (auth ρ g w).dag } : V2.PAcc)) = (([] : List Str).map ρ.tenant, pacc ρ g { dag := w.dag }) := rfl
    simp only []
    rw [h3]
    refine (congrArg _ h2).trans ?_
    cases w.traverse e site p (fun tid s => Out.loop (w.permRow e fuel site p ns sc tid) s w.userRoles.zipIdx) fuel c ([], { dag := w.dag }) with
    | panic => rfl
    | diverge => rfl
    | ok r =>
      have h4 : ∀ l : List Str, l.map g = l := fun l => by rw [List.map_congr_left (g := id) (fun x _ => hg x), List.map_id]
      simp [pacc, h4]

/-- The state of the first loop of `resolvePrincipalRoles`, renamed. -/
def racc (ρ : Renaming2) (g : Str → Str) (s : V2.RAcc) : V2.RAcc := ⟨dag ρ g s.dag, s.roles.map ρ.role⟩

theorem roleRow (hg : ∀ x, g x = ρ.role x) {e e' : Env} (he : SameEnv ρ e e') (fuel : Nat) (site : List Val) (p ns tid : Str) (s : V2.RAcc)
    (xi : Option Nat × Nat) :
    (auth ρ g w).roleRow e' fuel (ρ.stamp site) (ρ.principal p) (ρ.ns ns) (ρ.tenant tid) (racc ρ g s) xi =
      (w.roleRow e fuel site p ns tid s xi).map (racc ρ g) := by
  obtain rfl : g = ρ.role := funext hg
  apply bind_map (prAt xi.1)
  intro u _
  have h1 : (ρ.pr u).principal = ρ.principal p ↔ u.principal = p := principal_eq _ _
  have h2 : (ρ.pr u).tenant = ρ.tenant tid ↔ u.tenant = tid := tenant_eq _ _
  have h3 : (ρ.pr u).namespace_ = [] ↔ u.namespace_ = [] := ns_none _
  have h4 : (ρ.pr u).namespace_ = ρ.ns ns ↔ u.namespace_ = ns := ns_eq _ _
  have h5 : (ρ.pr u).role = [] ↔ u.role = [] := role_none _
  have h7 : (ρ.pr u).expired (e'.now (ρ.stamp site ++ [.str (ρ.tenant tid), .int xi.2])) = u.expired (e.now (site ++ [.str tid, .int xi.2])) := by
    have := he.now (site ++ [.str tid, .int xi.2])
    rw [stamp_append] at this
    have h8 : ρ.stamp [.str tid, .int xi.2] = [.str (ρ.tenant tid), .int xi.2] := rfl
    rw [h8] at this
    rw [this]
    rfl
  simp only [h1, h2, h3, h4, h5, h7, ne_eq]
  split
  · rfl
  · split
    · rfl
    · split
      · have h9 := resolve (ρ := ρ) ρ.role_inj (emit := fun r => [r.name]) (emit' := fun r => [r.name]) (fun r => rfl) s.dag fuel u.role
        have h10 : (racc ρ ρ.role s).dag.resolveChildRoles fuel (ρ.pr u).role = (s.dag.resolveChildRoles fuel u.role).map (resolved ρ ρ.role) := h9
        rw [h10]
        cases s.dag.resolveChildRoles fuel u.role with
        | panic => rfl
        | diverge => rfl
        | ok pd =>
          simp only [Out.map_ok, resolved, racc, Renaming2.pr, addStr_map ρ.role_inj, foldl_addStr ρ.role_inj]
      · rfl

theorem resolveRoles (hg : ∀ x, g x = ρ.role x) {e e' : Env} (he : SameEnv ρ e e') (fuel : Nat) (site : List Val) (p tid ns : Str) :
    (auth ρ g w).resolveRoles e' fuel (ρ.stamp site) (ρ.principal p) (ρ.tenant tid) (ρ.ns ns) =
      (w.resolveRoles e fuel site p tid ns).map fun x => (x.1.map (·.map ρ.role), dag ρ g x.2) := by
  unfold V2.resolveRoles
  have h1 : (auth ρ g w).tenants.get (ρ.tenant tid) = w.tenants.get tid := mapKeys_get ρ.tenant_inj _ _
  rw [h1]
  cases w.tenants.get tid with
  | none => rfl
  | some c =>
    have h2 := traverse (ρ := ρ) (g := g) (w := w) (m := racc ρ g) he site p
      (visit := fun tid s => Out.loop (w.roleRow e fuel site p ns tid) s w.userRoles.zipIdx)
      (visit' := fun tid s => Out.loop ((auth ρ g w).roleRow e' fuel (ρ.stamp site) (ρ.principal p) (ρ.ns ns) tid) s w.userRoles.zipIdx)
      (fun t s => loop_same (fun s xi => roleRow hg he fuel site p ns t s xi) _ s) fuel c ([], { dag := w.dag })
    have h3 : (([] : List Str), ({ dag := (auth ρ g w).dag } : V2.RAcc)) = (([] : List Str).map ρ.tenant, racc ρ g { dag := w.dag }) := rfl
    simp only []
    rw [h3]
    refine (congrArg _ h2).trans ?_
    cases w.traverse e site p (fun tid s => Out.loop (w.roleRow e fuel site p ns tid) s w.userRoles.zipIdx) fuel c ([], { dag := w.dag }) with
    | panic => rfl
    | diverge => rfl
    | ok r =>
      simp only [Out.map_ok, racc, List.length_map]
      split <;> rfl

theorem logMsg (r : Req2) (x : Msg) : (auth ρ g w).logMsg (ρ.req r) x = auth ρ g (w.logMsg r x) := by
  unfold V2.logMsg
  have : (auth ρ g w).logger = w.logger := rfl
  rw [this]
  split <;> simp [auth]

theorem findTargets {e e' : Env} (he : SameEnv ρ e e') (site : List Val) (r : Req2) :
    (auth ρ g w).findTargets e'.o (ρ.stamp site) (ρ.req r) = w.findTargets e.o site r := by
  unfold V2.findTargets
  have h1 : (ρ.req r).tenant = [] ↔ r.tenant = [] := tenant_none _
  have h2 : (auth ρ g w).defTenant = [] ↔ w.defTenant = [] := tenant_none _
  have h3 : (if (ρ.req r).tenant = [] ∧ (auth ρ g w).defTenant ≠ [] then (auth ρ g w).defTenant else (ρ.req r).tenant) =
      ρ.tenant (if r.tenant = [] ∧ w.defTenant ≠ [] then w.defTenant else r.tenant) := by
    simp only [h1, h2, ne_eq]
    split <;> rfl
  simp only [h3]
  generalize (if r.tenant = [] ∧ w.defTenant ≠ [] then w.defTenant else r.tenant) = t
  simp only [tenant_none]
  have h4 : (auth ρ g w).tenants.get (ρ.tenant t) = w.tenants.get t := mapKeys_get ρ.tenant_inj _ _
  rw [h4]
  have h5 : (auth ρ g w).findPrincipalTenants e'.o (ρ.stamp site) (ρ.req r).principal = w.findPrincipalTenants e.o site r.principal := by
    unfold V2.findPrincipalTenants
    have h6 : Out.loop ((auth ρ g w).ptStep (ρ.req r).principal) [] w.userRoles = (Out.loop (w.ptStep r.principal) [] w.userRoles).map (mapKeys ρ.tenant) := by
      refine loop_same (m := mapKeys ρ.tenant) ?_ w.userRoles []
      intro s x
      apply bind_map (prAt x)
      intro u _
      have h7 : (ρ.pr u).principal = (ρ.req r).principal ↔ u.principal = r.principal := principal_eq _ _
      have h8 : (ρ.pr u).tenant = [] ↔ u.tenant = [] := tenant_none _
      have h9 : (auth ρ g w).tenants.get (ρ.pr u).tenant = w.tenants.get u.tenant := mapKeys_get ρ.tenant_inj _ _
      simp only [h7, h8, h9, ne_eq]
      split
      · cases w.tenants.get u.tenant with
        | none => rfl
        | some c =>
          apply withT
          intro t
          have h10 : (tobj ρ t).status = t.status := rfl
          rw [h10]
          split
          · exact congrArg Out.ok (mapKeys_set ρ.tenant_inj s u.tenant c)
          · rfl
      · rfl
    have h11 : (auth ρ g w).userRoles = w.userRoles := rfl
    rw [h11, h6]
    cases Out.loop (w.ptStep r.principal) [] w.userRoles with
    | panic => rfl
    | diverge => rfl
    | ok s =>
      have h12 := ord_map he site (fun e : Str × Nat => (ρ.tenant e.1, e.2)) s
      simp only [Out.map_ok, mapKeys]
      refine congrArg Out.ok ?_
      refine (congrArg (List.map (·.2)) h12).trans ?_
      simp
  rw [h5]

theorem nsOf (t : T2) (r : Req2) : V2.nsOf (tobj ρ t) (ρ.req r) = (V2.nsOf t r).map ρ.ns := by
  unfold V2.nsOf
  have h1 : (ρ.req r).namespace_ = [] ↔ r.namespace_ = [] := ns_none _
  have h2 : (tobj ρ t).defNs = [] ↔ t.defNs = [] := ns_none _
  simp only [h1, h2, ne_eq]
  split
  · split
    · rfl
    · have h3 : (tobj ρ t).namespaces = mapKV ρ.ns (·.map ρ.scope) t.namespaces := rfl
      rw [h3]
      match t.namespaces with
      | [] => rfl
      | [x] => rfl
      | x :: y :: l => rfl
  · rfl

/-- A decision and the state it leaves, renamed. -/
def decided (ρ : Renaming2) (g : Str → Str) (x : Bool × V2) : Bool × V2 := (x.1, auth ρ g x.2)

theorem tenantLoop {r : Req2} {body body' : Nat → Str → Str → V2 → Out (Bool × V2)}
    (h : ∀ k tid ns w, body' k (ρ.tenant tid) (ρ.ns ns) (auth ρ g w) = (body k tid ns w).map (decided ρ g)) (cs : List Nat) :
    ∀ (k : Nat) (w : V2), V2.tenantLoop (ρ.req r) body' k cs (auth ρ g w) = (V2.tenantLoop r body k cs w).map (decided ρ g) := by
  induction cs with
  | nil => intro k w; simp only [V2.tenantLoop, logMsg]; rfl
  | cons c cs ih =>
    intro k w
    rw [V2.tenantLoop, V2.tenantLoop]
    apply withT
    intro t
    rw [nsOf]
    cases V2.nsOf t r with
    | none => exact ih _ _
    | some ns =>
      simp only [Option.map_some]
      have h1 : (tobj ρ t).namespaces.get (ρ.ns ns) = (t.namespaces.get ns).map (·.map ρ.scope) := mapKV_get ρ.ns_inj _ _
      rw [h1]
      cases t.namespaces.get ns with
      | none => exact ih _ _
      | some scs =>
        simp only [Option.map_some]
        have h2 : (ρ.req r).scope = [] ↔ r.scope = [] := scope_none _
        have h3 : V2.scopeValid (scs.map ρ.scope) (ρ.req r).scope = V2.scopeValid scs r.scope := by
          unfold V2.scopeValid
          exact decide_eq_decide.2 (mem_map_inj ρ.scope_inj r.scope scs)
        simp only [h2, h3, ne_eq]
        split
        · exact ih _ _
        · apply bind_map (h k t.id ns w)
          intro x _
          show (if x.1 then _ else _) = _
          by_cases hx : x.1
          · rw [if_pos hx, if_pos hx]; rfl
          · rw [if_neg hx, if_neg hx]; exact ih _ _

theorem authorize (hg : ∀ x, g x = x) {e e' : Env} (he : SameEnv ρ e e') (fuel : Nat) (site : List Val) (r : Req2) :
    (auth ρ g w).authorize e' fuel (ρ.stamp site) (ρ.req r) = (w.authorize e fuel site r).map (decided ρ g) := by
  unfold V2.authorize
  rw [findTargets he]
  cases w.findTargets e.o site r with
  | panic => rfl
  | diverge => rfl
  | ok ts =>
    cases ts with
    | none => simp only [Out.bind_ok, logMsg]; rfl
    | some cs =>
      refine tenantLoop ?_ cs 0 w
      intro k tid ns w
      unfold V2.authBody
      have h1 : ρ.stamp site ++ [.int k] = ρ.stamp (site ++ [.int k]) := by rw [stamp_append]; rfl
      rw [h1]
      have h2 := resolvePerms (w := w) hg he fuel (site ++ [.int k]) r.principal tid ns r.scope
      refine bind_map h2 ?_
      intro pd _
      have h3 : ({ auth ρ g w with dag := dag ρ g pd.2 } : V2) = auth ρ g { w with dag := pd.2 } := rfl
      cases pd.1 with
      | none => simp only [h3, logMsg]; rfl
      | some perms =>
        simp only [h3, logMsg, ord_same he]
        have h4 : (fun (_ : Nat) perm => V2.matchPermission perm (ρ.req r)) = fun (_ : Nat) perm => V2.matchPermission perm r := rfl
        rw [h4]
        cases Out.anyI (fun _ perm => V2.matchPermission perm r) 0 (e.o.ord (site ++ [.int k]) _ perms) with
        | panic => rfl
        | diverge => rfl
        | ok b => cases b <;> rfl

theorem can (hg : ∀ x, g x = ρ.role x) {e e' : Env} (he : SameEnv ρ e e') (fuel : Nat) (site : List Val) (r : Req2) (roles : List Str) :
    (auth ρ g w).can e' fuel (ρ.stamp site) (ρ.req r) (roles.map ρ.role) = (w.can e fuel site r roles).map (decided ρ g) := by
  unfold V2.can
  rw [findTargets he]
  cases w.findTargets e.o site r with
  | panic => rfl
  | diverge => rfl
  | ok ts =>
    cases ts with
    | none => simp only [Out.bind_ok, logMsg]; rfl
    | some cs =>
      refine tenantLoop ?_ cs 0 w
      intro k tid ns w
      unfold V2.canBody
      have h1 : ρ.stamp site ++ [.int k] = ρ.stamp (site ++ [.int k]) := by rw [stamp_append]; rfl
      rw [h1]
      have h2 := resolveRoles (w := w) hg he fuel (site ++ [.int k]) r.principal tid ns
      refine bind_map h2 ?_
      intro pd _
      have h3 : ({ auth ρ g w with dag := dag ρ g pd.2 } : V2) = auth ρ g { w with dag := pd.2 } := rfl
      cases pd.1 with
      | none => simp only [Option.map_none, h3, logMsg]; rfl
      | some rs =>
        simp only [Option.map_some, h3, logMsg, ord_map he]
        have h4 : (((e.o.ord (site ++ [.int k]) _ rs).map ρ.role).any fun x => decide (x ∈ roles.map ρ.role)) =
            (e.o.ord (site ++ [.int k]) _ rs).any fun x => decide (x ∈ roles) := by
          rw [List.any_map]
          congr 1
          funext x
          exact decide_eq_decide.2 (mem_map_inj ρ.role_inj x roles)
        rw [h4]
        cases (e.o.ord (site ++ [.int k]) _ rs).any fun x => decide (x ∈ roles) <;> rfl

/-! ## Histories -/

/-- What a decision asks of the renaming of the cache. -/
def Fits (ρ : Renaming2) (g : Str → Str) : V2Op → Prop
  | .authorize .. => ∀ x, g x = x
  | .can .. => ∀ x, g x = ρ.role x
  | _ => True

theorem onPR {f : PR → PR} (hf : ∀ u, f (ρ.pr u) = ρ.pr (f u)) (i : Nat) : V2Op.onPR (auth ρ g w) i f = (V2Op.onPR w i f).map (auth ρ g) := by
  unfold V2Op.onPR
  rw [prAt]
  cases w.prAt (some i) with
  | panic => rfl
  | diverge => rfl
  | ok u => simp [auth, hf]

theorem apply {op op' : V2Op} (h : Renamed2 ρ op op') (hf : Fits ρ g op) : op'.apply (auth ρ g w) = (op.apply w).map (auth ρ g) := by
  cases h with
  | newRole n => simp [V2Op.apply, auth, dag, robj, Dag.newRole]
  | addPermission a ps =>
    simp only [V2Op.apply]
    have : (auth ρ g w).dag = dag ρ g w.dag := rfl
    rw [this, addPermission]
    cases w.dag.addPermission a ps <;> rfl
  | removePermission a ps =>
    simp only [V2Op.apply]
    have : (auth ρ g w).dag = dag ρ g w.dag := rfl
    rw [this, removePermission]
    cases w.dag.removePermission a ps <;> rfl
  | addRoles as =>
    simp only [V2Op.apply, V2.addRoles]
    have : (auth ρ g w).dag = dag ρ g w.dag := rfl
    rw [this, addRole]
    cases w.dag.addRole as <;> rfl
  | addChildRole fuel p cs =>
    simp only [V2Op.apply]
    have : (auth ρ g w).dag = dag ρ g w.dag := rfl
    rw [this, addChildRole]
    cases w.dag.addChildRole fuel p cs <;> rfl
  | newTenant id n => cases n <;> simp [V2Op.apply, V2.newTenant, auth, tobj, mapKeys, mapKV, ρ.ns_nil]
  | addNamespace c n d => exact tAddNamespace c n d
  | addScopes c n scs =>
    simp only [V2Op.apply, tAddScope]
    cases w.tAddScope c n scs <;> rfl
  | addChildTenant c ds => exact tAddChild c ds
  | setStatus c s =>
    apply withT
    intro t
    exact congrArg Out.ok (setT c { t with status := s })
  | addTenant c => exact addTenant c
  | setDefaultTenant t => rfl
  | newPrincipalRole u => simp [V2Op.apply, auth]
  | setExpiry i now x =>
    refine onPR (fun u => ?_) i
    simp only [PR.setExpiry]
    split <;> rfl
  | setExpiryDuration i parse now a =>
    refine onPR (fun u => ?_) i
    cases a with
    | str s => simp only [PR.setExpiryDuration]; cases parse s <;> rfl
    | dur d => rfl
    | other => rfl
  | clearExpiry i => exact onPR (f := fun u => u.clearExpiry) (fun u => rfl) i
  | addPrincipalRole is => exact addPrincipalRole is
  | removePrincipalRole u =>
    simp only [V2Op.apply, removePrincipalRole]
    cases w.removePrincipalRole u <;> rfl
  | authorize e e' fuel site r he =>
    simp only [V2Op.apply, authorize hf he]
    cases w.authorize e fuel site r <;> rfl
  | can e e' fuel site r roles he =>
    simp only [V2Op.apply, can hf he]
    cases w.can e fuel site r roles <;> rfl

theorem run {ops ops' : List V2Op} (h : List.Forall₂ (Renamed2 ρ) ops ops') (hf : ∀ op ∈ ops, Fits ρ g op) :
    V2Op.run (auth ρ g w) ops' = (V2Op.run w ops).map (auth ρ g) := by
  induction h generalizing w with
  | nil => rfl
  | cons h1 _ ih =>
    unfold V2Op.run at ih ⊢
    rw [Out.loop, Out.loop]
    exact bind_map (apply h1 (hf _ (List.mem_cons_self ..))) fun w1 _ => ih fun op ho => hf op (List.mem_cons_of_mem _ ho)

theorem empty (l : Bool) : auth ρ g { logger := l } = { logger := l } := by
  simp [auth, dag, mapKeys, mapKV, ρ.tenant_nil]

end
end Opaque2

/-! ## Theorems -/

/-- Corresponding requests get the same answers, and the audit log has the renamed records. -/
def Spec.SameDecisions (ρ : Renaming2) (w w' : V2) : Prop :=
  (∀ e e' fuel site r, SameEnv ρ e e' → (w'.authorize e' fuel (ρ.stamp site) (ρ.req r)).map (·.1) = (w.authorize e fuel site r).map (·.1)) ∧
  (∀ e e' fuel site r roles, SameEnv ρ e e' →
    (w'.can e' fuel (ρ.stamp site) (ρ.req r) (roles.map ρ.role)).map (·.1) = (w.can e fuel site r roles).map (·.1)) ∧
  w'.log = w.log.map fun x => (ρ.req x.1, x.2)

/-- C142, as one would expect it: a history with all ids renamed leads to the same decisions. -/
def V2.C142_full : Prop := ∀ (ρ : Renaming2) (l : Bool) (ops ops' : List V2Op) (w : V2), List.Forall₂ (Renamed2 ρ) ops ops' →
  V2Op.run { logger := l } ops = .ok w → ∃ w', V2Op.run { logger := l } ops' = .ok w' ∧ SameDecisions ρ w w'

/-- C142 where role names stay: tenants, principals, namespaces and scopes have no meaning beyond being equal or not.
Missing are new role names, for which the statement is false (`C142_full_false`) where a history uses both `Can` and `Authorize`. -/
theorem V2.C142_partial (ρ : Renaming2) (hρ : ∀ x, ρ.role x = x) {l : Bool} {ops ops' : List V2Op} {w : V2} (hr : List.Forall₂ (Renamed2 ρ) ops ops')
    (h : V2Op.run { logger := l } ops = .ok w) : ∃ w', V2Op.run { logger := l } ops' = .ok w' ∧ SameDecisions ρ w w' := by
  have h0 : V2Op.run (Opaque2.auth ρ (fun x => x) { logger := l }) ops' = _ := Opaque2.run hr fun op _ => by
    cases op <;> simp [Opaque2.Fits, hρ]
  rw [Opaque2.empty, h] at h0
  refine ⟨_, h0, fun e e' fuel site r he => ?_, fun e e' fuel site r roles he => ?_, rfl⟩
  · rw [Opaque2.authorize (fun _ => rfl) he]
    cases w.authorize e fuel site r <;> rfl
  · rw [Opaque2.can (fun x => (hρ x).symm) he]
    cases w.can e fuel site r roles <;> rfl

/-- C142 where all ids are renamed, for histories without `Can`: permissions are decided alike. -/
theorem V2.C142_authorize (ρ : Renaming2) {l : Bool} {ops ops' : List V2Op} {w : V2} (hr : List.Forall₂ (Renamed2 ρ) ops ops')
    (hc : ∀ e fuel site r roles, .can e fuel site r roles ∉ ops) (h : V2Op.run { logger := l } ops = .ok w) :
    ∃ w', V2Op.run { logger := l } ops' = .ok w' ∧ ∀ e e' fuel site r, SameEnv ρ e e' →
      (w'.authorize e' fuel (ρ.stamp site) (ρ.req r)).map (·.1) = (w.authorize e fuel site r).map (·.1) := by
  have h0 : V2Op.run (Opaque2.auth ρ (fun x => x) { logger := l }) ops' = _ := Opaque2.run hr fun op ho => by
    cases op with
    | can e fuel site r roles => exact absurd ho (hc _ _ _ _ _)
    | _ => simp [Opaque2.Fits]
  rw [Opaque2.empty, h] at h0
  refine ⟨_, h0, fun e e' fuel site r he => ?_⟩
  rw [Opaque2.authorize (fun _ => rfl) he]
  cases w.authorize e fuel site r <;> rfl

/-- C142 where all ids are renamed, for histories without `Authorize`: roles are decided alike. -/
theorem V2.C142_can (ρ : Renaming2) {l : Bool} {ops ops' : List V2Op} {w : V2} (hr : List.Forall₂ (Renamed2 ρ) ops ops')
    (hc : ∀ e fuel site r, .authorize e fuel site r ∉ ops) (h : V2Op.run { logger := l } ops = .ok w) :
    ∃ w', V2Op.run { logger := l } ops' = .ok w' ∧ ∀ e e' fuel site r roles, SameEnv ρ e e' →
      (w'.can e' fuel (ρ.stamp site) (ρ.req r) (roles.map ρ.role)).map (·.1) = (w.can e fuel site r roles).map (·.1) := by
  have h0 : V2Op.run (Opaque2.auth ρ ρ.role { logger := l }) ops' = _ := Opaque2.run hr fun op ho => by
    cases op with
    | authorize e fuel site r => exact absurd ho (hc _ _ _ _)
    | _ => simp [Opaque2.Fits]
  rw [Opaque2.empty, h] at h0
  refine ⟨_, h0, fun e e' fuel site r roles he => ?_⟩
  rw [Opaque2.can (fun _ => rfl) he]
  cases w.can e fuel site r roles <;> rfl

/-- C142. A history whose role names stay panics or does not return exactly if its renamed form does. -/
theorem V2.C142_outcome (ρ : Renaming2) (hρ : ∀ x, ρ.role x = x) {l : Bool} {ops ops' : List V2Op} (hr : List.Forall₂ (Renamed2 ρ) ops ops') :
    (V2Op.run { logger := l } ops' = .panic ↔ V2Op.run { logger := l } ops = .panic) ∧
      (V2Op.run { logger := l } ops' = .diverge ↔ V2Op.run { logger := l } ops = .diverge) := by
  have h0 : V2Op.run (Opaque2.auth ρ (fun x => x) { logger := l }) ops' = _ := Opaque2.run hr fun op _ => by
    cases op <;> simp [Opaque2.Fits, hρ]
  rw [Opaque2.empty] at h0
  rw [h0]
  cases V2Op.run { logger := l } ops <;> simp

/-! ## Examples -/

namespace Opaque2

/-- Put a byte before every name except the empty one. -/
def pre (b : UInt8) (s : Str) : Str := if s = [] then [] else b :: s

theorem pre_inj (b : UInt8) (x y : Str) (h : pre b x = pre b y) : x = y := by
  unfold pre at h
  split at h <;> split at h <;> simp_all

/-- Every kind of id gets another letter; roles get it only if `r`. -/
def exRho (r : Bool) : Renaming2 where
  tenant := pre 116
  principal := pre 112
  ns := pre 110
  scope := pre 115
  role := if r then pre 114 else id
  tenant_inj := pre_inj _
  principal_inj := pre_inj _
  ns_inj := pre_inj _
  scope_inj := pre_inj _
  role_inj := by cases r; exact fun _ _ h => h; exact pre_inj _
  tenant_nil := rfl
  principal_nil := rfl
  ns_nil := rfl
  scope_nil := rfl
  role_nil := by cases r <;> rfl

/-- The loops in storage order, at time 0. -/
def exEnv : Env := { o := Opaque.exOrd, now := fun _ => 0 }

theorem exEnv_same (ρ : Renaming2) : SameEnv ρ exEnv exEnv := ⟨⟨fun _ => [], fun _ => [], rfl, rfl, fun _ => rfl⟩, fun _ => rfl⟩

/-- A tenant with a role without permissions, assigned to `a`; the role is named like a request. `d` are the decisions so far. -/
def exOps (d : List V2Op) (t p n r : Str) : List V2Op :=
  [.newTenant t (some n), .addTenant 0, .newRole r, .addRoles [0], .newPrincipalRole { principal := p, tenant := t, role := r }, .addPrincipalRole [0]] ++ d

def exReq (t p : Str) : Req2 := { principal := p, tenant := t, resource := str "doc", action := str "read" }

def exDec (e : Env) (t p r : Str) : List V2Op := [.can e 5 [] (exReq t p) [r]]

theorem exRenamed (r : Bool) : List.Forall₂ (Renamed2 (exRho r)) (exOps (exDec exEnv (str "t") (str "a") (str "doc read")) (str "t") (str "a") (str "n") (str "doc read"))
    (exOps (exDec exEnv ((exRho r).tenant (str "t")) ((exRho r).principal (str "a")) ((exRho r).role (str "doc read"))) ((exRho r).tenant (str "t"))
      ((exRho r).principal (str "a")) ((exRho r).ns (str "n")) ((exRho r).role (str "doc read"))) := by
  have h1 := Renamed2.newPrincipalRole (ρ := exRho r) { principal := str "a", tenant := str "t", role := str "doc read" }
  have h2 := Renamed2.can (ρ := exRho r) exEnv exEnv 5 [] (exReq (str "t") (str "a")) [str "doc read"] (exEnv_same _)
  exact .cons (.newTenant _ _) <| .cons (.addTenant _) <| .cons (.newRole _) <| .cons (.addRoles _) <| .cons h1 <| .cons (.addPrincipalRole _) <| .cons h2 .nil

theorem exEnv_eq : exEnv = { o := .fwd, now := fun _ => 0 } := by
  unfold exEnv
  rw [Opaque.exOrd_eq]

/-- The same in storage order. -/
def exFwd : Env := { o := .fwd, now := fun _ => 0 }

/-- A role named `r`, with one permission, for `a`, who manages the children of `t`; `u` is a child. -/
def exOps2 (e : Env) (t u p n s r : Str) : List V2Op :=
  [.newTenant t (some n), .newTenant u (some n), .addChildTenant 0 [1], .addTenant 0, .addTenant 1, .addScopes 0 n [s], .newRole r,
   .addPermission 0 [{ resource := str "doc", action := str "read" }], .addRoles [0],
   .newPrincipalRole { principal := p, tenant := t, scope := s, role := r, manage := true }, .addPrincipalRole [0],
   .can e 5 [] { principal := p, tenant := t, namespace_ := n, resource := [], action := [] } [r]]

def exAsk (t p n s : Str) : Req2 := { principal := p, tenant := t, namespace_ := n, scope := s, resource := str "doc", action := str "read" }

end Opaque2

/-- C142: the statement for all ids is false. A `Can` leaves the role name `doc read` in the cache; the next `Authorize` takes it
for a permission, and grants. Under another name it does not. -/
theorem V2.C142_full_false : ¬ V2.C142_full := by
  intro h
  obtain ⟨w, h1, h2⟩ := Out.chk_ok (x := V2Op.run {} (Opaque2.exOps (Opaque2.exDec Opaque2.exFwd (str "t") (str "a") (str "doc read")) (str "t") (str "a") (str "n") (str "doc read")))
    (P := fun w => (w.authorize Opaque2.exFwd 5 [] (Opaque2.exReq (str "t") (str "a"))).map (·.1) = .ok true) (by decide +kernel)
  obtain ⟨w', h3, h4⟩ := Out.chk_ok (x := V2Op.run {} (Opaque2.exOps (Opaque2.exDec Opaque2.exFwd (str "tt") (str "pa") (str "rdoc read")) (str "tt") (str "pa") (str "nn") (str "rdoc read")))
    (P := fun w => (w.authorize Opaque2.exFwd 5 [] (Opaque2.exReq (str "tt") (str "pa"))).map (·.1) = .ok false) (by decide +kernel)
  have hr := Opaque2.exRenamed true
  have he : Opaque2.exEnv = Opaque2.exFwd := Opaque2.exEnv_eq
  rw [he] at hr
  obtain ⟨w1, h5, h6, -⟩ := h (Opaque2.exRho true) false _ _ w hr h1
  have h7 : w1 = w' := by
    have : V2Op.run {} (Opaque2.exOps (Opaque2.exDec Opaque2.exFwd (str "tt") (str "pa") (str "rdoc read")) (str "tt") (str "pa") (str "nn") (str "rdoc read")) = .ok w1 := h5
    rw [h3] at this
    cases this; rfl
  subst h7
  have h8 := h6 Opaque2.exFwd Opaque2.exFwd 5 [] (Opaque2.exReq (str "t") (str "a")) (he ▸ Opaque2.exEnv_same _)
  rw [h2] at h8
  have h9 : (w1.authorize Opaque2.exFwd 5 [] (Opaque2.exReq (str "tt") (str "pa"))).map (·.1) = .ok true := h8
  rw [h4] at h9
  cases h9

namespace Opaque2

/-- C142: a history meeting the hypotheses of `C142_partial`, renamed. -/
example : (∀ x, (exRho false).role x = x) ∧ List.Forall₂ (Renamed2 (exRho false))
    (exOps (exDec exEnv (str "t") (str "a") (str "doc read")) (str "t") (str "a") (str "n") (str "doc read"))
    (exOps (exDec exEnv (str "tt") (str "pa") (str "doc read")) (str "tt") (str "pa") (str "nn") (str "doc read")) :=
  ⟨fun _ => rfl, exRenamed false⟩

/-- C142: in both, the request is granted, and the log names the renamed ids. -/
example : (∃ w, V2Op.run { logger := true } (exOps (exDec exFwd (str "t") (str "a") (str "doc read")) (str "t") (str "a") (str "n") (str "doc read")) = .ok w ∧
      (w.authorize exFwd 5 [] (exReq (str "t") (str "a"))).map (·.1) = .ok true ∧ w.log = [(exReq (str "t") (str "a"), .granted)]) ∧
    ∃ w, V2Op.run { logger := true } (exOps (exDec exFwd (str "tt") (str "pa") (str "doc read")) (str "tt") (str "pa") (str "nn") (str "doc read")) = .ok w ∧
      (w.authorize exFwd 5 [] (exReq (str "tt") (str "pa"))).map (·.1) = .ok true ∧ w.log = [(exReq (str "tt") (str "pa"), .granted)] :=
  ⟨Out.chk_ok (by decide +kernel), Out.chk_ok (by decide +kernel)⟩

/-- C142, without decisions in the history: all ids renamed, also those of a child tenant, of a scope and of the role. -/
example : List.Forall₂ (Renamed2 (exRho true)) ((exOps2 exEnv (str "t") (str "u") (str "a") (str "n") (str "s") (str "r")).take 11)
    ((exOps2 exEnv (str "tt") (str "tu") (str "pa") (str "nn") (str "ss") (str "rr")).take 11) := by
  have h1 := Renamed2.newPrincipalRole (ρ := exRho true) { principal := str "a", tenant := str "t", scope := str "s", role := str "r", manage := true }
  exact .cons (.newTenant _ _) <| .cons (.newTenant _ _) <| .cons (.addChildTenant _ _) <| .cons (.addTenant _) <| .cons (.addTenant _) <|
    .cons (.addScopes _ _ _) <| .cons (.newRole _) <| .cons (.addPermission _ _) <| .cons (.addRoles _) <| .cons h1 <| .cons (.addPrincipalRole _) .nil

/-- C142: in both histories the scope `s` may be read and another may not. -/
example : (∃ w, V2Op.run {} ((exOps2 exFwd (str "t") (str "u") (str "a") (str "n") (str "s") (str "r")).take 11) = .ok w ∧
      (w.authorize exFwd 5 [] (exAsk (str "t") (str "a") [] (str "s"))).map (·.1) = .ok true ∧
      (w.authorize exFwd 5 [] (exAsk (str "t") (str "a") [] [])).map (·.1) = .ok false) ∧
    ∃ w, V2Op.run {} ((exOps2 exFwd (str "tt") (str "tu") (str "pa") (str "nn") (str "ss") (str "rr")).take 11) = .ok w ∧
      (w.authorize exFwd 5 [] (exAsk (str "tt") (str "pa") [] (str "ss"))).map (·.1) = .ok true ∧
      (w.authorize exFwd 5 [] (exAsk (str "tt") (str "pa") [] [])).map (·.1) = .ok false :=
  ⟨Out.chk_ok (by decide +kernel), Out.chk_ok (by decide +kernel)⟩

/-- C142: in both histories the role is seen. -/
example : (∃ w, V2Op.run {} (exOps2 exFwd (str "t") (str "u") (str "a") (str "n") (str "s") (str "r")) = .ok w ∧
      (w.can exFwd 5 [] (exAsk (str "t") (str "a") (str "n") []) [str "r"]).map (·.1) = .ok true ∧
      (w.can exFwd 5 [] (exAsk (str "t") (str "a") (str "n") []) [str "q"]).map (·.1) = .ok false) ∧
    ∃ w, V2Op.run {} (exOps2 exFwd (str "tt") (str "tu") (str "pa") (str "nn") (str "ss") (str "rr")) = .ok w ∧
      (w.can exFwd 5 [] (exAsk (str "tt") (str "pa") (str "nn") []) [str "rr"]).map (·.1) = .ok true ∧
      (w.can exFwd 5 [] (exAsk (str "tt") (str "pa") (str "nn") []) [str "q"]).map (·.1) = .ok false :=
  ⟨Out.chk_ok (by decide +kernel), Out.chk_ok (by decide +kernel)⟩

end Opaque2
end Verif
