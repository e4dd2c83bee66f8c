import Mathlib.Data.List.Induction
import Verif.Lemmas.HeapOrigin
import Verif.Props.Keep

/-!
# Root manager: where access comes from, C99 (rows) and C100 (attributes)

Both are about whole histories: a list of calls on a new manager, and a decision at its end.
-/

namespace Verif
open Spec

/-! ## Reading a history -/

/-- A registered role is given in the tenant, and once more in its default namespace. -/
def GivesRole (u : Mgr) (c : Nat) (q : Str) (m : Bool) (r : Str) (d : Data) : Prop :=
  (∃ x, (q, x) ∈ u.principals) ∧ (∃ x, (r, x) ∈ u.roles) ∧ ∃ t, u.tobjs[c]? = some t ∧
    d.tenant = .str t.id ∧ d.principal = .str q ∧ d.role = .str r ∧ d.scope = .nil ∧ d.manage = .bool m ∧
    (d.namespace_ = .nil ∨ ∃ n, t.defNs = some n ∧ d.namespace_ = .str n)

/-- A registered scope is given in the tenant, and once more in its default namespace. -/
def GivesScope (u : Mgr) (c : Nat) (q : Str) (m : Bool) (s : Str) (d : Data) : Prop :=
  (∃ x, (q, x) ∈ u.principals) ∧ (∃ x, (s, x) ∈ u.scopes) ∧ ∃ t, u.tobjs[c]? = some t ∧
    d.tenant = .str t.id ∧ d.principal = .str q ∧ d.scope = .str s ∧ d.role = .nil ∧ d.manage = .bool m ∧
    (d.namespace_ = .nil ∨ ∃ n, t.defNs = some n ∧ d.namespace_ = .str n)

/-- The call, made in state `u`, gives this row to the principal it names. -/
def MOp.Gives (u : Mgr) (d : Data) : MOp → Prop
  | .addData e => d = e
  | .tAddPrincipalInNamespace c q n r => ∃ t, u.tobjs[c]? = some t ∧
      d = { tenant := .str t.id, namespace_ := .str n, principal := .str q, role := .str r }
  | .tAddPrincipalWithRole c q r m => GivesRole u c q m r d
  | .tAddPrincipal c q m rs => ∃ r ∈ rs, GivesRole u c q m r d
  | .tAddScopeToPrincipal c q s m => GivesScope u c q m s d
  | .tAssignScopes c q m ss => ∃ s ∈ ss, GivesScope u c q m s d
  | _ => False

/-- The call, made in state `u`, puts the attribute into the group: on a role that is not locked, or on a group
object with that id. -/
def MOp.Lists (u : Mgr) (g : Str) (a : Attr) : MOp → Prop
  | .role op => op.Lists u.heap g a
  | .addPermissionsToRole r grp as => grp = g ∧ a ∈ as ∧ (∃ ga, (g, ga) ∈ u.attrGroups) ∧
      ∃ x ro, (r, x) ∈ u.roles ∧ u.heap.roles[x]? = some ro ∧ ro.lock = false
  | _ => False

/-- The history contains a call with the property, in the state before it. -/
def Happened (ops : List MOp) (P : Mgr → MOp → Prop) : Prop :=
  ∃ pre op post u, ops = pre ++ op :: post ∧ MOp.run {} pre = .ok u ∧ P u op

variable {w w' v : Mgr} {ops : List MOp}

theorem MOp.run_append {a b : List MOp} : MOp.run w (a ++ b) = (MOp.run w a).bind fun v => MOp.run v b := by
  induction a generalizing w with
  | nil => rfl
  | cons op a ih =>
    rw [List.cons_append, MOp.run, MOp.run]
    cases op.apply w with
    | ok x => simp only [Out.bind_ok]; exact ih
    | panic => rfl
    | diverge => rfl

theorem MOp.run_snoc {op : MOp} : MOp.run w (ops ++ [op]) = .ok w' ↔ ∃ v, MOp.run w ops = .ok v ∧ op.apply v = .ok w' := by
  rw [MOp.run_append, Out.bind_eq_ok]
  constructor
  · rintro ⟨v, h1, h2⟩
    obtain ⟨v', h3, h4⟩ := Out.bind_eq_ok.1 h2
    cases h4; exact ⟨v, h1, h3⟩
  · rintro ⟨v, h1, h2⟩; exact ⟨v, h1, by rw [MOp.run, h2]; rfl⟩

theorem Happened.snoc {op : MOp} {P : Mgr → MOp → Prop} (h : Happened ops P) : Happened (ops ++ [op]) P := by
  obtain ⟨pre, x, post, u, rfl, h1, h2⟩ := h
  exact ⟨pre, x, post ++ [op], u, by simp, h1, h2⟩

theorem Happened.last {op : MOp} {P : Mgr → MOp → Prop} {u : Mgr} (h : MOp.run {} ops = .ok u) (hp : P u op) :
    Happened (ops ++ [op]) P := ⟨ops, op, [], u, rfl, h, hp⟩

theorem Happened.mono {P Q : Mgr → MOp → Prop} (h : Happened ops P) (hpq : ∀ u op, P u op → Q u op) : Happened ops Q := by
  obtain ⟨pre, x, post, u, h0, h1, h2⟩ := h
  exact ⟨pre, x, post, u, h0, h1, hpq _ _ h2⟩

/-! ## C99 -/

/-- What a call adds to the rows. -/
def Adds (w v : Mgr) (op : MOp) : Prop := ∃ rows, v.log = w.log ++ rows ∧ ∀ d ∈ rows, d.principal ≠ .nil → op.Gives w d

namespace Adds
variable {op : MOp}

theorem of_eq (h : v.log = w.log) : Adds w v op := ⟨[], by simp [h], by simp⟩

theorem viaTenant {c : Nat} {row : TenantObj → Data} (hrow : ∀ t, w.tobjs[c]? = some t → (row t).principal ≠ .nil → op.Gives w (row t))
    (h : w.withTenant c (fun t => w.addData (row t)) = .ok v) : Adds w v op := by
  obtain ⟨t, ht, _, h⟩ := Mgr.withTenant_ok h
  obtain ⟨x, _, rfl⟩ := Out.map_eq_ok.1 h
  exact ⟨[row t], rfl, fun d hd => by cases List.mem_singleton.1 hd; exact hrow t ht⟩

theorem setDefault {c : Nat} {n : Str} (h : w.tSetDefaultNamespace c n = .ok v) : v.log = w.log := by
  obtain ⟨t, _, _, h⟩ := Mgr.withTenant_ok h
  split at h <;> cases h <;> rfl

theorem descendant {c : Nat} {ds : List Nat} (h : w.tAddDescendant c ds = .ok v) :
    ∃ rows, v.log = w.log ++ rows ∧ ∀ d ∈ rows, d.principal = .nil := by
  induction ds generalizing w with
  | nil => cases h; exact ⟨[], by simp, by simp⟩
  | cons d ds ih =>
    rw [Mgr.tAddDescendant] at h
    split at h
    · rename_i ct dt hc hd
      have i1 : (if (ct.desc.get dt.id).isSome then w
        else { w with tobjs := w.tobjs.set c { ct with desc := ct.desc.set dt.id d } }).log = w.log := by
        split <;> rfl
      simp only at h
      generalize (if (ct.desc.get dt.id).isSome then w
        else { w with tobjs := w.tobjs.set c { ct with desc := ct.desc.set dt.id d } }) = w1 at i1 h
      split at h
      · rw [← i1]; exact ih h
      · rw [Out.bind_eq_ok] at h
        obtain ⟨w2, h2, h⟩ := h
        rw [Out.bind_eq_ok] at h
        obtain ⟨w3, h3, h⟩ := h
        obtain ⟨t, _, _, h4⟩ := Mgr.withTenant_ok h2
        obtain ⟨x, _, rfl⟩ := Out.map_eq_ok.1 h4
        obtain ⟨rows, e1, e2⟩ := ih h
        rw [setDefault h3] at e1
        refine ⟨_ :: rows, by rw [e1, ← i1]; simp; rfl, fun y hy => ?_⟩
        rcases List.mem_cons.1 hy with rfl | hy
        · rfl
        · exact e2 y hy
    · cases h

theorem role_mem {t : TenantObj} {c : Nat} {q r : Str} {m : Bool} {d : Data} (ht : w.tobjs[c]? = some t)
    (h1 : IsKnown w.principals q) (h2 : IsKnown w.roles r) (hd : d ∈ roleRows t q m r) : GivesRole w c q m r d := by
  refine ⟨h1, h2, t, ht, ?_⟩
  unfold roleRows at hd
  cases hn : t.defNs with
  | none => simp [hn] at hd; subst hd; exact ⟨rfl, rfl, rfl, rfl, rfl, .inl rfl⟩
  | some n =>
    simp [hn] at hd
    rcases hd with rfl | rfl
    · exact ⟨rfl, rfl, rfl, rfl, rfl, .inl rfl⟩
    · exact ⟨rfl, rfl, rfl, rfl, rfl, .inr ⟨n, rfl, rfl⟩⟩

theorem scope_mem {t : TenantObj} {c : Nat} {q r : Str} {m : Bool} {d : Data} (ht : w.tobjs[c]? = some t)
    (h1 : IsKnown w.principals q) (h2 : IsKnown w.scopes r) (hd : d ∈ scopeRows t q m r) : GivesScope w c q m r d := by
  refine ⟨h1, h2, t, ht, ?_⟩
  unfold scopeRows at hd
  cases hn : t.defNs with
  | none => simp [hn] at hd; subst hd; exact ⟨rfl, rfl, rfl, rfl, rfl, .inl rfl⟩
  | some n =>
    simp [hn] at hd
    rcases hd with rfl | rfl
    · exact ⟨rfl, rfl, rfl, rfl, rfl, .inl rfl⟩
    · exact ⟨rfl, rfl, rfl, rfl, rfl, .inr ⟨n, rfl, rfl⟩⟩

theorem inserted {rows : List Data} (i : Inserted w v rows) (h : ∀ d ∈ rows, op.Gives w d) : Adds w v op :=
  ⟨rows, by rw [i], fun d hd _ => h d hd⟩

theorem apply (inv : w.Inv) (h : op.apply w = .ok v) : Adds w v op := by
  cases op with
  | role op => obtain ⟨h1, h2, rfl⟩ := Out.map_eq_ok.1 h; exact of_eq rfl
  | newTenant id => cases h; exact of_eq rfl
  | addTenant a =>
    obtain ⟨⟨x, w1⟩, h2, rfl⟩ := Out.map_eq_ok.1 h
    unfold Mgr.addTenant at h2
    split at h2 <;> cases h2; exact of_eq rfl
  | addNamespace id obj => cases h; exact of_eq rfl
  | addScope id obj => cases h; exact of_eq rfl
  | addPrincipal id obj => cases h; exact of_eq rfl
  | addRole r =>
    obtain ⟨⟨x, w1⟩, h2, rfl⟩ := Out.map_eq_ok.1 h
    unfold Mgr.addRole at h2
    split at h2 <;> cases h2; exact of_eq rfl
  | addAttribute a obj => cases h; exact of_eq rfl
  | addAttributeGroup ga =>
    obtain ⟨⟨x, w1⟩, h2, rfl⟩ := Out.map_eq_ok.1 h
    unfold Mgr.addAttributeGroup at h2
    split at h2 <;> cases h2; exact of_eq rfl
  | addData e =>
    obtain ⟨x, _, rfl⟩ := Out.map_eq_ok.1 h
    exact ⟨[e], rfl, fun d hd _ => List.mem_singleton.1 hd⟩
  | tAddNamespace c n => exact viaTenant (fun _ _ hn => absurd rfl hn) h
  | tAddScopesToNamespace c n s => exact viaTenant (fun _ _ hn => absurd rfl hn) h
  | tSetDefaultNamespace c n => exact of_eq (setDefault h)
  | tAddPrincipalInNamespace c p n r => exact viaTenant (fun t ht _ => ⟨t, ht, rfl⟩) h
  | tAddRole c r => exact viaTenant (fun _ _ hn => absurd rfl hn) h
  | tAddScope c s => exact viaTenant (fun _ _ hn => absurd rfl hn) h
  | tAddDescendant c ds =>
    obtain ⟨rows, h1, h2⟩ := descendant h
    exact ⟨rows, h1, fun d hd hn => absurd (h2 d hd) hn⟩
  | tAddPrincipalWithRole c p r m =>
    obtain ⟨⟨e, w1⟩, h2, rfl⟩ := Out.map_eq_ok.1 h
    obtain ⟨t, ht, hm, _⟩ := Mgr.withTenant_ok h2
    obtain ⟨e1, w2, g1, _, _, g4, g5, g6⟩ := C35_addPrincipalWithRole inv ht hm p r m
    rw [h2] at g1; cases g1
    cases e with
    | some x => exact of_eq (by rw [g5 (by simp)])
    | none => exact inserted (g6 rfl) fun d hd => role_mem ht (g4.1 rfl).1 (g4.1 rfl).2 hd
  | tAddPrincipal c p m rs =>
    obtain ⟨⟨e, w1⟩, h2, rfl⟩ := Out.map_eq_ok.1 h
    cases rs with
    | nil => cases h2; exact of_eq rfl
    | cons r rs =>
      obtain ⟨⟨e1, w2⟩, h3, _⟩ := Out.bind_eq_ok.1 h2
      obtain ⟨t, ht, hm, _⟩ := Mgr.withTenant_ok h3
      obtain ⟨e1, w3, pre, post, g1, g2, g3, _, _, _, _, g4⟩ := C35_addPrincipal inv ht hm p m (r :: rs)
      rw [h2] at g1; cases g1
      refine inserted g4 fun d hd => ?_
      obtain ⟨x, hx, hd⟩ := List.mem_flatMap.1 hd
      exact ⟨x, g2 ▸ List.mem_append_left _ hx, role_mem ht (g3 x hx).1 (g3 x hx).2 hd⟩
  | tAddScopeToPrincipal c p s m =>
    obtain ⟨⟨e, w1⟩, h2, rfl⟩ := Out.map_eq_ok.1 h
    obtain ⟨t, ht, hm, _⟩ := Mgr.withTenant_ok h2
    obtain ⟨e1, w2, g1, _, _, g4, g5, g6⟩ := C35_addScopeToPrincipal inv ht hm p s m
    rw [h2] at g1; cases g1
    cases e with
    | some x => exact of_eq (by rw [g5 (by simp)])
    | none => exact inserted (g6 rfl) fun d hd => scope_mem ht (g4.1 rfl).1 (g4.1 rfl).2 hd
  | tAssignScopes c p m ss =>
    obtain ⟨⟨e, w1⟩, h2, rfl⟩ := Out.map_eq_ok.1 h
    cases ss with
    | nil => cases h2; exact of_eq rfl
    | cons r rs =>
      obtain ⟨⟨e1, w2⟩, h3, _⟩ := Out.bind_eq_ok.1 h2
      obtain ⟨t, ht, hm, _⟩ := Mgr.withTenant_ok h3
      obtain ⟨e1, w3, pre, post, g1, g2, g3, _, _, _, _, g4⟩ := C35_assignScopes inv ht hm p m (r :: rs)
      rw [h2] at g1; cases g1
      refine inserted g4 fun d hd => ?_
      obtain ⟨x, hx, hd⟩ := List.mem_flatMap.1 hd
      exact ⟨x, g2 ▸ List.mem_append_left _ hx, scope_mem ht (g3 x hx).1 (g3 x hx).2 hd⟩
  | addPermissionsToRole r g as => obtain ⟨h1, h2, rfl⟩ := Out.map_eq_ok.1 h; exact of_eq rfl
  | tenantChildren o fuel site id =>
    obtain ⟨⟨x, w1⟩, h2, rfl⟩ := Out.map_eq_ok.1 h
    have := (Mgr.tenantChildren_spec inv h2).2.1
    exact of_eq (by simp only; rw [this])
  | implicitTenants o fuel site p =>
    obtain ⟨⟨x, w1⟩, h2, rfl⟩ := Out.map_eq_ok.1 h
    have := (Mgr.implicitTenants_inv inv h2).2.1
    exact of_eq (by simp only; rw [this])
  | authorize o fuel site p opts =>
    obtain ⟨⟨x, w1⟩, h2, rfl⟩ := Out.map_eq_ok.1 h
    rcases Mgr.authorize_inv h2 with ⟨rfl, _⟩ | ⟨_, I, hI⟩
    · exact of_eq rfl
    · have := (Mgr.implicitTenants_inv inv hI).2.1
      exact of_eq (by simp only; rw [this])

end Adds

theorem row_origin {d : Data} (hr : MOp.run {} ops = .ok w) (hd : d ∈ w.log) (hp : d.principal ≠ .nil) :
    Happened ops fun u op => op.Gives u d := by
  induction ops using List.reverseRecOn generalizing w with
  | nil => cases hr; cases hd
  | append_singleton ops op ih =>
    obtain ⟨v, h1, h2⟩ := MOp.run_snoc.1 hr
    obtain ⟨rows, e1, e2⟩ := Adds.apply (MOp.reachable_inv h1) h2
    rw [e1] at hd
    rcases List.mem_append.1 hd with hd | hd
    · exact (ih h1 hd).snoc
    · exact .last h1 (e2 d hd hp)

theorem stored_log {d : Data} (h : Stored w d) : d ∈ w.log :=
  (List.mem_filter.1 (List.mem_of_getLast? (survivors_mem.1 h))).1

/-- C99. Every stored row that names a principal was given by a call of the history that names the row's principal,
tenant, role, scope and namespace; `Tenant.AddPrincipal` and its like do so only for a principal, role and scope that
were registered at that moment. -/
theorem C99_row {d : Data} (hr : MOp.run {} ops = .ok w) (hd : Stored w d) (hp : d.principal ≠ .nil) :
    Happened ops fun u op => op.Gives u d := row_origin hr (stored_log hd) hp

/-- C99. A granted request of `p` goes back to a call that gave `p` a row in some tenant. -/
theorem C99_access {o : Ord} {fuel : Nat} {site : List Val} {p : Str} {opts : List Opt} (hr : MOp.run {} ops = .ok w)
    (h : w.authorize o fuel site p opts = .ok (true, w')) :
    ∃ d t, d.principal = .str p ∧ d.tenant = .str t ∧ Happened ops fun u op => op.Gives u d := by
  have inv := MOp.reachable_inv hr
  rcases Mgr.authorize_inv h with ⟨_, e, _⟩ | ⟨_, I, hI⟩
  · cases e
  · obtain ⟨_, J, hJ, hne, _⟩ := (authorize_exact inv h).1 rfl
    obtain ⟨_, _, hc, _⟩ := Mgr.implicitTenants_inv inv hI
    rw [hc] at hJ; cases hJ
    obtain ⟨x, hx⟩ := List.exists_mem_of_ne_nil I hne
    obtain ⟨row, h1, h2, t, h3, _⟩ := C24_cached inv hI x hx
    exact ⟨row, t, h2, h3, row_origin hr h1 (by rw [h2]; simp)⟩

/-- The call is one of those that give rows to principals, and names `p`. -/
def MOp.Names (p : Str) : MOp → Prop
  | .tAddPrincipalWithRole _ q _ _ | .tAddPrincipal _ q _ _ | .tAddScopeToPrincipal _ q _ _ | .tAssignScopes _ q _ _
  | .tAddPrincipalInNamespace _ q _ _ => q = p
  | .addData d => d.principal = .str p
  | _ => False

theorem MOp.Gives.names {u : Mgr} {d : Data} {p : Str} {op : MOp} (h : op.Gives u d) (hp : d.principal = .str p) : op.Names p := by
  cases op <;> simp only [MOp.Gives] at h
  case addData e => exact h ▸ hp
  case tAddPrincipalInNamespace c q n r => obtain ⟨t, _, rfl⟩ := h; cases hp; exact rfl
  case tAddPrincipalWithRole c q r m => obtain ⟨_, _, t, _, _, h, _⟩ := h; rw [hp] at h; cases h; exact rfl
  case tAddPrincipal c q m rs => obtain ⟨_, _, _, _, t, _, _, h, _⟩ := h; rw [hp] at h; cases h; exact rfl
  case tAddScopeToPrincipal c q r m => obtain ⟨_, _, t, _, _, h, _⟩ := h; rw [hp] at h; cases h; exact rfl
  case tAssignScopes c q m rs => obtain ⟨_, _, _, _, t, _, _, h, _⟩ := h; rw [hp] at h; cases h; exact rfl

/-- C99. A principal that no call gave anything to is denied every request. -/
theorem C99_nothing_given {o : Ord} {fuel : Nat} {site : List Val} {p : Str} {opts : List Opt} {b : Bool}
    (hr : MOp.run {} ops = .ok w) (hn : ∀ op ∈ ops, ¬ op.Names p) (h : w.authorize o fuel site p opts = .ok (b, w')) : b = false := by
  cases b with
  | false => rfl
  | true =>
    obtain ⟨d, t, h1, _, pre, op, post, u, rfl, _, h3⟩ := C99_access hr h
    exact absurd (h3.names h1) (hn op (by simp))

/-- C99. The role behind a granted activity in a namespace and scope was given to `p` by a call, for all namespaces or
for this one, and for all scopes or for this one. (Requests with only one of the two may use roles of others, C31.) -/
theorem C99_role {o : Ord} {fuel : Nat} {site : List Val} {p : Str} {opts : List Opt} (hr : MOp.run {} ops = .ok w)
    (hn : (requestOf opts).namespace_ ≠ .nil) (hs : (requestOf opts).scope ≠ .nil) (ha : HasActivity (requestOf opts))
    (h : w.authorize o fuel site p opts = .ok (true, w')) :
    ∃ d role a g act, d.principal = .str p ∧ d.role = .str role ∧ (Happened ops fun u op => op.Gives u d) ∧
      (role, a) ∈ w.roles ∧ (requestOf opts).group = .str g ∧ (requestOf opts).activity = .str act ∧ Granted w.heap [] g act a ∧
      (d.namespace_ = .nil ∨ d.namespace_ = (requestOf opts).namespace_) ∧
      (d.scope = .nil ∨ d.scope = (requestOf opts).scope) := by
  obtain ⟨row, role, a, g, act, h1, h2, h3, h4, h5, h6, h7, h8, h9⟩ :=
    C31_own_role_partial (MOp.reachable_inv hr) hn hs ha h
  exact ⟨row, role, a, g, act, h2, h3, C99_row hr h1 (by rw [h2]; simp), h4, h5, h6, h7, h8, h9⟩

/-! ## C100 -/

/-- Only calls on roles and groups change the role graph. -/
theorem heap_origin {op : MOp} (inv : w.Inv) (h : op.apply w = .ok v) : HOrigin (fun g a => op.Lists w g a) w.heap v.heap := by
  have same : v.heap = w.heap → HOrigin (fun g a => op.Lists w g a) w.heap v.heap := fun e => e ▸ .refl _
  have via : ∀ {c : Nat} {row : TenantObj → Data}, w.withTenant c (fun t => w.addData (row t)) = .ok v → v.heap = w.heap := by
    intro c row h
    obtain ⟨t, ht, _, h⟩ := Mgr.withTenant_ok h
    obtain ⟨x, _, rfl⟩ := Out.map_eq_ok.1 h
    rfl
  have ins : ∀ {rows : List Data}, Inserted w v rows → v.heap = w.heap := fun i => by rw [i]
  cases op with
  | role op => obtain ⟨h1, h2, rfl⟩ := Out.map_eq_ok.1 h; exact HOrigin.apply h2
  | newTenant id => cases h; exact same rfl
  | addTenant a =>
    obtain ⟨⟨x, w1⟩, h2, rfl⟩ := Out.map_eq_ok.1 h
    unfold Mgr.addTenant at h2
    split at h2 <;> cases h2; exact same rfl
  | addNamespace id obj => cases h; exact same rfl
  | addScope id obj => cases h; exact same rfl
  | addPrincipal id obj => cases h; exact same rfl
  | addRole r =>
    obtain ⟨⟨x, w1⟩, h2, rfl⟩ := Out.map_eq_ok.1 h
    unfold Mgr.addRole at h2
    split at h2 <;> cases h2; exact same rfl
  | addAttribute a obj => cases h; exact same rfl
  | addAttributeGroup ga =>
    obtain ⟨⟨x, w1⟩, h2, rfl⟩ := Out.map_eq_ok.1 h
    unfold Mgr.addAttributeGroup at h2
    split at h2 <;> cases h2; exact same rfl
  | addData e => obtain ⟨x, _, rfl⟩ := Out.map_eq_ok.1 h; exact same rfl
  | tAddNamespace c n => exact same (via h)
  | tAddScopesToNamespace c n s => exact same (via h)
  | tSetDefaultNamespace c n =>
    obtain ⟨t, _, _, h⟩ := Mgr.withTenant_ok h
    split at h <;> cases h <;> exact same rfl
  | tAddPrincipalInNamespace c p n r => exact same (via h)
  | tAddRole c r => exact same (via h)
  | tAddScope c s => exact same (via h)
  | tAddDescendant c ds =>
    refine same ?_
    replace h : w.tAddDescendant c ds = .ok v := h
    clear same via ins inv
    induction ds generalizing w with
    | nil => cases h; rfl
    | cons d ds ih =>
      rw [Mgr.tAddDescendant] at h
      split at h
      · rename_i ct dt hc hd
        have i1 : (if (ct.desc.get dt.id).isSome then w
          else { w with tobjs := w.tobjs.set c { ct with desc := ct.desc.set dt.id d } }).heap = w.heap := by
          split <;> rfl
        simp only at h
        generalize (if (ct.desc.get dt.id).isSome then w
          else { w with tobjs := w.tobjs.set c { ct with desc := ct.desc.set dt.id d } }) = w1 at i1 h
        split at h
        · rw [← i1]; exact ih h
        · rw [Out.bind_eq_ok] at h
          obtain ⟨w2, h2, h⟩ := h
          rw [Out.bind_eq_ok] at h
          obtain ⟨w3, h3, h⟩ := h
          obtain ⟨t, _, _, h4⟩ := Mgr.withTenant_ok h2
          obtain ⟨x, _, rfl⟩ := Out.map_eq_ok.1 h4
          obtain ⟨t', _, _, h5⟩ := Mgr.withTenant_ok h3
          rw [ih h, ← i1]
          split at h5 <;> cases h5 <;> rfl
      · cases h
  | tAddPrincipalWithRole c p r m =>
    obtain ⟨⟨x, w1⟩, h2, rfl⟩ := Out.map_eq_ok.1 h
    obtain ⟨rows, i, _⟩ := withRole_rows inv h2
    exact same (ins i)
  | tAddPrincipal c p m rs =>
    obtain ⟨⟨x, w1⟩, h2, rfl⟩ := Out.map_eq_ok.1 h
    obtain ⟨rows, i, _⟩ := addPrincipal_rows inv h2
    exact same (ins i)
  | tAddScopeToPrincipal c p s m =>
    obtain ⟨⟨x, w1⟩, h2, rfl⟩ := Out.map_eq_ok.1 h
    obtain ⟨rows, i, _⟩ := toPrincipal_rows inv h2
    exact same (ins i)
  | tAssignScopes c p m ss =>
    obtain ⟨⟨x, w1⟩, h2, rfl⟩ := Out.map_eq_ok.1 h
    obtain ⟨rows, i, _⟩ := assignScopes_rows inv h2
    exact same (ins i)
  | addPermissionsToRole r g as =>
    obtain ⟨⟨e, h1⟩, h2, rfl⟩ := Out.map_eq_ok.1 h
    exact (HOrigin.addPermissionsToRole h2).mono fun g' a ⟨e1, e2, ⟨ga, e3⟩, x, ro, e4, e5, e6⟩ =>
      ⟨e1, e2, ⟨ga, e1 ▸ GoMap.get_some_mem e3⟩, x, ro, GoMap.get_some_mem e4, e5, e6⟩
  | tenantChildren o fuel site id =>
    obtain ⟨⟨x, w1⟩, h2, rfl⟩ := Out.map_eq_ok.1 h
    have := (Mgr.tenantChildren_spec inv h2).2.1
    exact same (by simp only; rw [this])
  | implicitTenants o fuel site p =>
    obtain ⟨⟨x, w1⟩, h2, rfl⟩ := Out.map_eq_ok.1 h
    have := (Mgr.implicitTenants_inv inv h2).2.1
    exact same (by simp only; rw [this])
  | authorize o fuel site p opts =>
    obtain ⟨⟨x, w1⟩, h2, rfl⟩ := Out.map_eq_ok.1 h
    rcases Mgr.authorize_inv h2 with ⟨rfl, _⟩ | ⟨_, I, hI⟩
    · exact same rfl
    · have := (Mgr.implicitTenants_inv inv hI).2.1
      exact same (by simp only; rw [this])

theorem held_origin (hr : MOp.run {} ops = .ok w) : ById w.heap ∧
    ∀ g e, InGroup w.heap g e → Happened ops fun u op => op.Lists u g e.2 := by
  induction ops using List.reverseRecOn generalizing w with
  | nil => cases hr; exact ⟨fun a ro h => by simp at h, fun g e ⟨i, G, h, _⟩ => by simp at h⟩
  | append_singleton ops op ih =>
    obtain ⟨v, h1, h2⟩ := MOp.run_snoc.1 hr
    obtain ⟨b, l⟩ := ih h1
    have s := heap_origin (MOp.reachable_inv h1) h2
    exact ⟨s.byId b, fun g e he => (s.new b g e he).elim (fun h => (l g e h).snoc) (fun h => .last h1 h)⟩

/-- C100. What a role grants in a group goes back to a call that put an attribute into a group with that id, whose text
(resource, blank, action) equals or matches the activity. -/
theorem C100_granted {allowed : List Str} {g act : Str} {r : Nat} (hr : MOp.run {} ops = .ok w) (h : Granted w.heap allowed g act r) :
    ∃ a : Attr, (a.resource ++ 32 :: a.action = act ∨ Matches (a.resource ++ 32 :: a.action) act) ∧
      Happened ops fun u op => op.Lists u g a := by
  obtain ⟨b, l⟩ := held_origin hr
  obtain ⟨e, h1, h2⟩ := HOrigin.of_granted b (MOp.reachable_inv hr).heap h
  exact ⟨e.2, h2, l g e h1⟩

/-- C100. A granted activity goes back to such a call, for the requested group. -/
theorem C100_activity {o : Ord} {fuel : Nat} {site : List Val} {p : Str} {opts : List Opt} (hr : MOp.run {} ops = .ok w)
    (ha : HasActivity (requestOf opts)) (h : w.authorize o fuel site p opts = .ok (true, w')) :
    ∃ g act, (requestOf opts).group = .str g ∧ (requestOf opts).activity = .str act ∧
      ∃ a : Attr, (a.resource ++ 32 :: a.action = act ∨ Matches (a.resource ++ 32 :: a.action) act) ∧
        Happened ops fun u op => op.Lists u g a := by
  obtain ⟨_, I, _, _, _, c, _, g, act, e1, e2, row, role, a, _, _, _, _, h4⟩ := (C28_activity (MOp.reachable_inv hr) ha h).1 rfl
  exact ⟨g, act, e1, e2, C100_granted hr h4⟩

/-- The call lists an attribute of this text or matching it. -/
def MOp.Offers (act : Str) : MOp → Prop
  | .role (.addPerm _ _ as) | .role (.addAttrs _ as) | .addPermissionsToRole _ _ as =>
    ∃ a ∈ as, a.resource ++ 32 :: a.action = act ∨ Matches (a.resource ++ 32 :: a.action) act
  | _ => False

/-- C100. An activity that no call lists an attribute for is denied to everybody. -/
theorem C100_nothing_listed {o : Ord} {fuel : Nat} {site : List Val} {p act : Str} {opts : List Opt} {b : Bool}
    (hr : MOp.run {} ops = .ok w) (ha : HasActivity (requestOf opts)) (he : (requestOf opts).activity = .str act)
    (hn : ∀ op ∈ ops, ¬ op.Offers act) (h : w.authorize o fuel site p opts = .ok (b, w')) : b = false := by
  cases b with
  | false => rfl
  | true =>
    obtain ⟨g, act', _, e2, a, h1, pre, op, post, u, rfl, _, h3⟩ := C100_activity hr ha h
    rw [he] at e2; cases e2
    refine absurd ?_ (hn op (by simp))
    cases op <;> simp only [MOp.Lists] at h3
    case role op =>
      cases op <;> simp only [RoleOp.Lists] at h3
      case addPerm r g as => exact ⟨a, h3.2.1, h1⟩
      case addAttrs ga as => exact ⟨a, h3.1, h1⟩
    case addPermissionsToRole r g as => exact ⟨a, h3.2.1, h1⟩

/-! ## Concrete cases -/

/-- C99 and C100 in the state of `exWorld`: the fifteenth call gave p the row, the fourteenth listed the attribute. -/
example : ∃ w u u', MOp.run {} exWorld = .ok w ∧ MOp.run {} (exWorld.take 14) = .ok u ∧ MOp.run {} (exWorld.take 13) = .ok u' ∧
    Stored w ⟨.str (str "a"), .nil, .nil, .str (str "p"), .str (str "r"), .bool true⟩ ∧
    exWorld = exWorld.take 14 ++ MOp.tAddPrincipalWithRole 0 (str "p") (str "r") true :: exWorld.drop 15 ∧
    (MOp.tAddPrincipalWithRole 0 (str "p") (str "r") true).Gives u
      ⟨.str (str "a"), .nil, .nil, .str (str "p"), .str (str "r"), .bool true⟩ ∧
    exWorld = exWorld.take 13 ++ MOp.role (.addPerm 0 (str "g") [⟨str "/x", str "GET"⟩]) :: exWorld.drop 14 ∧
    (MOp.role (.addPerm 0 (str "g") [⟨str "/x", str "GET"⟩])).Lists u' (str "g") ⟨str "/x", str "GET"⟩ := by
  obtain ⟨w, h1, h2⟩ := Out.chk_ok (x := MOp.run {} exWorld) (P := fun w =>
    (⟨.str (str "a"), .nil, .nil, .str (str "p"), .str (str "r"), .bool true⟩ : Data) ∈ survivors (rowKey dataKeys) w.log) (by decide +kernel)
  obtain ⟨u, h3, h4, h5, t, h6, h7⟩ := Out.chk_ok (x := MOp.run {} (exWorld.take 14)) (P := fun u =>
    (str "p", 0) ∈ u.principals ∧ (str "r", 0) ∈ u.roles ∧ ∃ t ∈ u.tobjs[0]?, t.id = str "a") (by decide +kernel)
  obtain ⟨u', h8, ro, h9, h10⟩ := Out.chk_ok (x := MOp.run {} (exWorld.take 13)) (P := fun u =>
    ∃ ro ∈ u.heap.roles[0]?, ro.lock = false) (by decide +kernel)
  exact ⟨w, u, u', h1, h3, h8, h2, rfl, ⟨⟨0, h4⟩, ⟨0, h5⟩, t, h6, by rw [h7], rfl, rfl, rfl, rfl, .inl rfl⟩, rfl,
    ⟨rfl, by simp, ro, h9, h10⟩⟩

/-- Nothing was given to q, and no attribute allows "/x PUT". -/
example : (∀ op ∈ exWorld, ¬ op.Names (str "q")) ∧ ∀ op ∈ exWorld, ¬ op.Offers (str "/x PUT") := by
  refine ⟨?_, ?_⟩
  · intro op h
    simp only [exWorld, List.mem_cons, List.not_mem_nil, or_false] at h
    rcases h with h | h | h | h | h | h | h | h | h | h | h | h | h | h | h | h <;> subst h <;> simp only [MOp.Names] <;> decide +kernel
  · intro op h
    simp only [exWorld, List.mem_cons, List.not_mem_nil, or_false] at h
    rcases h with h | h | h | h | h | h | h | h | h | h | h | h | h | h | h | h <;> subst h <;> simp only [MOp.Offers] <;> try decide +kernel
    rintro ⟨a, h1, h2⟩
    cases List.mem_singleton.1 h1
    rw [matches_literal (by decide +kernel) (by decide +kernel)] at h2
    exact absurd h2 (by decide +kernel)

end Verif
