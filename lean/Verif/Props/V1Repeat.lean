import Verif.Props.V1
import Verif.Props.Repeat

/-!
# Repeating a call (v1)

A call that changes something, made a second time, changes nothing more, except `AssignScopesToPrincipal`.
-/

set_option linter.unusedSimpArgs false

namespace Verif

/-! ## Statement -/

namespace Spec

/-- A call that changes something; the constructors make a new object each time. -/
def Change1 : V1Op → Prop
  | .role op => RoleChange op
  | .newTenant _ | .newNamespace _ => False
  | _ => True

/-- The same call; the loops over maps may run in another order. -/
inductive SameCall : V1Op → V1Op → Prop
  | refl (op : V1Op) : SameCall op op
  | inNamespace (o o' : Ord) (site site' : List Val) (c : Nat) (p n : Str) (rs : List Str) :
      SameCall (.tAddPrincipalInNamespace o site c p n rs) (.tAddPrincipalInNamespace o' site' c p n rs)
  | assign (o o' : Ord) (site site' : List Val) (c : Nat) (p : Str) (ss : List Str) :
      SameCall (.tAssignScopesToPrincipal o site c p ss) (.tAssignScopesToPrincipal o' site' c p ss)
  | withRole (o o' : Ord) (site site' : List Val) (c : Nat) (p r : Str) (ss : List Str) :
      SameCall (.tAssignScopesWithRole o site c p r ss) (.tAssignScopesWithRole o' site' c p r ss)

/-- If the call is `AssignScopesToPrincipal`: its tenant has no default namespace, or the principal has an assignment without a
role there. -/
def Plain (w : V1) : V1Op → Prop
  | .tAssignScopesToPrincipal _ _ c p _ => ∀ t, w.tobjs[c]? = some t →
      t.defNs = none ∨ ∃ x, Row w x ∧ x.principal = p ∧ x.tenant = t.id ∧ x.role = []
  | _ => True

/-- Equal but for the record of what `AddPrincipalRole` was asked to store, which is not in the code. -/
def EqualButLog1 (w v : V1) : Prop := v = { w with log := v.log }

end Spec

open Spec V1

namespace Rep1

open Rep (same_bind same_map set_get_same lt_of_get set_set set_same set_comm)

/-! ## The ghost is not read -/

/-- The state with another ghost. -/
def lg (w : V1) (L : List TP) : V1 := { w with log := L }

/-- The state without its ghost. -/
def fg (w : V1) : V1 := lg w []

theorem exists_lg {a b : V1} (h : fg a = fg b) : ∃ L, a = lg b L := by
  refine ⟨a.log, ?_⟩
  cases a; cases b
  simp only [fg, lg, V1.mk.injEq] at h ⊢
  simp only [h, and_self]

/-- A call does not read the ghost. -/
def Blind (f : V1 → Out V1) : Prop := ∀ w L, (f (lg w L)).map fg = (f w).map fg

theorem Blind.bind {f g : V1 → Out V1} (hf : Blind f) (hg : Blind g) : Blind fun w => (f w).bind g := by
  intro w L
  refine same_bind (k := fg) (hf w L) fun a b h => ?_
  obtain ⟨L1, rfl⟩ := exists_lg h
  exact hg _ _

theorem Blind.ok : Blind .ok := fun _ _ => rfl

theorem Blind.panic : Blind fun _ => .panic := fun _ _ => rfl

theorem Blind.loop {α : Type} {f : V1 → α → Out V1} (hf : ∀ x, Blind fun w => f w x) (xs : List α) : Blind fun w => Out.loop f w xs := by
  induction xs with
  | nil => exact Blind.ok
  | cons x xs ih => exact (hf x).bind ih

theorem Blind.withT {c : Nat} {f : V1 → T1Obj → Out V1} (hf : ∀ t, Blind fun w => f w t) : Blind fun w => w.withT c (f w) := by
  intro w L
  show ((match w.tobjs[c]? with | none => .panic | some t => f (lg w L) t : Out V1)).map fg = _
  try dsimp only
  unfold V1.withT
  cases w.tobjs[c]? with
  | none => rfl
  | some t => exact hf t w L

theorem Blind.ite {p : Prop} [Decidable p] {f g : V1 → Out V1} (hf : Blind f) (hg : Blind g) : Blind fun w => if p then f w else g w := by
  intro w L
  by_cases h : p
  · simp only [if_pos h]; exact hf w L
  · simp only [if_neg h]; exact hg w L

theorem store_lg (w : V1) (L : List TP) (x : TP) : fg ((lg w L).store x) = fg (w.store x) := rfl

theorem blind_apr (p r : Str) (c : Nat) (ns : Option Nat) (sc : Option Str) (m : List Bool) : Blind fun w => w.addPrincipalRole p r c ns sc m := by
  intro w L
  unfold V1.addPrincipalRole
  show ((match w.tobjs[c]? with | none => .panic | some t => _ : Out V1)).map fg = _
  try dsimp only
  cases w.tobjs[c]? with
  | none => rfl
  | some t =>
    simp only
    have e : (lg w L).nsID ns = w.nsID ns := by cases ns <;> rfl
    rw [e]
    cases w.nsID ns <;> rfl

theorem blind_tapr (c : Nat) (p r : Str) (d : Nat) (ns : Option Nat) (sc : Option Str) (m : List Bool) : Blind fun w => w.tAddPrincipalRole c p r d ns sc m :=
  Blind.withT fun _ => Blind.ite (blind_apr p r d ns sc m) .panic

theorem blind_def (c : Nat) (t : T1Obj) (p r : Str) (sc : Option Str) : Blind fun w => w.addWithDefault c t p r sc := by
  unfold V1.addWithDefault
  refine Blind.bind (blind_tapr c p r c none sc []) ?_
  cases t.defNs with
  | none => exact .ok
  | some a => exact blind_tapr c p r c (some a) sc []

theorem blind_scopesTo (c : Nat) (n : Str) (ss : List Str) : Blind fun w => w.tAddScopesToNamespace c n ss := by
  induction ss with
  | nil => exact .ok
  | cons s ss ih =>
    simp only [V1.tAddScopesToNamespace]
    refine Blind.withT fun t => ?_
    cases t.scopes.get s with
    | none => exact .ok
    | some obj =>
      simp only
      cases t.namespaces.get n with
      | none => exact ih
      | some a =>
        intro w L
        show ((match w.nsobjs[a]? with | none => .panic | some no => _ : Out V1)).map fg = _
        try dsimp only
        cases w.nsobjs[a]? with
        | none => rfl
        | some no => exact (Blind.bind (blind_tapr c [] [] c (some a) (some s) []) ih) (w.setNs a { no with scopes := setAbsent no.scopes s obj }) L

theorem blind_rolesTo (c : Nat) (n : Str) (ss : List Str) : Blind fun w => w.tAddRolesToNamespace c n ss := by
  induction ss with
  | nil => exact .ok
  | cons s ss ih =>
    simp only [V1.tAddRolesToNamespace]
    refine Blind.withT fun t => ?_
    cases t.roles.get s with
    | none => exact .ok
    | some obj =>
      simp only
      cases t.namespaces.get n with
      | none => exact .ok
      | some a =>
        intro w L
        show ((match w.nsobjs[a]? with | none => .panic | some no => _ : Out V1)).map fg = _
        try dsimp only
        cases w.nsobjs[a]? with
        | none => rfl
        | some no => exact ih (w.setNs a { no with roles := setAbsent no.roles s obj }) L

theorem blind_descStep (c d : Nat) : Blind fun w => w.withT c fun t => w.withT d fun dt => .ok (w.setT c { t with desc := setAbsent t.desc dt.id d }) :=
  Blind.withT fun _ => Blind.withT fun _ _ _ => rfl

theorem blind_nsStep (c a : Nat) : Blind fun w => w.withT c fun t =>
    match w.nsobjs[a]? with
    | none => .panic
    | some no => .ok (w.setT c { t with namespaces := setAbsent t.namespaces no.id a }) := by
  refine Blind.withT fun t w L => ?_
  show ((match w.nsobjs[a]? with | none => .panic | some no => _ : Out V1)).map fg = _
  try dsimp only
  cases w.nsobjs[a]? <;> rfl

theorem blind_roleStep (c a : Nat) : Blind fun w => w.withT c fun t =>
    match w.heap.roles[a]? with
    | none => .panic
    | some ro => .ok (w.setT c { t with roles := setAbsent t.roles ro.id a }) := by
  refine Blind.withT fun t w L => ?_
  show ((match w.heap.roles[a]? with | none => .panic | some no => _ : Out V1)).map fg = _
  try dsimp only
  cases w.heap.roles[a]? <;> rfl

theorem blind_scopeStep (c : Nat) (s : Str × Nat) : Blind fun w => w.withT c fun t =>
    let w := w.setT c { t with scopes := setAbsent t.scopes s.1 s.2 }
    match t.defNs with
    | none => .ok w
    | some a =>
      match w.nsobjs[a]? with
      | none => .panic
      | some no => .ok (w.setNs a { no with scopes := setAbsent no.scopes s.1 s.2 }) := by
  refine Blind.withT fun t w L => ?_
  cases t.defNs with
  | none => rfl
  | some a =>
    simp only
    show ((match w.nsobjs[a]? with | none => .panic | some no => _ : Out V1)).map fg = ((match w.nsobjs[a]? with | none => .panic | some no => _ : Out V1)).map fg
    try dsimp only
    cases w.nsobjs[a]? <;> rfl

theorem blind_inNs (o : Ord) (site : List Val) (c : Nat) (p n : Str) (rs : List Str) : Blind fun w => w.tAddPrincipalInNamespace o site c p n rs := by
  unfold V1.tAddPrincipalInNamespace
  refine Blind.withT fun t => ?_
  cases t.namespaces.get n with
  | none => exact .ok
  | some a =>
    refine Blind.ite ?_ (Blind.ite ?_ .panic)
    · refine Blind.loop (fun r => ?_) rs
      cases t.roles.get r with
      | none => exact .ok
      | some ra =>
        intro w L
        show ((match w.heap.roles[ra]? with | none => .panic | some no => _ : Out V1)).map fg = _
        try dsimp only
        cases w.heap.roles[ra]? with
        | none => rfl
        | some ro => exact blind_tapr c p ro.id c (some a) none [] w L
    · have K : ∀ l : List TP, Blind fun w => (Out.loop (fun w (x : TP) => if x.principal = p ∧ x.namespace_ ≠ [] ∧ x.namespace_ ≠ n then
          w.tAddPrincipalRole c p x.role c (some a) none [] else .ok w) w l).bind fun w => w.tAddPrincipalRole c p [] c (some a) none [] := by
        intro l
        refine Blind.bind (f := fun w => Out.loop _ w l) (Blind.loop (fun x => ?_) l) (blind_tapr c p [] c (some a) none [])
        exact Blind.ite (blind_tapr c p x.role c (some a) none []) .ok
      intro w L
      have e : (lg w L).tenantRoles o site t.id = w.tenantRoles o site t.id := rfl
      dsimp only
      rw [e]
      cases w.tenantRoles o site t.id with
      | ok l => exact K l w L
      | panic => rfl
      | diverge => rfl

theorem blind_assign (o : Ord) (site : List Val) (c : Nat) (p : Str) (ss : List Str) : Blind fun w => w.tAssignScopesToPrincipal o site c p ss := by
  unfold V1.tAssignScopesToPrincipal
  refine Blind.withT fun t => Blind.ite ?_ .panic
  have K : ∀ l : List TP, Blind fun w => if l = [] then .ok w else Out.loop (fun w s => if (t.scopes.get s).isSome then
      (Out.loop (fun w x => w.addWithDefault c t p x.role (some s)) w l).bind fun w => w.tAddPrincipalRole c p [] c none (some s) []
      else .ok w) w ss := by
    intro l
    refine Blind.ite .ok (Blind.loop (fun s => ?_) ss)
    refine Blind.ite (Blind.bind (f := fun w => Out.loop _ w l) (Blind.loop (fun x => ?_) l) (blind_tapr c p [] c none (some s) [])) .ok
    exact blind_def c t p x.role (some s)
  intro w L
  have e : (lg w L).principalRoles o site t.id p = w.principalRoles o site t.id p := rfl
  dsimp only
  rw [e]
  cases w.principalRoles o site t.id p with
  | ok l => exact K l w L
  | panic => rfl
  | diverge => rfl

theorem blind_withRole (o : Ord) (site : List Val) (c : Nat) (p r : Str) (ss : List Str) : Blind fun w => w.tAssignScopesWithRole o site c p r ss := by
  unfold V1.tAssignScopesWithRole
  refine Blind.ite .ok (Blind.withT fun t => Blind.ite ?_ .panic)
  have K : ∀ l : List TP, Blind fun w => if l = [] then .ok w else
      if (t.roles.get r).isSome then Out.loop (fun w s => if (t.scopes.get s).isSome then w.addWithDefault c t p r (some s) else .ok w) w ss else .ok w := fun l =>
    Blind.ite .ok (Blind.ite (Blind.loop (fun s => Blind.ite (blind_def c t p r (some s)) .ok) ss) .ok)
  intro w L
  have e : (lg w L).principalRoles o site t.id p = w.principalRoles o site t.id p := rfl
  dsimp only
  rw [e]
  cases w.principalRoles o site t.id p with
  | ok l => exact K l w L
  | panic => rfl
  | diverge => rfl

theorem blind_op (op : V1Op) : Blind fun w => op.apply w := by
  cases op with
  | role op =>
    intro w L
    show ((op.apply w.heap).map _).map fg = ((op.apply w.heap).map _).map fg
    cases op.apply w.heap <;> rfl
  | newTenant id => intro w L; rfl
  | newNamespace id => intro w L; rfl
  | addTenant a =>
    intro w L
    simp only [V1Op.apply, V1.addTenant]
    show ((match w.tobjs[a]? with | none => _ | some t => _ : Out (Nat × V1)).map _).map fg = _
    try dsimp only
    cases w.tobjs[a]? with
    | none => rfl
    | some t =>
      simp only
      show ((match w.tenants.get t.id with | some d => _ | none => _ : Out (Nat × V1)).map _).map fg = _
      try dsimp only
      cases w.tenants.get t.id <;> rfl
  | addNamespace a =>
    intro w L
    simp only [V1Op.apply, V1.addNamespace]
    show ((match w.nsobjs[a]? with | none => _ | some t => _ : Out (Nat × V1)).map _).map fg = _
    try dsimp only
    cases w.nsobjs[a]? with
    | none => rfl
    | some t =>
      simp only
      show ((match w.namespaces.get t.id with | some d => _ | none => _ : Out (Nat × V1)).map _).map fg = _
      try dsimp only
      cases w.namespaces.get t.id <;> rfl
  | addScope id obj =>
    intro w L
    simp only [V1Op.apply, V1.addScope]
    show (Out.ok (match w.scopes.get id with | some d => _ | none => _ : Nat × V1).2).map fg = _
    try dsimp only
    cases w.scopes.get id <;> rfl
  | addPrincipal id obj =>
    intro w L
    simp only [V1Op.apply, V1.addPrincipal]
    show (Out.ok (match w.principals.get id with | some d => _ | none => _ : Nat × V1).2).map fg = _
    try dsimp only
    cases w.principals.get id <;> rfl
  | addRole r =>
    intro w L
    simp only [V1Op.apply, V1.addRole]
    show ((match w.heap.roles[r]? with | none => _ | some t => _ : Out (Nat × V1)).map _).map fg = _
    try dsimp only
    cases w.heap.roles[r]? with
    | none => rfl
    | some t =>
      simp only
      show ((match w.roles.get t.id with | some d => _ | none => _ : Out (Nat × V1)).map _).map fg = _
      try dsimp only
      cases w.roles.get t.id <;> rfl
  | addAttribute a obj =>
    intro w L
    simp only [V1Op.apply, V1.addAttribute]
    show (Out.ok (match w.attrs.get a.toStr with | some d => _ | none => _ : Nat × V1).2).map fg = _
    try dsimp only
    cases w.attrs.get a.toStr <;> rfl
  | addAttributeGroup ga =>
    intro w L
    simp only [V1Op.apply, V1.addAttributeGroup]
    show ((match w.heap.groups[ga]? with | none => _ | some t => _ : Out (Nat × V1)).map _).map fg = _
    try dsimp only
    cases w.heap.groups[ga]? with
    | none => rfl
    | some t =>
      simp only
      show ((match w.attrGroups.get t.id with | some d => _ | none => _ : Out (Nat × V1)).map _).map fg = _
      try dsimp only
      cases w.attrGroups.get t.id <;> rfl
  | addPermissionsToRole r g as =>
    intro w L
    show ((w.heap.addPermissionsToRole w.roles w.attrGroups r g as).map _).map fg = ((w.heap.addPermissionsToRole w.roles w.attrGroups r g as).map _).map fg
    cases w.heap.addPermissionsToRole w.roles w.attrGroups r g as <;> rfl
  | addPrincipalRole p r c ns sc m => exact blind_apr p r c ns sc m
  | tAddDescendent c ds => exact Blind.loop (blind_descStep c) ds
  | tSetDefaultNamespace c n =>
    refine Blind.withT (f := fun w t => match t.namespaces.get n with
      | some a => .ok (w.setT c { t with defNs := some a })
      | none => .ok w) fun t => ?_
    cases t.namespaces.get n <;> exact fun _ _ => rfl
  | tAddNamespace c ns => exact Blind.loop (blind_nsStep c) ns
  | tAddRole c rs => exact Blind.loop (blind_roleStep c) rs
  | tAddScopes c ss => exact Blind.loop (blind_scopeStep c) ss
  | tAddScopesToNamespace c n ss => exact blind_scopesTo c n ss
  | tAddRolesToNamespace c n rs => exact blind_rolesTo c n rs
  | tAddPrincipalRole c p r d ns sc m => exact blind_tapr c p r d ns sc m
  | tAddPrincipal c p rs => exact Blind.withT (f := fun w t => Out.loop _ w rs) fun t => Blind.loop (fun r => Blind.ite (blind_def c t p r none) .ok) rs
  | tAddPrincipalInNamespace o site c p n rs => exact blind_inNs o site c p n rs
  | tAssignScopesToPrincipal o site c p ss => exact blind_assign o site c p ss
  | tAssignScopesWithRole o site c p r ss => exact blind_withRole o site c p r ss
  | nsAddRoles n rs =>
    refine Blind.loop (fun a w L => ?_) rs
    show ((match w.nsobjs[n]?, w.heap.roles[a]? with | some no, some ro => _ | _, _ => _ : Out V1)).map fg = _
    try dsimp only
    cases w.nsobjs[n]? with
    | none => rfl
    | some no => cases w.heap.roles[a]? <;> rfl
  | nsAddScopes n ss =>
    refine Blind.loop (fun s w L => ?_) ss
    show ((match w.nsobjs[n]? with | some no => _ | _ => _ : Out V1)).map fg = _
    try dsimp only
    cases w.nsobjs[n]? <;> rfl

theorem run_lg (ops : List V1Op) : ∀ (w : V1) (L : List TP), (V1Op.run (lg w L) ops).map fg = (V1Op.run w ops).map fg := by
  induction ops with
  | nil => intro w L; rfl
  | cons op ops ih => exact fun w L => Blind.bind (g := fun w => V1Op.run w ops) (blind_op op) ih w L

theorem authorize_lg (w : V1) (L : List TP) (o : Ord) (n : Nat) (site : List Val) (p : Str) (opts : List Opt) :
    (lg w L).authorize o n site p opts = w.authorize o n site p opts := rfl

/-! ## Calls that change nothing -/

/-- The call succeeds and changes at most the ghost. -/
def Idle (f : V1 → Out V1) (w : V1) : Prop := ∃ L, f w = .ok (lg w L)

theorem Idle.self {f : V1 → Out V1} {w : V1} (h : f w = .ok w) : Idle f w := ⟨w.log, h⟩

theorem Idle.bind {f g : V1 → Out V1} {w : V1} (hg : Blind g) (h1 : Idle f w) (h2 : Idle g w) : Idle (fun w => (f w).bind g) w := by
  obtain ⟨L, e⟩ := h1
  obtain ⟨M, e2⟩ := h2
  have h := hg w L
  rw [e2] at h
  show ∃ L, (f w).bind g = _
  rw [e]
  show ∃ L', g (lg w L) = _
  cases h3 : g (lg w L) with
  | ok v =>
    rw [h3] at h
    simp only [Out.map_ok, Out.ok.injEq] at h
    obtain ⟨L', h⟩ := exists_lg h
    exact ⟨L', by rw [h]; rfl⟩
  | panic => rw [h3] at h; cases h
  | diverge => rw [h3] at h; cases h

theorem Idle.loop {α : Type} {f : V1 → α → Out V1} (hf : ∀ x, Blind fun w => f w x) {w : V1} {xs : List α} (h : ∀ x ∈ xs, Idle (fun w => f w x) w) :
    Idle (fun w => Out.loop f w xs) w := by
  induction xs with
  | nil => exact .self rfl
  | cons x xs ih => exact Idle.bind (Blind.loop hf xs) (h x (List.mem_cons_self ..)) (ih fun y hy => h y (List.mem_cons_of_mem _ hy))

theorem Idle.withT {c : Nat} {f : V1 → T1Obj → Out V1} {w : V1} {t : T1Obj} (ht : w.tobjs[c]? = some t) (h : Idle (fun w => f w t) w) :
    Idle (fun w => w.withT c (f w)) w := by
  obtain ⟨L, h⟩ := h
  exact ⟨L, by simp only [V1.withT, ht]; exact h⟩

/-- Some key of `m` is a key of `m'`. -/
def Keys (m m' : GoMap Str Nat) : Prop := ∀ k, (m.get k).isSome → (m'.get k).isSome

theorem Keys.refl (m : GoMap Str Nat) : Keys m m := fun _ h => h

theorem keys_setAbsent (m : GoMap Str Nat) (k : Str) (v : Nat) : Keys m (setAbsent m k v) := by
  intro j hj
  unfold setAbsent
  cases m.get k with
  | some _ => exact hj
  | none =>
    simp only [GoMap.get_set]
    split
    · rfl
    · exact hj

theorem get_setAbsent (m : GoMap Str Nat) (k : Str) (v : Nat) : ((setAbsent m k v).get k).isSome := by
  unfold setAbsent
  cases h : m.get k with
  | some _ => simp [h]
  | none => simp [GoMap.get_set]

theorem setAbsent_of {m : GoMap Str Nat} {k : Str} (v : Nat) (h : (m.get k).isSome) : setAbsent m k v = m := by
  unfold setAbsent
  cases e : m.get k with
  | some _ => rfl
  | none => rw [e] at h; cases h

/-- The namespace object only gained keys. -/
structure NsLe (x y : NsObj) : Prop where
  id : y.id = x.id
  roles : Keys x.roles y.roles
  scopes : Keys x.scopes y.scopes

theorem NsLe.refl (x : NsObj) : NsLe x x := ⟨rfl, .refl _, .refl _⟩

theorem NsLe.trans {x y z : NsObj} (a : NsLe x y) (b : NsLe y z) : NsLe x z :=
  ⟨b.id.trans a.id, fun k h => b.roles k (a.roles k h), fun k h => b.scopes k (a.scopes k h)⟩

/-- The tenant object only gained keys. -/
structure TLe (x y : T1Obj) : Prop where
  id : y.id = x.id
  managed : y.managed = x.managed
  defNs : y.defNs = x.defNs
  desc : Keys x.desc y.desc
  namespaces : Keys x.namespaces y.namespaces
  roles : Keys x.roles y.roles
  scopes : Keys x.scopes y.scopes

theorem TLe.refl (x : T1Obj) : TLe x x := ⟨rfl, rfl, rfl, .refl _, .refl _, .refl _, .refl _⟩

theorem TLe.trans {x y z : T1Obj} (a : TLe x y) (b : TLe y z) : TLe x z :=
  ⟨b.id.trans a.id, b.managed.trans a.managed, b.defNs.trans a.defNs, fun k h => b.desc k (a.desc k h),
    fun k h => b.namespaces k (a.namespaces k h), fun k h => b.roles k (a.roles k h), fun k h => b.scopes k (a.scopes k h)⟩

/-- The state only gained assignments and keys. -/
structure Le (w v : V1) : Prop where
  heap : v.heap = w.heap
  tps : ∀ h ∈ w.tps, h ∈ v.tps
  ns : ∀ (a : Nat) (no : NsObj), w.nsobjs[a]? = some no → ∃ no', v.nsobjs[a]? = some no' ∧ NsLe no no'
  ten : ∀ (a : Nat) (t : T1Obj), w.tobjs[a]? = some t → ∃ t', v.tobjs[a]? = some t' ∧ TLe t t'

theorem Le.refl (w : V1) : Le w w := ⟨rfl, fun _ h => h, fun _ no h => ⟨no, h, .refl _⟩, fun _ t h => ⟨t, h, .refl _⟩⟩

theorem Le.trans {u w v : V1} (a : Le u w) (b : Le w v) : Le u v := by
  refine ⟨b.heap.trans a.heap, fun h hh => b.tps h (a.tps h hh), fun n no h => ?_, fun n no h => ?_⟩
  · obtain ⟨x, h1, h2⟩ := a.ns n no h
    obtain ⟨y, h3, h4⟩ := b.ns n x h1
    exact ⟨y, h3, h2.trans h4⟩
  · obtain ⟨x, h1, h2⟩ := a.ten n no h
    obtain ⟨y, h3, h4⟩ := b.ten n x h1
    exact ⟨y, h3, h2.trans h4⟩

theorem Le.setT {w : V1} {c : Nat} {t t' : T1Obj} (ht : w.tobjs[c]? = some t) (h : TLe t t') : Le w (w.setT c t') := by
  refine ⟨rfl, fun _ h => h, fun _ no h => ⟨no, h, .refl _⟩, fun a x hx => ?_⟩
  by_cases e : c = a
  · subst e
    rw [ht] at hx; cases hx
    exact ⟨t', List.getElem?_set_self (lt_of_get ht), h⟩
  · exact ⟨x, by rw [← hx]; exact List.getElem?_set_ne e, .refl _⟩

theorem Le.setNs {w : V1} {c : Nat} {t t' : NsObj} (ht : w.nsobjs[c]? = some t) (h : NsLe t t') : Le w (w.setNs c t') := by
  refine ⟨rfl, fun _ h => h, fun a x hx => ?_, fun _ no h => ⟨no, h, .refl _⟩⟩
  by_cases e : c = a
  · subst e
    rw [ht] at hx; cases hx
    exact ⟨t', List.getElem?_set_self (lt_of_get ht), h⟩
  · exact ⟨x, by rw [← hx]; exact List.getElem?_set_ne e, .refl _⟩

/-- … and kept its tenant objects. -/
def LeT (w v : V1) : Prop := Le w v ∧ v.tobjs = w.tobjs

/-- A step that grows the state, and is idle in every state that grew from its result. -/
structure Fix (R : V1 → V1 → Prop) (f : V1 → Out V1) : Prop where
  blind : Blind f
  first : ∀ {w w' : V1}, f w = .ok w' → R w w'
  again : ∀ {w w' v : V1}, f w = .ok w' → R w' v → Idle f v

/-- What `Fix` needs of its relation. -/
structure Pre (R : V1 → V1 → Prop) : Prop where
  refl : ∀ w, R w w
  trans : ∀ {u w v}, R u w → R w v → R u v

theorem pre_le : Pre Le := ⟨.refl, .trans⟩

theorem pre_leT : Pre LeT := ⟨fun w => ⟨.refl w, rfl⟩, fun a b => ⟨a.1.trans b.1, b.2.trans a.2⟩⟩

section
variable {R : V1 → V1 → Prop} (P : Pre R)
include P

theorem Fix.ok : Fix R .ok := by
  refine ⟨.ok, fun h => ?_, fun _ _ => .self rfl⟩
  cases h
  exact P.refl _

omit P in
theorem Fix.panic : Fix R fun _ => .panic := ⟨.panic, (fun h => by cases h), (fun h _ => by cases h)⟩

theorem Fix.bind {f g : V1 → Out V1} (hf : Fix R f) (hg : Fix R g) : Fix R fun w => (f w).bind g := by
  refine ⟨hf.blind.bind hg.blind, fun h => ?_, fun h hv => ?_⟩
  · obtain ⟨w1, h1, h2⟩ := Out.bind_eq_ok.1 h
    exact P.trans (hf.first h1) (hg.first h2)
  · obtain ⟨w1, h1, h2⟩ := Out.bind_eq_ok.1 h
    exact Idle.bind hg.blind (hf.again h1 (P.trans (hg.first h2) hv)) (hg.again h2 hv)

theorem Fix.loop {α : Type} {f : V1 → α → Out V1} (hf : ∀ x, Fix R fun w => f w x) (xs : List α) : Fix R fun w => Out.loop f w xs := by
  induction xs with
  | nil => exact Fix.ok P
  | cons x xs ih => exact Fix.bind P (hf x) ih

omit P in
theorem Fix.ite {p : Prop} [Decidable p] {f g : V1 → Out V1} (hf : Fix R f) (hg : Fix R g) : Fix R fun w => if p then f w else g w := by
  by_cases h : p
  · simp only [if_pos h]; exact hf
  · simp only [if_neg h]; exact hg

end

theorem Fix.twice {R : V1 → V1 → Prop} (P : Pre R) {f : V1 → Out V1} (hf : Fix R f) {w w' : V1} (h : f w = .ok w') : Idle f w' := hf.again h (P.refl w')

theorem Fix.withT {c : Nat} {f : V1 → T1Obj → Out V1} (hf : ∀ t, Fix LeT fun w => f w t) : Fix LeT fun w => w.withT c (f w) := by
  refine ⟨Blind.withT fun t => (hf t).blind, fun h => ?_, fun h hv => ?_⟩
  · obtain ⟨t, ht, h⟩ := withT_eq_ok.1 h
    exact (hf t).first h
  · obtain ⟨t, ht, h⟩ := withT_eq_ok.1 h
    refine Idle.withT (t := t) ?_ ((hf t).again h hv)
    rw [hv.2, ((hf t).first h).2, ht]

/-! ## The calls -/

theorem store_of {w : V1} {x : TP} (h : encode x ∈ w.tps) : w.store x = lg w (w.log ++ [x]) := by
  unfold V1.store
  rw [if_pos h]; rfl

theorem le_store (w : V1) (x : TP) : LeT w (w.store x) :=
  ⟨⟨rfl, fun _ h => mem_store.2 (.inl h), fun _ no h => ⟨no, h, .refl _⟩, fun _ t h => ⟨t, h, .refl _⟩⟩, rfl⟩

theorem nsID_le {w v : V1} {ns : Option Nat} {n : Str} (h : w.nsID ns = .ok n) (hv : Le w v) : v.nsID ns = .ok n := by
  cases ns with
  | none => exact h
  | some a =>
    simp only [V1.nsID] at h ⊢
    cases hn : w.nsobjs[a]? with
    | none => rw [hn] at h; cases h
    | some no =>
      rw [hn] at h; cases h
      obtain ⟨no', h1, h2⟩ := hv.ns a no hn
      rw [h1, ← h2.id]

theorem fix_apr (p r : Str) (c : Nat) (ns : Option Nat) (sc : Option Str) (m : List Bool) : Fix LeT fun w => w.addPrincipalRole p r c ns sc m := by
  refine ⟨blind_apr p r c ns sc m, fun {w w'} h => ?_, fun {w w' v} h hv => ?_⟩ <;> dsimp only [V1.addPrincipalRole] at h <;> cases ht : w.tobjs[c]? with
  | none => rw [ht] at h; cases h
  | some t => ?_
  · rw [ht] at h
    obtain ⟨n, hn, rfl⟩ := Out.map_eq_ok.1 h
    exact le_store _ _
  · rw [ht] at h
    obtain ⟨n, hn, rfl⟩ := Out.map_eq_ok.1 h
    have h1 : v.tobjs[c]? = some t := by rw [hv.2]; exact ht
    have h2 : v.nsID ns = .ok n := nsID_le hn ((le_store _ _).1.trans hv.1)
    have h3 := hv.1.tps _ (mem_store.2 (.inr rfl))
    refine ⟨v.log ++ [⟨t.id, p, r, n, sc.getD [], m.headD true⟩], ?_⟩
    dsimp only [V1.addPrincipalRole]
    rw [h1]
    try dsimp only
    rw [h2, Out.map_ok, store_of h3]

theorem fix_tapr (c : Nat) (p r : Str) (d : Nat) (ns : Option Nat) (sc : Option Str) (m : List Bool) : Fix LeT fun w => w.tAddPrincipalRole c p r d ns sc m :=
  Fix.withT fun _ => Fix.ite (fix_apr p r d ns sc m) .panic

theorem fix_def (c : Nat) (t : T1Obj) (p r : Str) (sc : Option Str) : Fix LeT fun w => w.addWithDefault c t p r sc := by
  unfold V1.addWithDefault
  refine Fix.bind pre_leT (fix_tapr c p r c none sc []) ?_
  cases t.defNs with
  | none => exact Fix.ok pre_leT
  | some a => exact fix_tapr c p r c (some a) sc []

theorem fix_principal (c : Nat) (p : Str) (rs : List Str) : Fix LeT fun w => w.tAddPrincipal c p rs :=
  Fix.withT (f := fun w _ => Out.loop _ w rs) fun t => Fix.loop pre_leT (fun r => Fix.ite (fix_def c t p r none) (Fix.ok pre_leT)) rs

/-- Putting a key of a namespace object. -/
theorem fix_putNs (a : Nat) (u : NsObj → NsObj) (hle : ∀ no, NsLe no (u no)) (hid : ∀ {no no' : NsObj}, NsLe (u no) no' → u no' = no') :
    Fix LeT fun w => match w.nsobjs[a]? with
      | none => .panic
      | some no => .ok (w.setNs a (u no)) := by
  refine ⟨fun w L => ?_, fun {w w'} h => ?_, fun {w w' v} h hv => ?_⟩
  · show ((match w.nsobjs[a]? with | none => .panic | some no => _ : Out V1)).map fg = _
    try dsimp only
    cases w.nsobjs[a]? <;> rfl
  · try dsimp only at h
    cases hn : w.nsobjs[a]? with
    | none => rw [hn] at h; cases h
    | some no =>
      rw [hn] at h; cases h
      exact ⟨Le.setNs hn (hle no), rfl⟩
  · try dsimp only at h
    cases hn : w.nsobjs[a]? with
    | none => rw [hn] at h; cases h
    | some no =>
      rw [hn] at h; cases h
      obtain ⟨no', h1, h2⟩ := hv.1.ns a (u no) (List.getElem?_set_self (lt_of_get hn))
      refine .self ?_
      try dsimp only
      rw [h1]
      try dsimp only
      rw [hid h2]
      unfold V1.setNs
      rw [set_get_same h1]

theorem fix_scopesTo (c : Nat) (n : Str) (ss : List Str) : Fix LeT fun w => w.tAddScopesToNamespace c n ss := by
  induction ss with
  | nil => exact Fix.ok pre_leT
  | cons s ss ih =>
    simp only [V1.tAddScopesToNamespace]
    refine Fix.withT fun t => ?_
    cases t.scopes.get s with
    | none => exact Fix.ok pre_leT
    | some obj =>
      simp only
      cases t.namespaces.get n with
      | none => exact ih
      | some a =>
        have h := Fix.bind pre_leT (fix_putNs a (fun no => { no with scopes := setAbsent no.scopes s obj })
          (fun no => ⟨rfl, .refl _, keys_setAbsent _ _ _⟩)
          (fun {no no'} h => by
            show ({ no' with scopes := setAbsent no'.scopes s obj } : NsObj) = no'
            rw [setAbsent_of obj (h.scopes s (get_setAbsent ..))]))
          (Fix.bind pre_leT (fix_tapr c [] [] c (some a) (some s) []) ih)
        have e : (fun w : V1 => match w.nsobjs[a]? with
            | none => Out.panic
            | some no => ((w.setNs a { no with scopes := setAbsent no.scopes s obj }).tAddPrincipalRole c [] [] c (some a) (some s) []).bind fun w =>
                w.tAddScopesToNamespace c n ss) = fun w => Out.bind (match w.nsobjs[a]? with
            | none => .panic
            | some no => .ok (w.setNs a { no with scopes := setAbsent no.scopes s obj })) fun w =>
              (w.tAddPrincipalRole c [] [] c (some a) (some s) []).bind fun w => w.tAddScopesToNamespace c n ss := by
          funext w
          cases w.nsobjs[a]? <;> rfl
        exact (congrArg (Fix LeT) e).mpr h

theorem fix_rolesTo (c : Nat) (n : Str) (ss : List Str) : Fix LeT fun w => w.tAddRolesToNamespace c n ss := by
  induction ss with
  | nil => exact Fix.ok pre_leT
  | cons s ss ih =>
    simp only [V1.tAddRolesToNamespace]
    refine Fix.withT fun t => ?_
    cases t.roles.get s with
    | none => exact Fix.ok pre_leT
    | some obj =>
      simp only
      cases t.namespaces.get n with
      | none => exact Fix.ok pre_leT
      | some a =>
        have h := Fix.bind pre_leT (fix_putNs a (fun no => { no with roles := setAbsent no.roles s obj })
          (fun no => ⟨rfl, keys_setAbsent _ _ _, .refl _⟩)
          (fun {no no'} h => by
            show ({ no' with roles := setAbsent no'.roles s obj } : NsObj) = no'
            rw [setAbsent_of obj (h.roles s (get_setAbsent ..))])) ih
        have e : (fun w : V1 => match w.nsobjs[a]? with
            | none => Out.panic
            | some no => (w.setNs a { no with roles := setAbsent no.roles s obj }).tAddRolesToNamespace c n ss) = fun w => Out.bind (match w.nsobjs[a]? with
            | none => .panic
            | some no => .ok (w.setNs a { no with roles := setAbsent no.roles s obj })) fun w => w.tAddRolesToNamespace c n ss := by
          funext w
          cases w.nsobjs[a]? <;> rfl
        exact (congrArg (Fix LeT) e).mpr h

/-- Putting a key of a tenant object. -/
theorem put_again {v : V1} {c : Nat} {t' : T1Obj} {u : T1Obj → T1Obj} (h1 : v.tobjs[c]? = some t') (hu : u t' = t') : v.setT c (u t') = v := by
  unfold V1.setT
  rw [hu, set_get_same h1]

theorem fix_desc (c d : Nat) : Fix Le fun w => w.withT c fun t => w.withT d fun dt => .ok (w.setT c { t with desc := setAbsent t.desc dt.id d }) := by
  refine ⟨blind_descStep c d, fun {w w'} h => ?_, fun {w w' v} h hv => ?_⟩
  · obtain ⟨t, ht, h⟩ := withT_eq_ok.1 h
    obtain ⟨dt, hd, h⟩ := withT_eq_ok.1 h
    cases h
    exact Le.setT ht ⟨rfl, rfl, rfl, keys_setAbsent _ _ _, .refl _, .refl _, .refl _⟩
  · obtain ⟨t, ht, h⟩ := withT_eq_ok.1 h
    obtain ⟨dt, hd, h⟩ := withT_eq_ok.1 h
    cases h
    have hl : Le w (w.setT c { t with desc := setAbsent t.desc dt.id d }) := Le.setT ht ⟨rfl, rfl, rfl, keys_setAbsent _ _ _, .refl _, .refl _, .refl _⟩
    obtain ⟨t', h1, h2⟩ := hv.ten c _ (List.getElem?_set_self (lt_of_get ht))
    obtain ⟨dt', h3, h4⟩ := (hl.trans hv).ten d dt hd
    refine Idle.withT h1 (Idle.withT h3 (.self ?_))
    rw [h4.id, setAbsent_of d (h2.desc _ (get_setAbsent ..))]
    exact congrArg Out.ok (put_again (u := id) h1 rfl)

theorem fix_ns (c a : Nat) : Fix Le fun w => w.withT c fun t =>
    match w.nsobjs[a]? with
    | none => .panic
    | some no => .ok (w.setT c { t with namespaces := setAbsent t.namespaces no.id a }) := by
  refine ⟨blind_nsStep c a, fun {w w'} h => ?_, fun {w w' v} h hv => ?_⟩ <;> obtain ⟨t, ht, h⟩ := withT_eq_ok.1 h <;> cases hn : w.nsobjs[a]? with
  | none => rw [hn] at h; cases h
  | some no => ?_
  · rw [hn] at h; cases h
    exact Le.setT ht ⟨rfl, rfl, rfl, .refl _, keys_setAbsent _ _ _, .refl _, .refl _⟩
  · rw [hn] at h; cases h
    obtain ⟨t', h1, h2⟩ := hv.ten c _ (List.getElem?_set_self (lt_of_get ht))
    obtain ⟨no', h3, h4⟩ := hv.ns a no hn
    refine Idle.withT h1 (.self ?_)
    rw [h3]
    try dsimp only
    rw [h4.id, setAbsent_of a (h2.namespaces _ (get_setAbsent ..))]
    exact congrArg Out.ok (put_again (u := id) h1 rfl)

theorem fix_role (c a : Nat) : Fix Le fun w => w.withT c fun t =>
    match w.heap.roles[a]? with
    | none => .panic
    | some ro => .ok (w.setT c { t with roles := setAbsent t.roles ro.id a }) := by
  refine ⟨blind_roleStep c a, fun {w w'} h => ?_, fun {w w' v} h hv => ?_⟩ <;> obtain ⟨t, ht, h⟩ := withT_eq_ok.1 h <;> cases hn : w.heap.roles[a]? with
  | none => rw [hn] at h; cases h
  | some ro => ?_
  · rw [hn] at h; cases h
    exact Le.setT ht ⟨rfl, rfl, rfl, .refl _, .refl _, keys_setAbsent _ _ _, .refl _⟩
  · rw [hn] at h; cases h
    obtain ⟨t', h1, h2⟩ := hv.ten c _ (List.getElem?_set_self (lt_of_get ht))
    have h3 : v.heap.roles[a]? = some ro := by rw [hv.heap]; exact hn
    refine Idle.withT h1 (.self ?_)
    rw [h3]
    try dsimp only
    rw [setAbsent_of a (h2.roles _ (get_setAbsent ..))]
    exact congrArg Out.ok (put_again (u := id) h1 rfl)

theorem fix_scope (c : Nat) (s : Str × Nat) : Fix Le fun w => w.withT c fun t =>
    let w := w.setT c { t with scopes := setAbsent t.scopes s.1 s.2 }
    match t.defNs with
    | none => .ok w
    | some a =>
      match w.nsobjs[a]? with
      | none => .panic
      | some no => .ok (w.setNs a { no with scopes := setAbsent no.scopes s.1 s.2 }) := by
  have key : ∀ {w w' : V1} {t t1 : T1Obj}, w.tobjs[c]? = some t → t1 = { t with scopes := setAbsent t.scopes s.1 s.2 } → (match t.defNs with
      | none => .ok (w.setT c t1)
      | some a =>
        match w.nsobjs[a]? with
        | none => .panic
        | some no => .ok ((w.setT c t1).setNs a { no with scopes := setAbsent no.scopes s.1 s.2 })) = Out.ok w' →
      Le w w' ∧ ∀ {v}, Le w' v → ∃ t', v.tobjs[c]? = some t' ∧ (t'.scopes.get s.1).isSome ∧ t'.defNs = t.defNs ∧
        ∀ a, t.defNs = some a → ∃ no, v.nsobjs[a]? = some no ∧ (no.scopes.get s.1).isSome := by
    intro w w' t t1 ht e1 h
    have hs : (t1.scopes.get s.1).isSome := by rw [e1]; exact get_setAbsent ..
    have hd1 : t1.defNs = t.defNs := by rw [e1]
    have hl : Le w (w.setT c t1) := by
      rw [e1]
      exact Le.setT ht ⟨rfl, rfl, rfl, .refl _, .refl _, .refl _, keys_setAbsent _ _ _⟩
    have hg : (w.setT c t1).tobjs[c]? = some t1 :=
      List.getElem?_set_self (lt_of_get ht)
    cases hd : t.defNs with
    | none =>
      rw [hd] at h; cases h
      refine ⟨hl, fun hv => ?_⟩
      obtain ⟨t', h1, h2⟩ := hv.ten c _ hg
      exact ⟨t', h1, h2.scopes _ hs, h2.defNs.trans (hd1.trans hd), fun a ha => by cases ha⟩
    | some b =>
      rw [hd] at h
      try dsimp only at h
      cases hn : w.nsobjs[b]? with
      | none => rw [hn] at h; cases h
      | some no =>
        rw [hn] at h; cases h
        have hl2 := Le.setNs (w := w.setT c t1) (t' := { no with scopes := setAbsent no.scopes s.1 s.2 }) hn
          ⟨rfl, .refl _, keys_setAbsent _ _ _⟩
        refine ⟨hl.trans hl2, fun {v} hv => ?_⟩
        obtain ⟨t', h1, h2⟩ := (hl2.trans hv).ten c _ hg
        refine ⟨t', h1, h2.scopes _ hs, h2.defNs.trans (hd1.trans hd), fun a ha => ?_⟩
        cases ha
        obtain ⟨no', h3, h4⟩ := hv.ns b _ (List.getElem?_set_self (lt_of_get hn))
        exact ⟨no', h3, h4.scopes _ (get_setAbsent ..)⟩
  refine ⟨blind_scopeStep c s, fun {w w'} h => ?_, fun {w w' v} h hv => ?_⟩ <;> obtain ⟨t, ht, h⟩ := withT_eq_ok.1 h
  · exact (key ht rfl h).1
  · obtain ⟨t', h1, h2, h3, h4⟩ := (key ht rfl h).2 hv
    refine Idle.withT h1 (.self ?_)
    try dsimp only
    rw [setAbsent_of s.2 h2]
    show (match t'.defNs with
      | none => .ok (v.setT c t')
      | some a =>
        match (v.setT c t').nsobjs[a]? with
        | none => .panic
        | some no => .ok ((v.setT c t').setNs a { no with scopes := setAbsent no.scopes s.1 s.2 })) = Out.ok v
    rw [show v.setT c t' = v from put_again (u := id) h1 rfl, h3]
    cases hd : t.defNs with
    | none => rfl
    | some a =>
      obtain ⟨no, h5, h6⟩ := h4 a hd
      dsimp only
      rw [h5]
      dsimp only
      rw [setAbsent_of s.2 h6]
      show Out.ok (v.setNs a no) = _
      unfold V1.setNs
      rw [set_get_same h5]

/-! ### Overwriting -/

/-- `for … { m[k] = v }`. -/
def put (m : GoMap Str Nat) (ps : List (Str × Nat)) : GoMap Str Nat := ps.foldl (fun m e => m.set e.1 e.2) m

/-- All keys are present. -/
def AllIn (m : GoMap Str Nat) (ps : List (Str × Nat)) : Prop := ∀ e ∈ ps, (m.get e.1).isSome

theorem AllIn.set {m : GoMap Str Nat} {ps : List (Str × Nat)} (h : AllIn m ps) (k : Str) (x : Nat) : AllIn (m.set k x) ps := by
  intro a ha
  rw [GoMap.get_set]
  split
  · rfl
  · exact h a ha

theorem put_allIn (ps : List (Str × Nat)) : ∀ {m : GoMap Str Nat} {bs : List (Str × Nat)}, AllIn m bs → AllIn (put m ps) bs := by
  induction ps with
  | nil => exact fun h => h
  | cons a as ih => exact fun h => ih (h.set _ _)

theorem put_all (ps : List (Str × Nat)) : ∀ m : GoMap Str Nat, AllIn (put m ps) ps := by
  induction ps with
  | nil => intro m a ha; cases ha
  | cons a as ih =>
    intro m b hb
    rcases List.mem_cons.1 hb with rfl | hb
    · refine put_allIn as (bs := [b]) ?_ b (List.mem_cons_self ..)
      intro c hc
      rw [List.mem_singleton] at hc
      subst hc
      rw [GoMap.get_set, if_pos rfl]; rfl
    · exact ih _ b hb

theorem put_set (ps : List (Str × Nat)) : ∀ {m : GoMap Str Nat} (k : Str) (x : Nat), AllIn m ps → (put (m.set k x) ps).set k x = (put m ps).set k x := by
  induction ps with
  | nil => intro m k x _; exact set_set m k x x
  | cons a as ih =>
    intro m k x h
    show (put ((m.set k x).set a.1 a.2) as).set k x = (put (m.set a.1 a.2) as).set k x
    by_cases hk : k = a.1
    · subst hk
      rw [set_set]
    · rw [set_comm m x a.2 hk (h a (List.mem_cons_self ..))]
      refine ih k x ?_
      exact AllIn.set (fun b hb => h b (List.mem_cons_of_mem _ hb)) _ _

theorem put_append (as bs : List (Str × Nat)) (m : GoMap Str Nat) : put m (as ++ bs) = put (put m as) bs := List.foldl_append

theorem put_twice (ps : List (Str × Nat)) (m : GoMap Str Nat) : put (put m ps) ps = put m ps := by
  suffices h : ∀ bs : List (Str × Nat), put (put m bs.reverse) bs.reverse = put m bs.reverse by
    have := h ps.reverse
    rwa [List.reverse_reverse] at this
  intro bs
  induction bs with
  | nil => rfl
  | cons a bs ih =>
    rw [List.reverse_cons, put_append, put_append]
    show (put ((put m bs.reverse).set a.1 a.2) bs.reverse).set a.1 a.2 = _
    rw [put_set _ _ _ (put_all _ _), ih]
    rfl

theorem setNs_setNs (w : V1) (n : Nat) (x y : NsObj) : (w.setNs n x).setNs n y = w.setNs n y := by
  simp only [V1.setNs, List.set_set]

theorem nsScopes_eq {n : Nat} (ss : List (Str × Nat)) : ∀ {w : V1} {no : NsObj}, w.nsobjs[n]? = some no →
    w.nsAddScopes n ss = .ok (w.setNs n { no with scopes := put no.scopes ss }) := by
  induction ss with
  | nil =>
    intro w no hn
    show Out.ok w = Out.ok { w with nsobjs := w.nsobjs.set n no }
    rw [set_get_same hn]
  | cons s ss ih =>
    intro w no hn
    unfold V1.nsAddScopes at ih ⊢
    rw [Out.loop, hn]
    simp only [Out.bind_ok]
    rw [ih (no := { no with scopes := no.scopes.set s.1 s.2 }) (List.getElem?_set_self (lt_of_get hn)), setNs_setNs]
    rfl

theorem nsScopes_twice {w w' : V1} {n : Nat} {ss : List (Str × Nat)} (h : w.nsAddScopes n ss = .ok w') : w'.nsAddScopes n ss = .ok w' := by
  cases ss with
  | nil => rfl
  | cons s ss =>
    cases hn : w.nsobjs[n]? with
    | none => unfold V1.nsAddScopes at h; rw [Out.loop, hn] at h; cases h
    | some no =>
      rw [nsScopes_eq _ hn] at h
      cases h
      rw [nsScopes_eq _ (no := { no with scopes := put no.scopes (s :: ss) }) (List.getElem?_set_self (lt_of_get hn)), setNs_setNs, put_twice]

/-- The id of a role object. -/
def roleId (w : V1) (a : Nat) : Str := ((w.heap.roles[a]?).map (·.id)).getD []

theorem nsRoles_eq {n : Nat} (rs : List Nat) : ∀ {w : V1} {no : NsObj}, w.nsobjs[n]? = some no → (∀ a ∈ rs, (w.heap.roles[a]?).isSome) →
    w.nsAddRoles n rs = .ok (w.setNs n { no with roles := put no.roles (rs.map fun a => (roleId w a, a)) }) := by
  induction rs with
  | nil =>
    intro w no hn _
    show Out.ok w = Out.ok { w with nsobjs := w.nsobjs.set n no }
    rw [set_get_same hn]
  | cons s ss ih =>
    intro w no hn hs
    unfold V1.nsAddRoles at ih ⊢
    obtain ⟨ro, hr⟩ := Option.isSome_iff_exists.1 (hs s (List.mem_cons_self ..))
    have e : roleId w s = ro.id := by unfold roleId; rw [hr]; rfl
    rw [Out.loop, hn, hr]
    simp only [Out.bind_ok]
    rw [ih (w := w.setNs n { no with roles := no.roles.set ro.id s }) (no := { no with roles := no.roles.set ro.id s }) (List.getElem?_set_self (lt_of_get hn)) (fun a ha => hs a (List.mem_cons_of_mem _ ha)), setNs_setNs,
      List.map_cons, e]
    rfl

theorem nsRoles_roles {n : Nat} (rs : List Nat) : ∀ {w w' : V1}, w.nsAddRoles n rs = .ok w' → ∀ a ∈ rs, (w.heap.roles[a]?).isSome := by
  induction rs with
  | nil => intro w w' _ a ha; cases ha
  | cons s ss ih =>
    intro w w' h a ha
    unfold V1.nsAddRoles at ih h
    obtain ⟨w1, h1, h2⟩ := Out.bind_eq_ok.1 h
    dsimp only at h1
    cases hn : w.nsobjs[n]? with
    | none => rw [hn] at h1; cases h1
    | some no =>
      cases hr : w.heap.roles[s]? with
      | none => rw [hn, hr] at h1; cases h1
      | some ro =>
        rw [hn, hr] at h1
        cases h1
        rcases List.mem_cons.1 ha with rfl | ha
        · rw [hr]; rfl
        · exact ih h2 a ha

theorem nsRoles_twice {w w' : V1} {n : Nat} {rs : List Nat} (h : w.nsAddRoles n rs = .ok w') : w'.nsAddRoles n rs = .ok w' := by
  have hr := nsRoles_roles rs h
  cases rs with
  | nil => rfl
  | cons s ss =>
    cases hn : w.nsobjs[n]? with
    | none => unfold V1.nsAddRoles at h; rw [Out.loop, hn] at h; cases h
    | some no =>
      rw [nsRoles_eq _ hn hr] at h
      cases h
      refine (nsRoles_eq _ (w := w.setNs n { no with roles := put no.roles ((s :: ss).map fun a => (roleId w a, a)) })
        (no := { no with roles := put no.roles ((s :: ss).map fun a => (roleId w a, a)) }) (List.getElem?_set_self (lt_of_get hn)) hr).trans ?_
      rw [setNs_setNs]
      have e := put_twice ((s :: ss).map fun a => (roleId w a, a)) no.roles
      exact congrArg (fun m => Out.ok (w.setNs n { no with roles := m })) e

/-! ### Calls that read the assignments -/

/-- The first three fields of a stored text are read back if they have no `_`. -/
theorem front {y x : TP} (hp : NoUnderscore y.principal) (hr : NoUnderscore y.role) (ht : NoUnderscore y.tenant) (h : Fields (encode y) x) :
    x.principal = y.principal ∧ x.role = y.role ∧ x.tenant = y.tenant := by
  have hd := decode_iff.2 h
  rw [encode_eq] at hd
  unfold decode at hd
  rw [splitByte_append hp, splitByte_append hr, splitByte_append ht] at hd
  split at hd
  · rename_i e
    cases hd
    simp only [List.cons.injEq] at e
    exact ⟨e.1.symm, e.2.1.symm, e.2.2.1.symm⟩
  · cases hd

/-- A stored text has a decoding. -/
theorem row_encode {w : V1} {y : TP} (h : encode y ∈ w.tps) : ∃ x, Row w x ∧ Fields (encode y) x := by
  obtain ⟨x, hx⟩ := decode_encode_total y
  exact ⟨x, ⟨_, h, decode_iff.1 hx⟩, decode_iff.1 hx⟩

theorem idle_tapr {w : V1} {c : Nat} {t : T1Obj} {p r n : Str} {ns : Option Nat} {sc : Option Str} (ht : w.tobjs[c]? = some t) (hm : t.managed = true)
    (hn : w.nsID ns = .ok n) (h : encode (tp t p r n sc) ∈ w.tps) : Idle (fun w => w.tAddPrincipalRole c p r c ns sc []) w := by
  refine ⟨w.log ++ [tp t p r n sc], ?_⟩
  dsimp only [V1.tAddPrincipalRole, V1.withT, V1.addPrincipalRole]
  rw [ht]
  dsimp only
  rw [if_pos hm, hn, Out.map_ok]
  exact congrArg Out.ok (store_of h)

/-- The clean fields of a decoded assignment. -/
theorem row_clean {w : V1} {x : TP} (h : Row w x) : NoUnderscore x.principal ∧ NoUnderscore x.role ∧ NoUnderscore x.tenant := by
  obtain ⟨k, _, f, rest, hc, _⟩ := h
  exact ⟨hc.1, hc.2.1, hc.2.2.1⟩

theorem inNs_again {w w' : V1} (iw : Inv w) (iv : Inv w') {o o' : Ord} {site site' : List Val} {c : Nat} {p n : Str}
    (h : w.tAddPrincipalInNamespace o site c p n [] = .ok w') : Idle (fun w => w.tAddPrincipalInNamespace o' site' c p n []) w' := by
  obtain ⟨t, ht, h0⟩ := withT_eq_ok.1 h
  rcases tAddPrincipalInNamespace_eq iw ht h with ⟨hn, rfl⟩ | ⟨_, hr, _⟩ | ⟨hn, _, l, hl, e⟩
  · refine Idle.withT ht (.self ?_)
    rw [hn]
  · exact absurd rfl hr
  · obtain ⟨a, ha⟩ := Option.isSome_iff_exists.1 hn
    have hm : t.managed = true := by
      rw [ha] at h0
      simp only [List.length_nil, Nat.lt_irrefl, if_false] at h0
      by_cases hm : t.managed = true
      · exact hm
      · rw [if_neg hm] at h0; cases h0
    have ht' : w'.tobjs[c]? = some t := by rw [e, stores_tobjs]; exact ht
    have hns : w'.nsID (some a) = .ok n := by
      obtain ⟨no, hno, hid⟩ := (iv.tobjs t (mem_of_get ht')).namespaces _ (GoMap.get_some_mem ha)
      simp only [V1.nsID, hno]
      rw [hid]
    obtain ⟨l', hl'⟩ := tenantRoles_total iv o' site' t.id
    have hmem : ∀ k : Str, k ∈ w'.tps ↔ (k ∈ w.tps ∨ ∃ x ∈ (l.flatMap fun x => if x.principal = p ∧ x.namespace_ ≠ [] ∧ x.namespace_ ≠ n then
        [tp t p x.role n none] else []) ++ [tp t p [] n none], encode x = k) := fun k => by
      rw [e]
      exact mem_stores
    have hlast : encode (tp t p [] n none) ∈ w'.tps := (hmem _).2 (.inr ⟨_, List.mem_append_right _ (List.mem_singleton_self _), rfl⟩)
    have hall : ∀ x ∈ l', x.principal = p ∧ x.namespace_ ≠ [] ∧ x.namespace_ ≠ n → encode (tp t p x.role n none) ∈ w'.tps := by
      intro x hx hc
      obtain ⟨hx1, hx2⟩ := (tenantRoles_mem hl' x).1 hx
      obtain ⟨c1, c2, c3⟩ := row_clean hx1
      obtain ⟨k, hk, hf⟩ := hx1
      rcases (hmem k).1 hk with hk | ⟨y, hy, rfl⟩
      · refine (hmem _).2 (.inr ⟨tp t p x.role n none, List.mem_append_left _ (List.mem_flatMap.2 ⟨x, (tenantRoles_mem hl x).2 ⟨⟨k, hk, hf⟩, hx2⟩, ?_⟩), rfl⟩)
        rw [if_pos hc]
        exact List.mem_singleton_self _
      · rcases List.mem_append.1 hy with hy | hy
        · obtain ⟨x0, hx0, hy⟩ := List.mem_flatMap.1 hy
          split at hy
          · rename_i hc0
            rw [List.mem_singleton] at hy
            subst hy
            obtain ⟨_, d2, _⟩ := row_clean ((tenantRoles_mem hl x0).1 hx0).1
            have := (front (y := tp t p x0.role n none) (show NoUnderscore p from hc.1 ▸ c1) d2 (show NoUnderscore t.id from hx2 ▸ c3) hf).2.1
            rw [this]
            refine (hmem _).2 (.inr ⟨tp t p x0.role n none, List.mem_append_left _ (List.mem_flatMap.2 ⟨x0, hx0, ?_⟩), rfl⟩)
            rw [if_pos hc0]
            exact List.mem_singleton_self _
          · cases hy
        · rw [List.mem_singleton] at hy
          subst hy
          have := (front (y := tp t p [] n none) (show NoUnderscore p from hc.1 ▸ c1) (by intro h; cases h) (show NoUnderscore t.id from hx2 ▸ c3) hf).2.1
          rw [this]
          exact hlast
    refine Idle.withT ht' ?_
    have hI : Idle (fun w => (Out.loop (fun w (x : TP) => if x.principal = p ∧ x.namespace_ ≠ [] ∧ x.namespace_ ≠ n then
        w.tAddPrincipalRole c p x.role c (some a) none [] else .ok w) w l').bind fun w => w.tAddPrincipalRole c p [] c (some a) none []) w' := by
      refine Idle.bind (f := fun w => Out.loop _ w l') (blind_tapr c p [] c (some a) none []) (Idle.loop (fun x => ?_) fun x hx => ?_)
        (idle_tapr ht' hm hns hlast)
      · exact Blind.ite (blind_tapr c p x.role c (some a) none []) .ok
      by_cases hc : x.principal = p ∧ x.namespace_ ≠ [] ∧ x.namespace_ ≠ n
      · simp only [if_pos hc]
        exact idle_tapr ht' hm hns (hall x hx hc)
      · simp only [if_neg hc]
        exact .self rfl
    obtain ⟨L, hL⟩ := hI
    refine ⟨L, ?_⟩
    dsimp only at hL ⊢
    rw [ha]
    simp only [List.length_nil, Nat.lt_irrefl, if_false, if_pos hm, hl', Out.bind_ok]
    exact hL

theorem fix_inNs (o : Ord) (site : List Val) (c : Nat) (p n : Str) {rs : List Str} (hr : rs ≠ []) : Fix LeT fun w => w.tAddPrincipalInNamespace o site c p n rs := by
  unfold V1.tAddPrincipalInNamespace
  refine Fix.withT fun t => ?_
  cases t.namespaces.get n with
  | none => exact Fix.ok pre_leT
  | some a =>
    have hl : 0 < rs.length := List.length_pos_iff.2 hr
    simp only [if_pos hl]
    refine Fix.loop pre_leT (fun r => ?_) rs
    cases t.roles.get r with
    | none => exact Fix.ok pre_leT
    | some ra =>
      have hb : Blind fun w : V1 => match w.heap.roles[ra]? with
          | none => .panic
          | some ro => w.tAddPrincipalRole c p ro.id c (some a) none [] := by
        intro w L
        show ((match w.heap.roles[ra]? with | none => .panic | some no => _ : Out V1)).map fg = _
        try dsimp only
        cases w.heap.roles[ra]? with
        | none => rfl
        | some ro => exact blind_tapr c p ro.id c (some a) none [] w L
      refine ⟨hb, fun {w w'} h => ?_, fun {w w' v} h hv => ?_⟩ <;> try dsimp only at h
      · cases hq : w.heap.roles[ra]? with
        | none => rw [hq] at h; cases h
        | some ro =>
          rw [hq] at h
          exact (fix_tapr c p ro.id c (some a) none []).first h
      · cases hq : w.heap.roles[ra]? with
        | none => rw [hq] at h; cases h
        | some ro =>
          rw [hq] at h
          have h1 := (fix_tapr c p ro.id c (some a) none []).first h
          obtain ⟨L, hL⟩ := (fix_tapr c p ro.id c (some a) none []).again h hv
          refine ⟨L, ?_⟩
          have e : v.heap.roles[ra]? = some ro := by rw [hv.1.heap, h1.1.heap]; exact hq
          try dsimp only
          rw [e]
          exact hL

theorem inNs_order {o o' : Ord} {site site' : List Val} {c : Nat} {p n : Str} {rs : List Str} (hr : rs ≠ []) (w : V1) :
    w.tAddPrincipalInNamespace o' site' c p n rs = w.tAddPrincipalInNamespace o site c p n rs := by
  unfold V1.tAddPrincipalInNamespace
  have hl : 0 < rs.length := List.length_pos_iff.2 hr
  simp only [if_pos hl]

theorem principalRoles_nil {w : V1} {o o' : Ord} {site site' : List Val} {t p : Str} {l l' : List TP} (h : w.principalRoles o site t p = .ok l)
    (h' : w.principalRoles o' site' t p = .ok l') (e : l = []) : l' = [] := by
  cases l' with
  | nil => rfl
  | cons x l' =>
    have := (principalRoles_mem h x).2 ((principalRoles_mem h' x).1 (List.mem_cons_self ..))
    rw [e] at this
    cases this

theorem withRole_again {w w' : V1} (iv : Inv w') {o o' : Ord} {site site' : List Val} {c : Nat} {p r : Str} {ss : List Str}
    (h : w.tAssignScopesWithRole o site c p r ss = .ok w') : Idle (fun w => w.tAssignScopesWithRole o' site' c p r ss) w' := by
  unfold V1.tAssignScopesWithRole at h ⊢
  by_cases hs : ss.length = 0
  · simp only [if_pos hs]
    exact .self rfl
  simp only [if_neg hs] at h ⊢
  obtain ⟨t, ht, h⟩ := withT_eq_ok.1 h
  by_cases hm : t.managed = true
  swap
  · rw [if_neg hm] at h; cases h
  rw [if_pos hm] at h
  obtain ⟨l, hl, h⟩ := Out.bind_eq_ok.1 h
  by_cases hl0 : l = []
  · rw [if_pos hl0] at h; cases h
    refine Idle.withT ht (.self ?_)
    obtain ⟨l', hl'⟩ := principalRoles_total iv o' site' t.id p
    rw [if_pos hm, hl', Out.bind_ok, if_pos (principalRoles_nil hl hl' hl0)]
  rw [if_neg hl0] at h
  by_cases hr : (t.roles.get r).isSome
  swap
  · rw [if_neg hr] at h; cases h
    refine Idle.withT ht (.self ?_)
    obtain ⟨l', hl'⟩ := principalRoles_total iv o' site' t.id p
    rw [if_pos hm, hl', Out.bind_ok, if_neg hr, ite_self]
  rw [if_pos hr] at h
  have hF : Fix LeT fun w => Out.loop (fun w s => if (t.scopes.get s).isSome then w.addWithDefault c t p r (some s) else .ok w) w ss :=
    Fix.loop pre_leT (fun s => Fix.ite (fix_def c t p r (some s)) (Fix.ok pre_leT)) ss
  have ht' : w'.tobjs[c]? = some t := by rw [(hF.first h).2]; exact ht
  refine Idle.withT ht' ?_
  obtain ⟨l', hl'⟩ := principalRoles_total iv o' site' t.id p
  obtain ⟨L, hL⟩ := hF.twice pre_leT h
  by_cases hl0 : l' = []
  · refine .self ?_
    rw [if_pos hm, hl', Out.bind_ok, if_pos hl0]
  · refine ⟨L, ?_⟩
    try dsimp only at hL ⊢
    rw [if_pos hm, hl', Out.bind_ok, if_neg hl0, if_pos hr]
    exact hL

theorem mem_withDefault {t : T1Obj} {d : Option Str} {p r : Str} {sc : Option Str} {y : TP} :
    y ∈ withDefault t d p r sc ↔ y = tp t p r [] sc ∨ ∃ n, d = some n ∧ y = tp t p r n sc := by
  unfold withDefault
  cases d <;> simp

/-- What `AssignScopesToPrincipal` leaves: nothing new, or assignments of every listed role. -/
theorem assign_again {w w' : V1} (iv : Inv w') {o o' : Ord} {site site' : List Val} {c : Nat} {p : Str} {ss : List Str}
    (h : w.tAssignScopesToPrincipal o site c p ss = .ok w') :
    (Plain w (.tAssignScopesToPrincipal o site c p ss) → Idle (fun w => w.tAssignScopesToPrincipal o' site' c p ss) w') ∧
    (Idle (fun w => w.tAssignScopesToPrincipal o' site' c p ss) w' ∨ Plain w' (.tAssignScopesToPrincipal o' site' c p ss)) := by
  obtain ⟨t, ht, h0⟩ := withT_eq_ok.1 h
  obtain ⟨l, hl, e⟩ := tAssignScopesToPrincipal_eq ht h
  have hm : t.managed = true := by
    by_cases hm : t.managed = true
    · exact hm
    · rw [if_neg hm] at h0; cases h0
  have ht' : w'.tobjs[c]? = some t := by rw [e, stores_tobjs]; exact ht
  obtain ⟨l', hl'⟩ := principalRoles_total iv o' site' t.id p
  -- the second call is idle if it stores nothing new
  have hidle : (∀ s ∈ ss, (t.scopes.get s).isSome → l' ≠ [] → encode (tp t p [] [] (some s)) ∈ w'.tps ∧
      ∀ x ∈ l', encode (tp t p x.role [] (some s)) ∈ w'.tps ∧ ∀ a n, t.defNs = some a → w'.nsID (some a) = .ok n → encode (tp t p x.role n (some s)) ∈ w'.tps) →
      Idle (fun w => w.tAssignScopesToPrincipal o' site' c p ss) w' := by
    intro hall
    refine Idle.withT ht' ?_
    by_cases hl0 : l' = []
    · refine .self ?_
      rw [if_pos hm, hl', Out.bind_ok, if_pos hl0]
    have hI : Idle (fun w => Out.loop (fun w s => if (t.scopes.get s).isSome then
        (Out.loop (fun w (x : TP) => w.addWithDefault c t p x.role (some s)) w l').bind fun w => w.tAddPrincipalRole c p [] c none (some s) []
        else .ok w) w ss) w' := by
      refine Idle.loop (fun s => ?_) fun s hs => ?_
      · refine Blind.ite (Blind.bind (f := fun w => Out.loop _ w l') (Blind.loop (fun x => ?_) l') (blind_tapr c p [] c none (some s) [])) .ok
        exact blind_def c t p x.role (some s)
      · by_cases hsc : (t.scopes.get s).isSome
        · simp only [if_pos hsc]
          obtain ⟨h1, h2⟩ := hall s hs hsc hl0
          refine Idle.bind (f := fun w => Out.loop _ w l') (blind_tapr c p [] c none (some s) []) (Idle.loop (fun x => ?_) fun x hx => ?_) (idle_tapr ht' hm rfl h1)
          · exact blind_def c t p x.role (some s)
          obtain ⟨h3, h4⟩ := h2 x hx
          unfold V1.addWithDefault
          cases hd : t.defNs with
          | none => exact Idle.bind .ok (idle_tapr ht' hm rfl h3) (.self rfl)
          | some a =>
            obtain ⟨k, hk⟩ := (iv.tobjs t (mem_of_get ht')).defNs a hd
            obtain ⟨no, hno, _⟩ := (iv.tobjs t (mem_of_get ht')).namespaces _ hk
            have hns : w'.nsID (some a) = .ok no.id := by simp only [V1.nsID, hno]
            exact Idle.bind (blind_tapr c p x.role c (some a) (some s) []) (idle_tapr ht' hm rfl h3) (idle_tapr ht' hm hns (h4 a no.id hd hns))
        · simp only [if_neg hsc]
          exact .self rfl
    obtain ⟨L, hL⟩ := hI
    refine ⟨L, ?_⟩
    try dsimp only at hL ⊢
    rw [if_pos hm, hl', Out.bind_ok, if_neg hl0]
    exact hL
  by_cases hl0 : l = []
  · rw [if_pos hl0] at e
    have e : w' = w := e
    have h1 : Idle (fun w => w.tAssignScopesToPrincipal o' site' c p ss) w' :=
      hidle fun s _ _ hne => absurd (principalRoles_nil hl (e ▸ hl') hl0) hne
    exact ⟨fun _ => h1, .inl h1⟩
  rw [if_neg hl0] at e
  have hmem : ∀ k : Str, k ∈ w'.tps ↔ (k ∈ w.tps ∨ ∃ x ∈ (ss.flatMap fun s => if (t.scopes.get s).isSome then
      (l.flatMap fun x => withDefault t (w.defId t) p x.role (some s)) ++ [tp t p [] [] (some s)] else []), encode x = k) := fun k => by
    rw [e]
    exact mem_stores
  have hin : ∀ {s : Str}, s ∈ ss → (t.scopes.get s).isSome → ∀ {y : TP}, y ∈ (l.flatMap fun x => withDefault t (w.defId t) p x.role (some s)) ++ [tp t p [] [] (some s)] →
      encode y ∈ w'.tps := fun {s} hs hsc y hy =>
    (hmem _).2 (.inr ⟨y, List.mem_flatMap.2 ⟨s, hs, by rw [if_pos hsc]; exact hy⟩, rfl⟩)
  have hdef : ∀ {a : Nat} {n : Str}, t.defNs = some a → w'.nsID (some a) = .ok n → w.defId t = some n := by
    intro a n hd hn
    have hn' : w.nsID (some a) = .ok n := by rw [e, stores_nsID] at hn; exact hn
    simp only [V1.nsID] at hn'
    unfold V1.defId
    rw [hd]
    cases hno : w.nsobjs[a]? with
    | none => rw [hno] at hn'; cases hn'
    | some no =>
      rw [hno] at hn'; cases hn'
      show (w.nsobjs[a]?).map (·.id) = _
      rw [hno]; rfl
  obtain ⟨x1, hx1⟩ := List.exists_mem_of_ne_nil l hl0
  obtain ⟨hr1, hp1, ht1⟩ := (principalRoles_mem hl x1).1 hx1
  have hpc : NoUnderscore p := hp1 ▸ (row_clean hr1).1
  have htc : NoUnderscore t.id := ht1 ▸ (row_clean hr1).2.2
  -- the roles of the second call
  have hrole : ∀ x ∈ l', (∃ x0 ∈ l, x0.role = x.role) ∨ x.role = [] := by
    intro x hx
    obtain ⟨⟨k, hk, hf⟩, hxp, hxt⟩ := (principalRoles_mem hl' x).1 hx
    rcases (hmem k).1 hk with hk | ⟨y, hy, rfl⟩
    · exact .inl ⟨x, (principalRoles_mem hl x).2 ⟨⟨k, hk, hf⟩, hxp, hxt⟩, rfl⟩
    · obtain ⟨s, _, hy⟩ := List.mem_flatMap.1 hy
      split at hy
      · rcases List.mem_append.1 hy with hy | hy
        · obtain ⟨x0, hx0, hy⟩ := List.mem_flatMap.1 hy
          have hc0 := (row_clean ((principalRoles_mem hl x0).1 hx0).1).2.1
          rcases mem_withDefault.1 hy with rfl | ⟨n, _, rfl⟩
          · exact .inl ⟨x0, hx0, (front (y := tp t p x0.role [] (some s)) hpc hc0 htc hf).2.1.symm⟩
          · exact .inl ⟨x0, hx0, (front (y := tp t p x0.role n (some s)) hpc hc0 htc hf).2.1.symm⟩
        · rw [List.mem_singleton] at hy
          subst hy
          exact .inr (front (y := tp t p [] [] (some s)) hpc (by intro h; cases h) htc hf).2.1
      · cases hy
  have hfirst : ∀ {s : Str}, s ∈ ss → (t.scopes.get s).isSome → ∀ x0 ∈ l, encode (tp t p x0.role [] (some s)) ∈ w'.tps ∧
      ∀ a n, t.defNs = some a → w'.nsID (some a) = .ok n → encode (tp t p x0.role n (some s)) ∈ w'.tps := fun hs hsc x0 hx0 =>
    ⟨hin hs hsc (List.mem_append_left _ (List.mem_flatMap.2 ⟨x0, hx0, mem_withDefault.2 (.inl rfl)⟩)),
      fun a n hd hn => hin hs hsc (List.mem_append_left _ (List.mem_flatMap.2 ⟨x0, hx0, mem_withDefault.2 (.inr ⟨n, hdef hd hn, rfl⟩)⟩))⟩
  have hlast : ∀ {s : Str}, s ∈ ss → (t.scopes.get s).isSome → encode (tp t p [] [] (some s)) ∈ w'.tps := fun hs hsc =>
    hin hs hsc (List.mem_append_right _ (List.mem_singleton_self _))
  constructor
  · intro hpl
    refine hidle fun s hs hsc _ => ⟨hlast hs hsc, fun x hx => ?_⟩
    rcases hrole x hx with ⟨x0, hx0, hr⟩ | hr
    · rw [← hr]
      exact hfirst hs hsc x0 hx0
    · rw [hr]
      rcases hpl t ht with hd | ⟨x2, h2, h3, h4, h5⟩
      · exact ⟨hlast hs hsc, fun a n ha => by rw [hd] at ha; cases ha⟩
      · have := hfirst hs hsc x2 ((principalRoles_mem hl x2).2 ⟨h2, h3, h4⟩)
        rw [h5] at this
        exact this
  · by_cases hex : ∃ s ∈ ss, (t.scopes.get s).isSome
    · obtain ⟨s, hs, hsc⟩ := hex
      refine .inr fun t2 ht2 => .inr ?_
      rw [ht'] at ht2
      cases ht2
      obtain ⟨x, hx, hf⟩ := row_encode (hlast hs hsc)
      obtain ⟨h1, h2, h3⟩ := front (y := tp t p [] [] (some s)) hpc (by intro h; cases h) htc hf
      exact ⟨x, hx, h1, h3, h2⟩
    · exact .inl (hidle fun s hs hsc _ => absurd ⟨s, hs, hsc⟩ hex)

theorem op_twice {w w' : V1} (iw : Inv w) {op op' : V1Op} (hs : SameCall op op') (hc : Change1 op) (hp : Plain w op) (h : op.apply w = .ok w') :
    Idle op'.apply w' := by
  have iv : Inv w' := (V1Op.good h iw).1
  cases hs with
  | inNamespace o o' site site' c p n rs =>
    by_cases hr : rs = []
    · subst hr
      exact inNs_again iw iv h
    · obtain ⟨L, hL⟩ := (fix_inNs o site c p n hr).twice pre_leT h
      exact ⟨L, (inNs_order hr w').trans hL⟩
  | assign o o' site site' c p ss => exact (assign_again iv h).1 hp
  | withRole o o' site site' c p r ss => exact withRole_again iv h
  | refl op =>
    cases op with
    | role op =>
      obtain ⟨h1, h2, rfl⟩ := Out.map_eq_ok.1 h
      refine .self ?_
      show (op.apply h1).map _ = _
      rw [Rep.roleOp hc h2]
      rfl
    | newTenant id => exact hc.elim
    | newNamespace id => exact hc.elim
    | addTenant a =>
      refine .self ?_
      obtain ⟨x, h1, rfl⟩ := Out.map_eq_ok.1 h
      simp only [V1Op.apply, V1.addTenant] at h1 ⊢
      cases ht : w.tobjs[a]? with
      | none => rw [ht] at h1; cases h1
      | some t =>
        rw [ht] at h1
        dsimp only at h1
        cases hg : w.tenants.get t.id with
        | some d =>
          rw [hg] at h1; cases h1
          simp only [List.getElem?_set_self (lt_of_get ht), hg, Out.map_ok, List.set_set]
        | none =>
          rw [hg] at h1; cases h1
          simp only [List.getElem?_set_self (lt_of_get ht), GoMap.get_set, if_true, Out.map_ok, List.set_set]
    | addNamespace a =>
      refine .self ?_
      obtain ⟨x, h1, rfl⟩ := Out.map_eq_ok.1 h
      simp only [V1Op.apply, V1.addNamespace] at h1 ⊢
      cases ht : w.nsobjs[a]? with
      | none => rw [ht] at h1; cases h1
      | some t =>
        rw [ht] at h1
        dsimp only at h1
        cases hg : w.namespaces.get t.id with
        | some d => rw [hg] at h1; cases h1; simp only [ht, hg, Out.map_ok]
        | none => rw [hg] at h1; cases h1; simp only [ht, GoMap.get_set, if_true, Out.map_ok]
    | addScope id obj =>
      refine .self ?_
      cases h
      simp only [V1Op.apply, V1.addScope]
      cases hg : w.scopes.get id with
      | some d => simp only [hg]
      | none => simp only [GoMap.get_set, if_true]
    | addPrincipal id obj =>
      refine .self ?_
      cases h
      simp only [V1Op.apply, V1.addPrincipal]
      cases hg : w.principals.get id with
      | some d => simp only [hg]
      | none => simp only [GoMap.get_set, if_true]
    | addRole r =>
      refine .self ?_
      obtain ⟨x, h1, rfl⟩ := Out.map_eq_ok.1 h
      simp only [V1Op.apply, V1.addRole] at h1 ⊢
      cases ht : w.heap.roles[r]? with
      | none => rw [ht] at h1; cases h1
      | some t =>
        rw [ht] at h1
        dsimp only at h1
        cases hg : w.roles.get t.id with
        | some d => rw [hg] at h1; cases h1; simp only [ht, hg, Out.map_ok]
        | none => rw [hg] at h1; cases h1; simp only [ht, GoMap.get_set, if_true, Out.map_ok]
    | addAttribute a obj =>
      refine .self ?_
      cases h
      simp only [V1Op.apply, V1.addAttribute]
      cases hg : w.attrs.get a.toStr with
      | some d => simp only [hg]
      | none => simp only [GoMap.get_set, if_true]
    | addAttributeGroup ga =>
      refine .self ?_
      obtain ⟨x, h1, rfl⟩ := Out.map_eq_ok.1 h
      simp only [V1Op.apply, V1.addAttributeGroup] at h1 ⊢
      cases ht : w.heap.groups[ga]? with
      | none => rw [ht] at h1; cases h1
      | some t =>
        rw [ht] at h1
        dsimp only at h1
        cases hg : w.attrGroups.get t.id with
        | some d => rw [hg] at h1; cases h1; simp only [ht, hg, Out.map_ok]
        | none => rw [hg] at h1; cases h1; simp only [ht, GoMap.get_set, if_true, Out.map_ok]
    | addPermissionsToRole r g as =>
      refine .self ?_
      obtain ⟨x, h1, rfl⟩ := Out.map_eq_ok.1 h
      have e := Rep.addTo_twice h1
      show (x.2.addPermissionsToRole w.roles w.attrGroups r g as).map _ = _
      obtain ⟨y, h2, h3⟩ := Out.map_eq_ok.1 e
      rw [h2]
      show Out.ok { w with heap := y.2 } = _
      rw [h3]
    | addPrincipalRole p r c ns sc m => exact (fix_apr p r c ns sc m).twice pre_leT h
    | tAddDescendent c ds => exact (Fix.loop pre_le (fix_desc c) ds).twice pre_le h
    | tSetDefaultNamespace c n =>
      refine .self ?_
      simp only [V1Op.apply, V1.tSetDefaultNamespace] at h ⊢
      obtain ⟨t, ht, h⟩ := withT_eq_ok.1 h
      cases hg : t.namespaces.get n with
      | none =>
        rw [hg] at h; cases h
        simp only [V1.withT, ht, hg]
      | some a =>
        rw [hg] at h; cases h
        simp only [V1.withT, V1.setT, List.getElem?_set_self (lt_of_get ht), hg, List.set_set]
    | tAddNamespace c ns => exact (Fix.loop pre_le (fix_ns c) ns).twice pre_le h
    | tAddRole c rs => exact (Fix.loop pre_le (fix_role c) rs).twice pre_le h
    | tAddScopes c ss => exact (Fix.loop pre_le (fix_scope c) ss).twice pre_le h
    | tAddScopesToNamespace c n ss => exact (fix_scopesTo c n ss).twice pre_leT h
    | tAddRolesToNamespace c n rs => exact (fix_rolesTo c n rs).twice pre_leT h
    | tAddPrincipalRole c p r d ns sc m => exact (fix_tapr c p r d ns sc m).twice pre_leT h
    | tAddPrincipal c p rs => exact (fix_principal c p rs).twice pre_leT h
    | tAddPrincipalInNamespace o site c p n rs =>
      by_cases hr : rs = []
      · subst hr
        exact inNs_again iw iv h
      · exact (fix_inNs o site c p n hr).twice pre_leT h
    | tAssignScopesToPrincipal o site c p ss => exact (assign_again iv h).1 hp
    | tAssignScopesWithRole o site c p r ss => exact withRole_again iv h
    | nsAddRoles n rs => exact .self (nsRoles_twice h)
    | nsAddScopes n ss => exact .self (nsScopes_twice h)

end Rep1

open Rep1

/-! ## C145 -/

/-- Repeating a call changes no decision. -/
def C145_full : Prop := ∀ (pre post : List V1Op) (op : V1Op) (w v : V1), Change1 op → V1Op.run {} (pre ++ op :: post) = .ok w →
  V1Op.run {} (pre ++ op :: op :: post) = .ok v → ∀ o n site p opts, v.authorize o n site p opts = w.authorize o n site p opts

namespace Rep1

theorem run_append (a b : List V1Op) (w : V1) : V1Op.run w (a ++ b) = (V1Op.run w a).bind fun w => V1Op.run w b := by
  induction a generalizing w with
  | nil => rfl
  | cons x a ih =>
    show (x.apply w).bind _ = ((x.apply w).bind _).bind _
    cases x.apply w with
    | ok w1 => exact ih w1
    | panic => rfl
    | diverge => rfl

/-- Equal outcomes but for the ghost. -/
theorem outcome {x y : Out V1} (h : x.map fg = y.map fg) : (∀ w, x = .ok w → ∃ v, y = .ok v ∧ EqualButLog1 w v) ∧
    ∀ o n site p opts, (x.bind fun w => w.authorize o n site p opts) = (y.bind fun w => w.authorize o n site p opts) := by
  refine ⟨fun w hw => ?_, fun o n site p opts => ?_⟩
  · rw [hw] at h
    cases hy : y with
    | panic => rw [hy] at h; cases h
    | diverge => rw [hy] at h; cases h
    | ok v =>
      rw [hy] at h
      simp only [Out.map_ok, Out.ok.injEq] at h
      obtain ⟨L, rfl⟩ := exists_lg h.symm
      exact ⟨_, rfl, rfl⟩
  · have := Rep.same_bind (k := fg) (k' := id) (f := fun w : V1 => w.authorize o n site p opts) (g := fun w : V1 => w.authorize o n site p opts) h fun a b h => by
      obtain ⟨L, rfl⟩ := exists_lg h
      rfl
    have e : ∀ x : Out Bool, x.map id = x := fun x => by cases x <;> rfl
    rwa [e, e] at this

theorem idle_run {w : V1} {op : V1Op} (h : Idle op.apply w) (post : List V1Op) : (V1Op.run w post).map fg = (V1Op.run w (op :: post)).map fg := by
  obtain ⟨L, h⟩ := h
  have h : op.apply w = .ok (lg w L) := h
  show _ = ((op.apply w).bind _).map fg
  rw [h]
  exact (run_lg post w L).symm

end Rep1

/-- C145.  In any history, make a call twice in a row instead of once, the loops over maps possibly running in another order
the second time: the history ends in the same way, and in the same state but for the ghost, hence every later call, query and
decision has the same result.  `AssignScopesToPrincipal` needs that its tenant has no default namespace, or that the principal
has an assignment without a role there; missing is the rest (`C145_full_false`). -/
theorem C145_partial (pre post : List V1Op) (op op' : V1Op) (hs : SameCall op op') (hc : Change1 op) (hp : ∀ w, V1Op.run {} pre = .ok w → Plain w op) :
    (∀ w, V1Op.run {} (pre ++ op :: post) = .ok w → ∃ v, V1Op.run {} (pre ++ op :: op' :: post) = .ok v ∧ EqualButLog1 w v) ∧
    (∀ o n site p opts, ((V1Op.run {} (pre ++ op :: post)).bind fun w => w.authorize o n site p opts) =
      ((V1Op.run {} (pre ++ op :: op' :: post)).bind fun w => w.authorize o n site p opts)) := by
  refine outcome ?_
  rw [run_append, run_append]
  cases h1 : V1Op.run {} pre with
  | panic => rfl
  | diverge => rfl
  | ok w0 =>
    show (V1Op.run w0 (op :: post)).map fg = (V1Op.run w0 (op :: op' :: post)).map fg
    show ((op.apply w0).bind _).map fg = ((op.apply w0).bind _).map fg
    cases h2 : op.apply w0 with
    | panic => rfl
    | diverge => rfl
    | ok w1 => exact idle_run (op_twice (V1Op.reachable_inv h1) hs hc (hp w0 h1) h2) post

theorem Rep1.third {w0 w1 w2 : V1} (i0 : Inv w0) {op op' op'' : V1Op} (hs : SameCall op op') (hs' : SameCall op' op'') (hc : Change1 op)
    (h1 : op.apply w0 = .ok w1) (h2 : op'.apply w1 = .ok w2) : Idle op''.apply w2 := by
  have i1 : Inv w1 := (V1Op.good h1 i0).1
  have hc' : Change1 op' := by cases hs <;> exact hc
  by_cases hp : Plain w1 op'
  · exact op_twice i1 hs' hc' hp h2
  · cases op' with
    | tAssignScopesToPrincipal o' site' c p ss =>
      have key : ∀ {o : Ord} {site : List Val} {o'' : Ord} {site'' : List Val}, w0.tAssignScopesToPrincipal o site c p ss = .ok w1 →
          Idle (fun w => w.tAssignScopesToPrincipal o'' site'' c p ss) w2 := by
        intro o site o'' site'' h
        have e1 : Idle (fun w => w.tAssignScopesToPrincipal o' site' c p ss) w1 := ((assign_again i1 h).2).resolve_right hp
        have e2 : Idle (fun w => w.tAssignScopesToPrincipal o'' site'' c p ss) w1 := ((assign_again i1 h).2).resolve_right hp
        obtain ⟨L, e1⟩ := e1
        have e1 : w1.tAssignScopesToPrincipal o' site' c p ss = .ok (lg w1 L) := e1
        have h2 : w1.tAssignScopesToPrincipal o' site' c p ss = .ok w2 := h2
        rw [e1] at h2
        cases h2
        obtain ⟨M, e2⟩ := e2
        have e2 : w1.tAssignScopesToPrincipal o'' site'' c p ss = .ok (lg w1 M) := e2
        have hb := blind_assign o'' site'' c p ss w1 L
        dsimp only at hb
        rw [e2] at hb
        cases h3 : (lg w1 L).tAssignScopesToPrincipal o'' site'' c p ss with
        | panic => rw [h3] at hb; cases hb
        | diverge => rw [h3] at hb; cases hb
        | ok v =>
          rw [h3] at hb
          simp only [Out.map_ok, Out.ok.injEq] at hb
          obtain ⟨L', e⟩ := exists_lg hb
          exact ⟨L', by dsimp only; rw [h3, e]; rfl⟩
      cases hs <;> cases hs' <;> exact key h1
    | _ => exact absurd trivial hp

/-- C145.  Without any condition the third call changes nothing. -/
theorem C145_thrice (pre post : List V1Op) (op op' op'' : V1Op) (hs : SameCall op op') (hs' : SameCall op' op'') (hc : Change1 op) :
    (∀ w, V1Op.run {} (pre ++ op :: op' :: post) = .ok w → ∃ v, V1Op.run {} (pre ++ op :: op' :: op'' :: post) = .ok v ∧ EqualButLog1 w v) ∧
    (∀ o n site p opts, ((V1Op.run {} (pre ++ op :: op' :: post)).bind fun w => w.authorize o n site p opts) =
      ((V1Op.run {} (pre ++ op :: op' :: op'' :: post)).bind fun w => w.authorize o n site p opts)) := by
  refine outcome ?_
  rw [run_append, run_append]
  cases h1 : V1Op.run {} pre with
  | panic => rfl
  | diverge => rfl
  | ok w0 =>
    show ((op.apply w0).bind _).map fg = ((op.apply w0).bind _).map fg
    cases h2 : op.apply w0 with
    | panic => rfl
    | diverge => rfl
    | ok w1 =>
      show ((op'.apply w1).bind _).map fg = ((op'.apply w1).bind _).map fg
      cases h3 : op'.apply w1 with
      | panic => rfl
      | diverge => rfl
      | ok w2 => exact idle_run (third (V1Op.reachable_inv h1) hs hs' hc h2 h3) post

namespace Rep1

/-- A tenant with a default namespace and a scope; the role of the user has a descendant. -/
def exPre : List V1Op :=
  [.newTenant (str "t"), .newNamespace (str "n"), .addTenant 0, .addNamespace 0, .role (.newRole (str "r")), .addRole 0,
   .role (.addPerm 0 (str "g") [⟨str "/a", str "GET"⟩]), .role (.newRole (str "q")), .addRole 1, .role (.addPerm 1 (str "g") [⟨str "/b", str "GET"⟩]),
   .role (.addDesc 0 [1]), .addPrincipal (str "p") 0, .tAddRole 0 [0], .tAddScopes 0 [(str "s", 0)], .tAddNamespace 0 [0],
   .tSetDefaultNamespace 0 (str "n"), .tAddScopesToNamespace 0 (str "n") [str "s"], .tAddPrincipal 0 (str "p") [str "r"]]

/-- The call that can have an effect twice. -/
def exAssign : V1Op := .tAssignScopesToPrincipal .fwd [] 0 (str "p") [str "s"]

/-- May the user do what the descendant allows? -/
def exAsk : List Opt :=
  [.tenant (.str (str "t")), .namespace_ (.str (str "n")), .scope (.str (str "s")), .group (.str (str "g")), .activity (.str (str "/b GET"))]

end Rep1

/-- C145.  Assigning scopes once, the user is refused; assigning the same scopes again, the user is granted. -/
theorem C145_counterexample : ∃ w v, V1Op.run {} (exPre ++ [exAssign]) = .ok w ∧ V1Op.run {} (exPre ++ [exAssign, exAssign]) = .ok v ∧
    w.authorize .fwd 5 [] (str "p") exAsk = .ok false ∧ v.authorize .fwd 5 [] (str "p") exAsk = .ok true := by
  obtain ⟨w, h1, h2⟩ := Out.chk_ok (x := V1Op.run {} (exPre ++ [exAssign])) (P := fun w => w.authorize .fwd 5 [] (str "p") exAsk = .ok false) (by decide +kernel)
  obtain ⟨v, h3, h4⟩ := Out.chk_ok (x := V1Op.run {} (exPre ++ [exAssign, exAssign])) (P := fun w => w.authorize .fwd 5 [] (str "p") exAsk = .ok true) (by decide +kernel)
  exact ⟨w, v, h1, h3, h2, h4⟩

theorem C145_full_false : ¬ C145_full := fun h => by
  obtain ⟨w, v, h1, h2, h3, h4⟩ := C145_counterexample
  have := h exPre [] exAssign w v trivial h1 h2 .fwd 5 [] (str "p") exAsk
  rw [h3, h4] at this
  cases this

/-- A call that the claim is about: after it the user has an assignment that was not there before. -/
example : ∃ w v, V1Op.run {} exPre = .ok w ∧ V1Op.run {} (exPre ++ [.tAddPrincipalInNamespace .fwd [] 0 (str "p") (str "n") []]) = .ok v ∧ w.tps ≠ v.tps := by
  obtain ⟨w, h1, h2⟩ := Out.chk_ok (x := V1Op.run {} exPre) (P := fun w => str "p__t_n__true" ∉ w.tps) (by decide +kernel)
  obtain ⟨v, h3, h4⟩ := Out.chk_ok (x := V1Op.run {} (exPre ++ [.tAddPrincipalInNamespace .fwd [] 0 (str "p") (str "n") []])) (P := fun w => str "p__t_n__true" ∈ w.tps) (by decide +kernel)
  exact ⟨w, v, h1, h3, fun e => h2 (e ▸ h4)⟩

/-- The condition on `AssignScopesToPrincipal` after one call of it. -/
example : ∃ w, V1Op.run {} (exPre ++ [exAssign]) = .ok w ∧ Plain w exAssign := by
  obtain ⟨w, h1, h2, h3⟩ := Out.chk_ok (x := V1Op.run {} (exPre ++ [exAssign])) (P := fun w => (w.tobjs[0]?).map (·.id) = some (str "t") ∧ str "p__t__s_true" ∈ w.tps) (by decide +kernel)
  refine ⟨w, h1, fun t ht => .inr ?_⟩
  have ht : w.tobjs[0]? = some t := ht
  rw [ht] at h2
  obtain ⟨x, hx, hf⟩ := row_encode (w := w) (y := tp t (str "p") [] [] (some (str "s"))) (by
    have e : t.id = str "t" := by simpa using h2
    unfold tp
    rw [e]
    exact h3)
  have e : t.id = str "t" := by simpa using h2
  obtain ⟨a, b, c⟩ := front (y := tp t (str "p") [] [] (some (str "s"))) (show NoUnderscore (str "p") by unfold NoUnderscore; decide) (by intro h; cases h)
    (show NoUnderscore t.id by rw [e]; unfold NoUnderscore; decide) hf
  exact ⟨x, hx, a, c, b⟩

end Verif
