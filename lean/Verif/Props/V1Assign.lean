import Verif.Props.V1

/-!
# Package v1: assignments (C43)
-/

namespace Verif
open Spec
namespace V1
variable {w w' : V1} {o : Ord} {site : List Val}

/-- `n` is the id of the tenant's default namespace. -/
def DefaultNs (w : V1) (t : T1Obj) (n : Str) : Prop :=
  ∃ a no, t.defNs = some a ∧ w.nsobjs[a]? = some no ∧ no.id = n

theorem defId_iff {t : T1Obj} {n : Str} : w.defId t = some n ↔ DefaultNs w t n := by
  unfold defId DefaultNs
  cases t.defNs with
  | none => simp
  | some a =>
    cases h : w.nsobjs[a]? with
    | none => simp [h]
    | some no => simp [h]

/-- The default namespace is a namespace of the tenant. -/
theorem C43_default_known (inv : Inv w) {c : Nat} {t : T1Obj} (ht : w.tobjs[c]? = some t) {n : Str}
    (h : DefaultNs w t n) : In t.namespaces n := by
  obtain ⟨a, no, h1, h2, rfl⟩ := h
  have tok := inv.tobjs t (mem_of_get ht)
  obtain ⟨k, hk⟩ := tok.defNs a h1
  obtain ⟨no', h3, h4⟩ := tok.namespaces _ hk
  rw [h2] at h3; cases h3
  exact h4 ▸ ⟨a, hk⟩

theorem mem_withDefault {t : T1Obj} {p r : Str} {sc : Option Str} {x : TP} :
    x ∈ withDefault t (w.defId t) p r sc ↔ x.tenant = t.id ∧ x.principal = p ∧ x.role = r ∧ x.scope = sc.getD [] ∧
      x.manage = true ∧ (x.namespace_ = [] ∨ DefaultNs w t x.namespace_) := by
  obtain ⟨xt, xp, xr, xn, xs, xm⟩ := x
  rw [← defId_iff]
  unfold withDefault tp
  cases h : w.defId t with
  | none =>
    simp only [List.mem_cons, TP.mk.injEq, List.not_mem_nil, or_false, reduceCtorEq]
    constructor
    · rintro ⟨rfl, rfl, rfl, rfl, rfl, rfl⟩; simp
    · rintro ⟨rfl, rfl, rfl, rfl, rfl, rfl⟩; simp
  | some d =>
    simp only [List.mem_cons, TP.mk.injEq, List.not_mem_nil, or_false, Option.some.injEq]
    constructor
    · rintro (⟨rfl, rfl, rfl, rfl, rfl, rfl⟩ | ⟨rfl, rfl, rfl, rfl, rfl, rfl⟩) <;> simp
    · rintro ⟨rfl, rfl, rfl, rfl, rfl, rfl | rfl⟩ <;> simp

/-- C43, `AddPrincipalRole` of the manager and of a tenant: exactly the assignment named, with the ids of the tenant,
namespace and scope passed, an empty text for a nil namespace or scope, and the first flag passed, true if there is none. -/
theorem C43_addPrincipalRole {p r : Str} {d : Nat} {dt : T1Obj} (hd : w.tobjs[d]? = some dt) {ns : Option Nat} {n : Str}
    (hn : (ns = none ∧ n = []) ∨ ∃ a no, ns = some a ∧ w.nsobjs[a]? = some no ∧ no.id = n) {sc : Option Str} {s : Str}
    (hs : (sc = none ∧ s = []) ∨ sc = some s) {m : List Bool} {b : Bool} (hm : (m = [] ∧ b = true) ∨ ∃ rest, m = b :: rest) :
    ∃ w', w.addPrincipalRole p r d ns sc m = .ok w' ∧
      (Added w w' fun x => x.tenant = dt.id ∧ x.principal = p ∧ x.role = r ∧ x.namespace_ = n ∧ x.scope = s ∧ x.manage = b) ∧
      (∀ c t, w.tobjs[c]? = some t → t.managed = true → w.tAddPrincipalRole c p r d ns sc m = .ok w') ∧
      (∀ c t, w.tobjs[c]? = some t → t.managed = false → w.tAddPrincipalRole c p r d ns sc m = .panic) := by
  have e1 : w.nsID ns = .ok n := by
    rcases hn with ⟨rfl, rfl⟩ | ⟨a, no, rfl, h1, rfl⟩
    · rfl
    · simp [nsID, h1]
  have e2 : sc.getD [] = s := by rcases hs with ⟨rfl, rfl⟩ | rfl <;> rfl
  have e3 : m.headD true = b := by rcases hm with ⟨rfl, rfl⟩ | ⟨rest, rfl⟩ <;> rfl
  have e4 : w.addPrincipalRole p r d ns sc m =
      .ok (w.store { tenant := dt.id, principal := p, role := r, namespace_ := n, scope := s, manage := b }) := by
    rw [addPrincipalRole, hd, e1, e2, e3]; rfl
  refine ⟨_, e4, ?_, fun c t hc hm => ?_, fun c t hc hm => ?_⟩
  · refine stores_added (L := [_]) fun x => ?_
    obtain ⟨xt, xp, xr, xn, xs, xm⟩ := x
    rw [List.mem_singleton, TP.mk.injEq]
  · rw [tAddPrincipalRole, withT, hc]; simp only [hm, if_true]; exact e4
  · rw [tAddPrincipalRole, withT, hc]; simp [hm]

example : ∃ w, V1Op.run {} [.newTenant (str "t"), .newNamespace (str "n"),
      .addPrincipalRole (str "p") (str "r") 0 (some 0) (some (str "s")) [false], .addPrincipalRole (str "p") (str "r") 0 none none []] = .ok w ∧
    w.tps = [str "p_r_t_n_s_false", str "p_r_t___true"] := Out.chk_ok (by decide +kernel)

/-- C43, `AddPrincipal(p, roles...)`: exactly the named roles of the tenant, tenant-wide and in the default
namespace; unknown roles are skipped. -/
theorem C43_addPrincipal {c : Nat} {t : T1Obj} (ht : w.tobjs[c]? = some t) {p : Str} {rs : List Str}
    (h : w.tAddPrincipal c p rs = .ok w') :
    Added w w' fun x => x.tenant = t.id ∧ x.principal = p ∧ (x.role ∈ rs ∧ In t.roles x.role) ∧ x.scope = [] ∧
      x.manage = true ∧ (x.namespace_ = [] ∨ DefaultNs w t x.namespace_) := by
  rw [tAddPrincipal_eq ht h]
  refine stores_added fun x => ?_
  rw [List.mem_flatMap]
  constructor
  · rintro ⟨r, hr, hx⟩
    split at hx
    · rename_i e
      obtain ⟨h1, h2, rfl, h3⟩ := mem_withDefault.1 hx
      exact ⟨h1, h2, ⟨hr, in_iff.1 e⟩, h3⟩
    · simp at hx
  · rintro ⟨h1, h2, ⟨h3, h4⟩, h5⟩
    exact ⟨x.role, h3, by rw [if_pos (in_iff.2 h4)]; exact mem_withDefault.2 ⟨h1, h2, rfl, h5⟩⟩

/-- C43, `AddPrincipalInNamespace(p, n, roles...)` with roles. -/
theorem C43_addPrincipalInNamespace (inv : Inv w) {c : Nat} {t : T1Obj} (ht : w.tobjs[c]? = some t) {p n : Str}
    {rs : List Str} (hne : rs ≠ []) (h : w.tAddPrincipalInNamespace o site c p n rs = .ok w') :
    Added w w' fun x => In t.namespaces n ∧ x.tenant = t.id ∧ x.principal = p ∧ (x.role ∈ rs ∧ In t.roles x.role) ∧
      x.scope = [] ∧ x.manage = true ∧ x.namespace_ = n := by
  rcases tAddPrincipalInNamespace_eq inv ht h with ⟨h1, rfl⟩ | ⟨h1, _, rfl⟩ | ⟨_, h1, _⟩
  · exact stores_added (L := []) fun x => by simp [in_iff_not.1 h1]
  · refine stores_added fun x => ?_
    simp only [in_iff.1 h1, true_and]
    rw [List.mem_flatMap]
    obtain ⟨xt, xp, xr, xn, xs, xm⟩ := x
    constructor
    · rintro ⟨r, hr, hx⟩
      split at hx
      · rename_i e
        simp only [tp, List.mem_singleton, TP.mk.injEq] at hx
        obtain ⟨rfl, rfl, rfl, rfl, rfl, rfl⟩ := hx
        exact ⟨rfl, rfl, ⟨hr, in_iff.1 e⟩, rfl, rfl, rfl⟩
      · simp at hx
    · rintro ⟨rfl, rfl, ⟨h3, h4⟩, rfl, rfl, rfl⟩
      exact ⟨xr, h3, by rw [if_pos (in_iff.2 h4)]; simp [tp]⟩
  · exact absurd h1 hne

/-- C43, `AddPrincipalInNamespace(p, n)` without roles: the empty role and the roles that `p` holds in other
namespaces of the tenant. -/
theorem C43_addPrincipalInNamespace_copy (inv : Inv w) {c : Nat} {t : T1Obj} (ht : w.tobjs[c]? = some t) {p n : Str}
    (h : w.tAddPrincipalInNamespace o site c p n [] = .ok w') :
    Added w w' fun x => In t.namespaces n ∧ x.tenant = t.id ∧ x.principal = p ∧
      (x.role = [] ∨ ∃ y, RowsOf w p t.id y ∧ y.namespace_ ≠ [] ∧ y.namespace_ ≠ n ∧ x.role = y.role) ∧
      x.scope = [] ∧ x.manage = true ∧ x.namespace_ = n := by
  rcases tAddPrincipalInNamespace_eq inv ht h with ⟨h1, rfl⟩ | ⟨_, h1, _⟩ | ⟨h1, _, l, hl, rfl⟩
  · exact stores_added (L := []) fun x => by simp [in_iff_not.1 h1]
  · exact absurd rfl h1
  · refine stores_added fun x => ?_
    simp only [in_iff.1 h1, true_and]
    rw [List.mem_append, List.mem_flatMap]
    obtain ⟨xt, xp, xr, xn, xs, xm⟩ := x
    constructor
    · rintro (⟨y, hy, hx⟩ | hx)
      · split at hx
        · rename_i e
          simp only [tp, List.mem_singleton, TP.mk.injEq] at hx
          obtain ⟨rfl, rfl, rfl, rfl, rfl, rfl⟩ := hx
          obtain ⟨h2, h3⟩ := (tenantRoles_mem hl y).1 hy
          exact ⟨rfl, rfl, .inr ⟨y, ⟨h2, e.1, h3⟩, e.2.1, e.2.2, rfl⟩, rfl, rfl, rfl⟩
        · simp at hx
      · simp only [tp, List.mem_singleton, TP.mk.injEq] at hx
        obtain ⟨rfl, rfl, rfl, rfl, rfl, rfl⟩ := hx
        exact ⟨rfl, rfl, .inl rfl, rfl, rfl, rfl⟩
    · rintro ⟨rfl, rfl, h2, rfl, rfl, rfl⟩
      rcases h2 with rfl | ⟨y, ⟨h3, h4, h5⟩, h6, h7, h8⟩
      · exact .inr (by simp [tp])
      · simp only at h8; subst h8
        exact .inl ⟨y, (tenantRoles_mem hl y).2 ⟨h3, h5⟩, by rw [if_pos ⟨h4, h6, h7⟩]; simp [tp]⟩

/-- C43, `AssignScopesToPrincipal(p, scopes...)`: the named scopes of the tenant for the empty role and for every
role that `p` has there; nothing if `p` has no assignment there. -/
theorem C43_assignScopesToPrincipal {c : Nat} {t : T1Obj} (ht : w.tobjs[c]? = some t) {p : Str}
    {ss : List Str} (h : w.tAssignScopesToPrincipal o site c p ss = .ok w') :
    Added w w' fun x => (∃ y, RowsOf w p t.id y) ∧ x.tenant = t.id ∧ x.principal = p ∧
      (x.scope ∈ ss ∧ In t.scopes x.scope) ∧ x.manage = true ∧
      ((x.role = [] ∧ x.namespace_ = []) ∨
       (∃ y, RowsOf w p t.id y ∧ x.role = y.role) ∧ (x.namespace_ = [] ∨ DefaultNs w t x.namespace_)) := by
  obtain ⟨l, hl, rfl⟩ := tAssignScopesToPrincipal_eq ht h
  have hl := principalRoles_mem hl
  refine stores_added fun x => ?_
  split
  · rename_i e
    simp only [List.not_mem_nil, false_iff]
    rintro ⟨⟨y, hy⟩, _⟩
    exact absurd ((hl y).2 hy) (by simp [e])
  · rename_i e
    obtain ⟨y0, hy0⟩ := List.exists_mem_of_ne_nil _ e
    have hex : ∃ y, RowsOf w p t.id y := ⟨y0, (hl y0).1 hy0⟩
    simp only [hex, true_and]
    rw [List.mem_flatMap]
    constructor
    · rintro ⟨s, hs, hx⟩
      split at hx
      · rename_i e2
        rw [List.mem_append, List.mem_flatMap] at hx
        rcases hx with ⟨y, hy, hx⟩ | hx
        · obtain ⟨h1, h2, h3, h4, h5, h6⟩ := mem_withDefault.1 hx
          exact ⟨h1, h2, h4 ▸ ⟨hs, in_iff.1 e2⟩, h5, .inr ⟨⟨y, (hl y).1 hy, h3⟩, h6⟩⟩
        · rw [List.mem_singleton] at hx
          subst hx
          exact ⟨rfl, rfl, ⟨hs, in_iff.1 e2⟩, rfl, .inl ⟨rfl, rfl⟩⟩
      · simp at hx
    · rintro ⟨h1, h2, ⟨h3, h4⟩, h5, h6⟩
      refine ⟨x.scope, h3, ?_⟩
      rw [if_pos (in_iff.2 h4), List.mem_append, List.mem_flatMap]
      rcases h6 with ⟨h6, h7⟩ | ⟨⟨y, hy, h6⟩, h7⟩
      · refine .inr ?_
        obtain ⟨xt, xp, xr, xn, xs, xm⟩ := x
        simp only at h1 h2 h5 h6 h7
        subst h1 h2 h5 h6 h7
        simp [tp]
      · exact .inl ⟨y, (hl y).2 hy, mem_withDefault.2 ⟨h1, h2, h6, rfl, h5, h7⟩⟩

/-- C43, `AssignScopesWithRole(p, r, scopes...)`: the named scopes of the tenant for that role of the tenant; nothing
if `p` has no assignment there or the role is unknown. -/
theorem C43_assignScopesWithRole {c : Nat} {t : T1Obj} (ht : w.tobjs[c]? = some t) {p r : Str}
    {ss : List Str} (h : w.tAssignScopesWithRole o site c p r ss = .ok w') :
    Added w w' fun x => (∃ y, RowsOf w p t.id y) ∧ x.tenant = t.id ∧ x.principal = p ∧ (x.role = r ∧ In t.roles r) ∧
      (x.scope ∈ ss ∧ In t.scopes x.scope) ∧ x.manage = true ∧
      (x.namespace_ = [] ∨ DefaultNs w t x.namespace_) := by
  obtain ⟨L, rfl, hL⟩ := tAssignScopesWithRole_eq ht h
  refine stores_added fun x => ?_
  rcases hL with ⟨rfl, rfl⟩ | ⟨l, hl, rfl⟩
  · simp
  · have hl := principalRoles_mem hl
    split
    · rename_i e
      obtain ⟨y0, hy0⟩ := List.exists_mem_of_ne_nil _ e.1
      have hex : ∃ y, RowsOf w p t.id y := ⟨y0, (hl y0).1 hy0⟩
      simp only [hex, in_iff.1 e.2, true_and, and_true]
      rw [List.mem_flatMap]
      constructor
      · rintro ⟨s, hs, hx⟩
        split at hx
        · rename_i e2
          obtain ⟨h1, h2, h3, h4, h5, h6⟩ := mem_withDefault.1 hx
          exact ⟨h1, h2, h3, h4 ▸ ⟨hs, in_iff.1 e2⟩, h5, h6⟩
        · simp at hx
      · rintro ⟨h1, h2, h3, ⟨h4, h5⟩, h6, h7⟩
        exact ⟨x.scope, h4, by rw [if_pos (in_iff.2 h5)]; exact mem_withDefault.2 ⟨h1, h2, h3, rfl, h6, h7⟩⟩
    · rename_i e
      simp only [List.not_mem_nil, false_iff]
      rintro ⟨⟨y, hy⟩, _, _, ⟨_, h1⟩, _⟩
      exact e ⟨List.ne_nil_of_mem ((hl y).2 hy), in_iff.2 h1⟩

/-! ### Over histories -/

/-- The calls other than the raw `AddPrincipalRole`, which stores anything it is given. -/
def Checked : V1Op → Prop
  | .addPrincipalRole .. => False
  | .tAddPrincipalRole .. => False
  | _ => True

/-- Role, namespace and scope of the assignment are empty or known to a tenant with that id. -/
def KnownRow (w : V1) (x : TP) : Prop :=
  (x.role = [] ∨ ∃ t ∈ w.tobjs, t.id = x.tenant ∧ In t.roles x.role) ∧
  (x.namespace_ = [] ∨ ∃ t ∈ w.tobjs, t.id = x.tenant ∧ In t.namespaces x.namespace_) ∧
  (x.scope = [] ∨ ∃ t ∈ w.tobjs, t.id = x.tenant ∧ In t.scopes x.scope)

theorem Ext.mem {w w' : V1} (e : Ext w w') {t : T1Obj} (h : t ∈ w.tobjs) : ∃ t' ∈ w'.tobjs, TExt t t' := by
  obtain ⟨i, hi⟩ := List.mem_iff_getElem?.1 h
  obtain ⟨t', h1, h2⟩ := e.ts i t hi
  exact ⟨t', mem_of_get h1, h2⟩

theorem KnownRow.ext {x : TP} (h : KnownRow w x) (e : Ext w w') : KnownRow w' x := by
  refine ⟨h.1.imp_right ?_, h.2.1.imp_right ?_, h.2.2.imp_right ?_⟩ <;>
    rintro ⟨t, h1, h2, h3⟩ <;> obtain ⟨t', h4, h5⟩ := e.mem h1
  · exact ⟨t', h4, h5.id.trans h2, h5.roles _ h3⟩
  · exact ⟨t', h4, h5.id.trans h2, h5.namespaces _ h3⟩
  · exact ⟨t', h4, h5.id.trans h2, h5.scopes _ h3⟩

/-- Nothing but the assigning calls touches the log. -/
theorem log_of_added {w w' : V1} {P : TP → Prop} (h : Added w w' P) {x : TP} : x ∈ w'.log ↔ x ∈ w.log ∨ P x := by
  obtain ⟨L, h1, h2⟩ := h.1
  rw [h1, List.mem_append, h2]

theorem loop_log {α : Type} {f : V1 → α → Out V1} {xs : List α} (hf : ∀ w w' x, f w x = .ok w' → w'.log = w.log)
    (h : Out.loop f w xs = .ok w') : w'.log = w.log :=
  Out.loop_inv (P := fun s => s.log = w.log) (fun s s' x _ p h => (hf s s' x h).trans p) rfl h

theorem tAddScopesToNamespace_log {c : Nat} {n : Str} {ss : List Str} (inv : Inv w)
    (h : w.tAddScopesToNamespace c n ss = .ok w') {x : TP} (hx : x ∈ w'.log) : x ∈ w.log ∨ KnownRow w' x := by
  induction ss generalizing w with
  | nil => cases h; exact .inl hx
  | cons s ss ih =>
    have hgood := Good.tAddScopesToNamespace h inv
    obtain ⟨t, ht, h⟩ := withT_eq_ok.1 h
    split at h
    · cases h; exact .inl hx
    · rename_i obj hobj
      split at h
      · exact ih inv h
      · rename_i a ha
        split at h
        · cases h
        · rename_i no hno
          obtain ⟨w1, h1, h2⟩ := Out.bind_eq_ok.1 h
          have g1 := Good.setNs (no' := { no with scopes := setAbsent no.scopes s obj }) hno rfl
            (fun _ k => ⟨k.rolesWF, setAbsent_wf k.scopesWF, k.roles⟩) inv
          have g2 := Good.tAddPrincipalRole h1 g1.1
          rcases ih g2.1 h2 with h3 | h3
          · have ht' : (w.setNs a { no with scopes := setAbsent no.scopes s obj }).tobjs[c]? = some t := ht
            obtain ⟨_, n', hn', rfl⟩ := tAddPrincipalRole_eq ht' h1
            rw [stores_frame] at h3
            rcases List.mem_append.1 h3 with h3 | h3
            · exact .inl h3
            · rw [List.mem_singleton] at h3
              subst h3
              refine .inr (KnownRow.ext (w := w) ?_ hgood.2)
              have hid := (inv.tobjs t (mem_of_get ht)).namespaces _ (GoMap.get_some_mem ha)
              obtain ⟨no', h5, h6⟩ := hid
              rw [hno] at h5; cases h5
              have hn2 : n' = n := by
                have : (w.setNs a { no with scopes := setAbsent no.scopes s obj }).nsID (some a) = .ok no.id := by
                  simp [nsID, V1.setNs, List.getElem?_set_self (RHeap.lt_of_get hno)]
                rw [this] at hn'; cases hn'; exact h6
              subst hn2
              exact ⟨.inl rfl, .inr ⟨t, mem_of_get ht, rfl, ⟨a, GoMap.get_some_mem ha⟩⟩,
                .inr ⟨t, mem_of_get ht, rfl, ⟨obj, GoMap.get_some_mem hobj⟩⟩⟩
          · exact .inr h3

theorem tAddRolesToNamespace_log {c : Nat} {n : Str} {rs : List Str}
    (h : w.tAddRolesToNamespace c n rs = .ok w') : w'.log = w.log := by
  induction rs generalizing w with
  | nil => cases h; rfl
  | cons s ss ih =>
    obtain ⟨t, ht, h⟩ := withT_eq_ok.1 h
    split at h
    · cases h; rfl
    · split at h
      · cases h; rfl
      · split at h
        · cases h
        · exact (ih h).trans rfl

/-- One checked call adds only known assignments, given that the copied ones are known. -/
theorem checked_step {op : V1Op} (hc : Checked op) (inv : Inv w) (hk : ∀ x ∈ w.log, KnownRow w x)
    (hclean : ∀ x ∈ w.log, Clean x) (h : op.apply w = .ok w') : ∀ x ∈ w'.log, KnownRow w' x := by
  have good := V1Op.good h inv
  have keep : w'.log = w.log → ∀ x ∈ w'.log, KnownRow w' x := fun e x hx => (hk x (e ▸ hx)).ext good.2
  have add : ∀ P : TP → Prop, Added w w' P → (∀ x, P x → KnownRow w x) → ∀ x ∈ w'.log, KnownRow w' x :=
    fun P hP hkn x hx => (((log_of_added hP).1 hx).elim (fun h => (hk x h)) (fun h => hkn x h)).ext good.2
  have known : ∀ p T y, RowsOf w p T y → y.tenant = T ∧ KnownRow w y :=
    fun p T y hy => ⟨hy.2.2, hk y ((C36_rows inv hclean).1 hy.1)⟩
  cases op with
  | role op => obtain ⟨h', h1, rfl⟩ := Out.map_eq_ok.1 h; exact keep rfl
  | newTenant id => cases h; exact keep rfl
  | newNamespace id => cases h; exact keep rfl
  | addTenant a =>
    obtain ⟨⟨x, w1⟩, h1, rfl⟩ := Out.map_eq_ok.1 h
    refine keep ?_
    unfold addTenant at h1
    split at h1
    · cases h1
    · simp only at h1; split at h1 <;> cases h1 <;> rfl
  | addNamespace a =>
    obtain ⟨⟨x, w1⟩, h1, rfl⟩ := Out.map_eq_ok.1 h
    refine keep ?_
    unfold addNamespace at h1
    split at h1
    · cases h1
    · split at h1 <;> cases h1 <;> rfl
  | addScope id obj => cases h; refine keep ?_; unfold addScope; split <;> rfl
  | addPrincipal id obj => cases h; refine keep ?_; unfold addPrincipal; split <;> rfl
  | addRole r =>
    obtain ⟨⟨x, w1⟩, h1, rfl⟩ := Out.map_eq_ok.1 h
    refine keep ?_
    unfold addRole at h1
    split at h1
    · cases h1
    · split at h1 <;> cases h1 <;> rfl
  | addAttribute a obj => cases h; refine keep ?_; unfold addAttribute; split <;> rfl
  | addAttributeGroup ga =>
    obtain ⟨⟨x, w1⟩, h1, rfl⟩ := Out.map_eq_ok.1 h
    refine keep ?_
    unfold addAttributeGroup at h1
    split at h1
    · cases h1
    · split at h1 <;> cases h1 <;> rfl
  | addPermissionsToRole r g as => obtain ⟨⟨e, h'⟩, h1, rfl⟩ := Out.map_eq_ok.1 h; exact keep rfl
  | addPrincipalRole p r c ns sc m => exact hc.elim
  | tAddPrincipalRole c p r d ns sc m => exact hc.elim
  | tAddDescendent c ds =>
    refine keep (loop_log (fun w w' d h => ?_) h)
    obtain ⟨t, ht, h⟩ := withT_eq_ok.1 h
    obtain ⟨dt, hd, h⟩ := withT_eq_ok.1 h
    cases h; rfl
  | tSetDefaultNamespace c n =>
    obtain ⟨t, ht, h⟩ := withT_eq_ok.1 h
    split at h <;> cases h <;> exact keep rfl
  | tAddNamespace c ns =>
    refine keep (loop_log (fun w w' d h => ?_) h)
    obtain ⟨t, ht, h⟩ := withT_eq_ok.1 h
    split at h <;> cases h; rfl
  | tAddRole c rs =>
    refine keep (loop_log (fun w w' d h => ?_) h)
    obtain ⟨t, ht, h⟩ := withT_eq_ok.1 h
    split at h <;> cases h; rfl
  | tAddScopes c ss =>
    refine keep (loop_log (fun w w' d h => ?_) h)
    obtain ⟨t, ht, h⟩ := withT_eq_ok.1 h
    simp only at h
    split at h
    · cases h; rfl
    · split at h <;> cases h; rfl
  | tAddScopesToNamespace c n ss =>
    intro x hx
    rcases tAddScopesToNamespace_log inv h hx with h1 | h1
    · exact (hk x h1).ext good.2
    · exact h1
  | tAddRolesToNamespace c n rs => exact keep (tAddRolesToNamespace_log h)
  | nsAddRoles n rs =>
    refine keep (loop_log (fun w w' d h => ?_) h)
    split at h <;> cases h; rfl
  | nsAddScopes n ss =>
    refine keep (loop_log (fun w w' d h => ?_) h)
    split at h <;> cases h; rfl
  | tAddPrincipal c p rs =>
    obtain ⟨t, ht⟩ := tobj_of_withT h
    refine add _ (C43_addPrincipal ht h) fun x hx => ?_
    obtain ⟨h1, h2, ⟨h3, h4⟩, h5, h6, h7⟩ := hx
    exact ⟨.inr ⟨t, mem_of_get ht, h1.symm, h4⟩,
      h7.imp_right fun h => ⟨t, mem_of_get ht, h1.symm, C43_default_known inv ht h⟩, .inl h5⟩
  | tAddPrincipalInNamespace o site c p n rs =>
    obtain ⟨t, ht⟩ := tobj_of_withT h
    by_cases hr : rs = []
    · subst hr
      refine add _ (C43_addPrincipalInNamespace_copy inv ht h) fun x hx => ?_
      obtain ⟨h1, h2, h3, h4, h5, h6, rfl⟩ := hx
      refine ⟨?_, .inr ⟨t, mem_of_get ht, h2.symm, h1⟩, .inl h5⟩
      rcases h4 with h4 | ⟨y, hy, _, _, h4⟩
      · exact .inl h4
      · obtain ⟨k1, k2⟩ := known _ _ _ hy
        rw [h4, h2, ← k1]; exact k2.1
    · refine add _ (C43_addPrincipalInNamespace inv ht hr h) fun x hx => ?_
      obtain ⟨h1, h2, h3, ⟨_, h4⟩, h5, h6, rfl⟩ := hx
      exact ⟨.inr ⟨t, mem_of_get ht, h2.symm, h4⟩, .inr ⟨t, mem_of_get ht, h2.symm, h1⟩, .inl h5⟩
  | tAssignScopesToPrincipal o site c p ss =>
    obtain ⟨t, ht⟩ := tobj_of_withT h
    refine add _ (C43_assignScopesToPrincipal ht h) fun x hx => ?_
    obtain ⟨_, h1, h2, ⟨_, h3⟩, h4, h5⟩ := hx
    have hs : x.scope = [] ∨ ∃ t ∈ w.tobjs, t.id = x.tenant ∧ In t.scopes x.scope :=
      .inr ⟨t, mem_of_get ht, h1.symm, h3⟩
    rcases h5 with ⟨h5, h6⟩ | ⟨⟨y, hy, h5⟩, h6⟩
    · exact ⟨.inl h5, .inl h6, hs⟩
    · obtain ⟨k1, k2⟩ := known _ _ _ hy
      refine ⟨?_, h6.imp_right fun h => ⟨t, mem_of_get ht, h1.symm, C43_default_known inv ht h⟩, hs⟩
      rw [h5, h1, ← k1]; exact k2.1
  | tAssignScopesWithRole o site c p r ss =>
    by_cases hs : ss.length = 0
    · have h' : w.tAssignScopesWithRole o site c p r ss = .ok w' := h
      unfold V1.tAssignScopesWithRole at h'
      rw [if_pos hs] at h'
      cases h'; exact keep rfl
    · have h' : w.tAssignScopesWithRole o site c p r ss = .ok w' := h
      unfold V1.tAssignScopesWithRole at h'
      rw [if_neg hs] at h'
      obtain ⟨t, ht⟩ := tobj_of_withT h'
      refine add _ (C43_assignScopesWithRole ht h) fun x hx => ?_
      obtain ⟨_, h1, h2, ⟨h3, h4⟩, ⟨_, h5⟩, h6, h7⟩ := hx
      exact ⟨.inr ⟨t, mem_of_get ht, h1.symm, h3 ▸ h4⟩,
        h7.imp_right fun h => ⟨t, mem_of_get ht, h1.symm, C43_default_known inv ht h⟩,
        .inr ⟨t, mem_of_get ht, h1.symm, h5⟩⟩

/-- C43 over histories: without raw `AddPrincipalRole` calls and with ids free of `_`, every stored assignment refers
to a role, namespace and scope known to its tenant. -/
theorem C43_histories {ops : List V1Op} (hc : ∀ op ∈ ops, Checked op) (h : V1Op.run {} ops = .ok w)
    (hclean : ∀ x ∈ w.log, Clean x) : ∀ x, Row w x → KnownRow w x := by
  have key : ∀ (ops : List V1Op) (w0 w : V1), (∀ op ∈ ops, Checked op) → V1Op.run w0 ops = .ok w → Inv w0 →
      (∀ x ∈ w.log, Clean x) → (∀ x ∈ w0.log, KnownRow w0 x) → ∀ x ∈ w.log, KnownRow w x := by
    intro ops
    induction ops with
    | nil => intro w0 w _ h _ _ hk; cases h; exact hk
    | cons op ops ih =>
      intro w0 w hc h inv hcl hk
      obtain ⟨w1, h1, h2⟩ := Out.bind_eq_ok.1 h
      have g1 := V1Op.good h1 inv
      have g2 := V1Op.run_good h2 g1.1
      obtain ⟨L, hL⟩ := g1.2.log
      obtain ⟨M, hM⟩ := g2.2.log
      refine ih w1 w (fun op ho => hc op (List.mem_cons_of_mem _ ho)) h2 g1.1 hcl
        (checked_step (hc op (List.mem_cons_self ..)) inv hk (fun x hx => hcl x ?_) h1)
      rw [hM, hL]; simp [hx]
  intro x hx
  exact key ops {} w hc h Inv.empty hclean (by simp) x ((C36_rows (V1Op.reachable_inv h) hclean).1 hx)

/-- C43: no call of the package removes an assignment. -/
theorem C43_never_removed {ops : List V1Op} (inv : Inv w) (h : V1Op.run w ops = .ok w') :
    (∀ h, h ∈ w.tps → h ∈ w'.tps) ∧ ∀ x, Row w x → Row w' x := by
  have g := V1Op.run_good h inv
  have key : ∀ h, h ∈ w.tps → h ∈ w'.tps := by
    intro k hk
    obtain ⟨x, hx, e⟩ := (inv.tps k).1 hk
    obtain ⟨L, hL⟩ := g.2.log
    exact (g.1.tps k).2 ⟨x, by rw [hL]; simp [hx], e⟩
  exact ⟨key, fun x ⟨k, hk, hf⟩ => ⟨k, key k hk, hf⟩⟩

instance (x : TP) : Decidable (Clean x) := by unfold Clean NoUnderscore; infer_instance

/-- The history of `exOps` meets the hypotheses of C43 and stores five assignments. -/
example : (∀ op ∈ exOps, Checked op) ∧ ∃ w, V1Op.run {} exOps = .ok w ∧
    ((∀ x ∈ w.log, Clean x) ∧ w.tps.length = 5) := by
  refine ⟨?_, Out.chk_ok (by decide +kernel)⟩
  intro op h
  simp only [exOps, List.mem_cons, List.not_mem_nil, or_false] at h
  rcases h with h | h | h | h | h | h | h | h | h | h | h | h | h | h | h | h | h | h | h | h | h | h | h <;>
    subst h <;> trivial

/-- Each of the four calls stores something in a reachable state, and skips what is unknown. -/
example : ∃ w, V1Op.run {} exOps = .ok w ∧ (
    ((w.tAddPrincipal 0 (str "x") [str "r", str "nope"]).Chk fun w' => w'.tps.length = 7) ∧
    ((w.tAddPrincipalInNamespace .fwd [] 0 (str "x") (str "n") [str "q", str "nope"]).Chk fun w' => w'.tps.length = 6) ∧
    ((w.tAddPrincipalInNamespace .fwd [] 0 (str "x") (str "n") []).Chk fun w' => w'.tps.length = 6) ∧
    ((w.tAddPrincipalInNamespace .fwd [] 0 (str "x") (str "nope") [str "q"]).Chk fun w' => w'.tps.length = 5) ∧
    ((w.tAssignScopesToPrincipal .rev [] 0 (str "p") [str "z", str "nope"]).Chk fun w' => w'.tps.length = 8) ∧
    ((w.tAssignScopesToPrincipal .rev [] 0 (str "x") [str "z"]).Chk fun w' => w'.tps.length = 5) ∧
    ((w.tAssignScopesWithRole .fwd [] 0 (str "p") (str "q") [str "z"]).Chk fun w' => w'.tps.length = 7)) :=
  Out.chk_ok (by decide +kernel)

end V1
end Verif
