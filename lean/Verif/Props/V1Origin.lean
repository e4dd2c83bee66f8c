import Mathlib.Data.List.Induction
import Verif.Lemmas.HeapOrigin
import Verif.Props.V1Isolation

/-!
# Package v1: where access comes from, C101 (assignments) and C102 (attributes)

Both are about whole histories: a list of calls on a new manager, and a decision at its end.
-/

namespace Verif
open Spec

/-! ## Reading a history -/

/-- `AddPrincipalRole` with these arguments stores this assignment. -/
def Stores1 (u : V1) (p r : Str) (d : Nat) (ns : Option Nat) (sc : Option Str) (m : List Bool) (x : TP) : Prop :=
  (∃ dt, u.tobjs[d]? = some dt ∧ x.tenant = dt.id) ∧ x.principal = p ∧ x.role = r ∧
    ((ns = none ∧ x.namespace_ = []) ∨ ∃ a no, ns = some a ∧ u.nsobjs[a]? = some no ∧ x.namespace_ = no.id) ∧
    ((sc = none ∧ x.scope = []) ∨ sc = some x.scope) ∧ ((m = [] ∧ x.manage = true) ∨ ∃ rest, m = x.manage :: rest)

/-- The call, made in state `u`, passes this assignment to the manager. -/
def V1Op.Assigns (u : V1) (x : TP) : V1Op → Prop
  | .addPrincipalRole p r d ns sc m => Stores1 u p r d ns sc m x
  | .tAddPrincipalRole c p r d ns sc m => (∃ t, u.tobjs[c]? = some t ∧ t.managed = true) ∧ Stores1 u p r d ns sc m x
  | .tAddPrincipal c p rs => ∃ t, u.tobjs[c]? = some t ∧ x.tenant = t.id ∧ x.principal = p ∧ x.role ∈ rs ∧
      In t.roles x.role ∧ x.scope = [] ∧ x.manage = true ∧ (x.namespace_ = [] ∨ V1.DefaultNs u t x.namespace_)
  | .tAddPrincipalInNamespace _ _ c p n rs => ∃ t, u.tobjs[c]? = some t ∧ In t.namespaces n ∧ x.tenant = t.id ∧
      x.principal = p ∧ x.namespace_ = n ∧ x.scope = [] ∧ x.manage = true ∧
      ((x.role ∈ rs ∧ In t.roles x.role) ∨ rs = [] ∧ (x.role = [] ∨ ∃ y, RowsOf u p t.id y ∧ x.role = y.role))
  | .tAssignScopesToPrincipal _ _ c p ss => ∃ t, u.tobjs[c]? = some t ∧ (∃ y, RowsOf u p t.id y) ∧ x.tenant = t.id ∧
      x.principal = p ∧ x.scope ∈ ss ∧ In t.scopes x.scope ∧ x.manage = true ∧
      ((x.role = [] ∧ x.namespace_ = []) ∨
        (∃ y, RowsOf u p t.id y ∧ x.role = y.role) ∧ (x.namespace_ = [] ∨ V1.DefaultNs u t x.namespace_))
  | .tAssignScopesWithRole _ _ c p r ss => ∃ t, u.tobjs[c]? = some t ∧ (∃ y, RowsOf u p t.id y) ∧ x.tenant = t.id ∧
      x.principal = p ∧ x.role = r ∧ In t.roles r ∧ x.scope ∈ ss ∧ In t.scopes x.scope ∧ x.manage = true ∧
      (x.namespace_ = [] ∨ V1.DefaultNs u t x.namespace_)
  | .tAddScopesToNamespace c n ss => ∃ t, u.tobjs[c]? = some t ∧ In t.namespaces n ∧ x.tenant = t.id ∧
      x.principal = [] ∧ x.role = [] ∧ x.namespace_ = n ∧ x.scope ∈ ss ∧ In t.scopes x.scope ∧ x.manage = true
  | _ => False

/-- The call, made in state `u`, puts the attribute into the group: on a role that is not locked, or on a group
object with that id. -/
def V1Op.Lists (u : V1) (g : Str) (a : Attr) : V1Op → Prop
  | .role op => op.Lists u.heap g a
  | .addPermissionsToRole r grp as => grp = g ∧ a ∈ as ∧ In u.attrGroups g ∧
      ∃ x ro, (r, x) ∈ u.roles ∧ u.heap.roles[x]? = some ro ∧ ro.lock = false
  | _ => False

namespace V1
variable {w w' v : V1} {ops : List V1Op}

/-- The history contains a call with the property, in the state before it. -/
def Happened (ops : List V1Op) (P : V1 → V1Op → Prop) : Prop :=
  ∃ pre op post u, ops = pre ++ op :: post ∧ V1Op.run {} pre = .ok u ∧ P u op

theorem run_append {a b : List V1Op} : V1Op.run w (a ++ b) = (V1Op.run w a).bind fun v => V1Op.run v b := by
  induction a generalizing w with
  | nil => rfl
  | cons op a ih =>
    rw [List.cons_append, V1Op.run, V1Op.run]
    cases op.apply w with
    | ok x => simp only [Out.bind_ok]; exact ih
    | panic => rfl
    | diverge => rfl

theorem run_snoc {op : V1Op} : V1Op.run w (ops ++ [op]) = .ok w' ↔ ∃ v, V1Op.run w ops = .ok v ∧ op.apply v = .ok w' := by
  rw [run_append, Out.bind_eq_ok]
  constructor
  · rintro ⟨v, h1, h2⟩
    obtain ⟨v', h3, h4⟩ := Out.bind_eq_ok.1 h2
    cases h4; exact ⟨v, h1, h3⟩
  · rintro ⟨v, h1, h2⟩; exact ⟨v, h1, by rw [V1Op.run, h2]; rfl⟩

theorem Happened.snoc {op : V1Op} {P : V1 → V1Op → Prop} (h : Happened ops P) : Happened (ops ++ [op]) P := by
  obtain ⟨pre, x, post, u, rfl, h1, h2⟩ := h
  exact ⟨pre, x, post ++ [op], u, by simp, h1, h2⟩

theorem Happened.last {op : V1Op} {P : V1 → V1Op → Prop} {u : V1} (h : V1Op.run {} ops = .ok u) (hp : P u op) :
    Happened (ops ++ [op]) P := ⟨ops, op, [], u, rfl, h, hp⟩

/-! ## C101 -/

theorem scopesToNamespace_new {c : Nat} {n : Str} {ss : List Str} (inv : Inv w)
    (h : w.tAddScopesToNamespace c n ss = .ok w') {x : TP} (hx : x ∈ w'.log) :
    x ∈ w.log ∨ ∃ t, w.tobjs[c]? = some t ∧ In t.namespaces n ∧ x.tenant = t.id ∧ x.principal = [] ∧ x.role = [] ∧
      x.namespace_ = n ∧ x.scope ∈ ss ∧ In t.scopes x.scope ∧ x.manage = true := by
  induction ss generalizing w with
  | nil => cases h; exact .inl hx
  | cons s ss ih =>
    obtain ⟨t, ht, h⟩ := withT_eq_ok.1 h
    split at h
    · cases h; exact .inl hx
    · rename_i obj hobj
      split at h
      · refine (ih inv h).imp_right fun ⟨t, a, b, c, d, e, f, g, r⟩ => ⟨t, a, b, c, d, e, f, List.mem_cons_of_mem _ g, r⟩
      · rename_i a ha
        split at h
        · cases h
        · rename_i no hno
          obtain ⟨w1, h1, h2⟩ := Out.bind_eq_ok.1 h
          have g1 := Good.setNs (no' := { no with scopes := setAbsent no.scopes s obj }) hno rfl
            (fun _ k => ⟨k.rolesWF, setAbsent_wf k.scopesWF, k.roles⟩) inv
          have g2 := Good.tAddPrincipalRole h1 g1.1
          have ht' : (w.setNs a { no with scopes := setAbsent no.scopes s obj }).tobjs[c]? = some t := ht
          obtain ⟨_, n', hn', rfl⟩ := tAddPrincipalRole_eq ht' h1
          rcases ih g2.1 h2 with h3 | ⟨t', k1, k2⟩
          · rw [stores_frame] at h3
            rcases List.mem_append.1 h3 with h3 | h3
            · exact .inl h3
            · rw [List.mem_singleton] at h3
              subst h3
              have hid := (inv.tobjs t (mem_of_get ht)).namespaces _ (GoMap.get_some_mem ha)
              obtain ⟨no', h5, h6⟩ := hid
              rw [hno] at h5; cases h5
              have hn2 : n' = n := by
                have : (w.setNs a { no with scopes := setAbsent no.scopes s obj }).nsID (some a) = .ok no.id := by
                  simp [nsID, V1.setNs, List.getElem?_set_self (RHeap.lt_of_get hno)]
                rw [this] at hn'; cases hn'; exact h6
              subst hn2
              exact .inr ⟨t, ht, ⟨a, GoMap.get_some_mem ha⟩, rfl, rfl, rfl, rfl, List.mem_cons_self, ⟨obj, GoMap.get_some_mem hobj⟩, rfl⟩
          · rw [stores_frame] at k1
            obtain ⟨b, c, d, e, f, g, r⟩ := k2
            exact .inr ⟨t', k1, b, c, d, e, f, List.mem_cons_of_mem _ g, r⟩

theorem addPrincipalRole_new {p r : Str} {d : Nat} {ns : Option Nat} {sc : Option Str} {m : List Bool}
    (h : w.addPrincipalRole p r d ns sc m = .ok v) {x : TP} (hx : x ∈ v.log) : x ∈ w.log ∨ Stores1 w p r d ns sc m x := by
  have h0 := h
  unfold addPrincipalRole at h
  cases hc : w.tobjs[d]? with
  | none => rw [hc] at h; cases h
  | some dt =>
    rw [hc] at h
    obtain ⟨n, hn, _⟩ := Out.map_eq_ok.1 h
    have hn' : (ns = none ∧ n = []) ∨ ∃ a no, ns = some a ∧ w.nsobjs[a]? = some no ∧ no.id = n := by
      cases ns with
      | none => left; cases hn; exact ⟨rfl, rfl⟩
      | some a =>
        right
        unfold nsID at hn
        cases ha : w.nsobjs[a]? with
        | none => simp [ha] at hn
        | some no => simp [ha] at hn; exact ⟨a, no, rfl, ha, hn⟩
    have hs : (sc = none ∧ sc.getD [] = ([] : Str)) ∨ sc = some (sc.getD []) := by cases sc <;> simp
    have hm : (m = [] ∧ m.headD true = true) ∨ ∃ rest, m = m.headD true :: rest := by cases m <;> simp
    obtain ⟨w1, g1, g2, _⟩ := C43_addPrincipalRole (p := p) (r := r) hc hn' hs hm
    rw [h0] at g1; cases g1
    refine ((log_of_added g2).1 hx).imp_right ?_
    rintro ⟨e1, e2, e3, e4, e5, e6⟩
    refine ⟨⟨dt, hc, e1⟩, e2, e3, ?_, ?_, ?_⟩
    · rw [e4]; exact hn'.imp_right fun ⟨a, no, k1, k2, k3⟩ => ⟨a, no, k1, k2, k3.symm⟩
    · rw [e5]; exact hs
    · rw [e6]; exact hm

/-- Every assignment a call adds to the log is one it assigns. -/
theorem log_origin {op : V1Op} (inv : Inv w) (h : op.apply w = .ok v) {x : TP} (hx : x ∈ v.log) : x ∈ w.log ∨ op.Assigns w x := by
  have keep : v.log = w.log → x ∈ w.log ∨ op.Assigns w x := fun e => .inl (e ▸ hx)
  have add : ∀ P : TP → Prop, Added w v P → (P x → op.Assigns w x) → x ∈ w.log ∨ op.Assigns w x :=
    fun P hP hkn => ((log_of_added hP).1 hx).imp_right hkn
  cases op with
  | role op => obtain ⟨h', h1, rfl⟩ := Out.map_eq_ok.1 h; exact keep rfl
  | newTenant id => cases h; exact keep rfl
  | newNamespace id => cases h; exact keep rfl
  | addTenant a =>
    obtain ⟨⟨x, w1⟩, h1, rfl⟩ := Out.map_eq_ok.1 h
    refine keep ?_
    unfold V1.addTenant at h1
    split at h1
    · cases h1
    · simp only at h1
      split at h1 <;> cases h1 <;> rfl
  | addNamespace a =>
    obtain ⟨⟨x, w1⟩, h1, rfl⟩ := Out.map_eq_ok.1 h
    refine keep ?_
    unfold V1.addNamespace at h1
    split at h1
    · cases h1
    · split at h1 <;> cases h1 <;> rfl
  | addScope id obj => cases h; refine keep ?_; unfold V1.addScope; split <;> rfl
  | addPrincipal id obj => cases h; refine keep ?_; unfold V1.addPrincipal; split <;> rfl
  | addRole r =>
    obtain ⟨⟨x, w1⟩, h1, rfl⟩ := Out.map_eq_ok.1 h
    refine keep ?_
    unfold V1.addRole at h1
    split at h1
    · cases h1
    · split at h1 <;> cases h1 <;> rfl
  | addAttribute a obj => cases h; refine keep ?_; unfold V1.addAttribute; split <;> rfl
  | addAttributeGroup ga =>
    obtain ⟨⟨x, w1⟩, h1, rfl⟩ := Out.map_eq_ok.1 h
    refine keep ?_
    unfold V1.addAttributeGroup at h1
    split at h1
    · cases h1
    · split at h1 <;> cases h1 <;> rfl
  | addPermissionsToRole r g as => obtain ⟨x, h1, rfl⟩ := Out.map_eq_ok.1 h; exact keep rfl
  | addPrincipalRole p r c ns sc m => exact addPrincipalRole_new h hx
  | tAddDescendent c ds =>
    refine keep (loop_log (fun w w' d h => ?_) h)
    obtain ⟨t, ht, h⟩ := withT_eq_ok.1 h
    obtain ⟨dt, hd, h⟩ := withT_eq_ok.1 h
    cases h; rfl
  | tSetDefaultNamespace c n =>
    obtain ⟨t, ht, h⟩ := withT_eq_ok.1 h
    split at h <;> cases h <;> exact keep rfl
  | tAddNamespace c ns =>
    refine keep (loop_log (fun w w' d h => ?_) h)
    obtain ⟨t, ht, h⟩ := withT_eq_ok.1 h
    split at h <;> cases h; rfl
  | tAddRole c rs =>
    refine keep (loop_log (fun w w' d h => ?_) h)
    obtain ⟨t, ht, h⟩ := withT_eq_ok.1 h
    split at h <;> cases h; rfl
  | tAddScopes c ss =>
    refine keep (loop_log (fun w w' d h => ?_) h)
    obtain ⟨t, ht, h⟩ := withT_eq_ok.1 h
    simp only at h
    split at h
    · cases h; rfl
    · split at h <;> cases h; rfl
  | tAddScopesToNamespace c n ss => exact scopesToNamespace_new inv h hx
  | tAddRolesToNamespace c n rs => exact keep (tAddRolesToNamespace_log h)
  | nsAddRoles n rs =>
    refine keep (loop_log (fun w w' d h => ?_) h)
    split at h <;> cases h; rfl
  | nsAddScopes n ss =>
    refine keep (loop_log (fun w w' d h => ?_) h)
    split at h <;> cases h; rfl
  | tAddPrincipalRole c p r d ns sc m =>
    obtain ⟨t, ht, h⟩ := withT_eq_ok.1 h
    split at h
    · rename_i hm
      exact (addPrincipalRole_new h hx).imp_right fun k => ⟨⟨t, ht, hm⟩, k⟩
    · cases h
  | tAddPrincipal c p rs =>
    obtain ⟨t, ht⟩ := tobj_of_withT h
    exact add _ (C43_addPrincipal ht h) fun ⟨h1, h2, ⟨h3, h4⟩, h5, h6, h7⟩ => ⟨t, ht, h1, h2, h3, h4, h5, h6, h7⟩
  | tAddPrincipalInNamespace o site c p n rs =>
    obtain ⟨t, ht⟩ := tobj_of_withT h
    by_cases hr : rs = []
    · subst hr
      exact add _ (C43_addPrincipalInNamespace_copy inv ht h) fun ⟨h1, h2, h3, h4, h5, h6, h7⟩ =>
        ⟨t, ht, h1, h2, h3, h7, h5, h6, .inr ⟨rfl, h4.imp_right fun ⟨y, a, _, _, b⟩ => ⟨y, a, b⟩⟩⟩
    · exact add _ (C43_addPrincipalInNamespace inv ht hr h) fun ⟨h1, h2, h3, h4, h5, h6, h7⟩ =>
        ⟨t, ht, h1, h2, h3, h7, h5, h6, .inl h4⟩
  | tAssignScopesToPrincipal o site c p ss =>
    obtain ⟨t, ht⟩ := tobj_of_withT h
    exact add _ (C43_assignScopesToPrincipal ht h) fun ⟨h1, h2, h3, ⟨h4, h5⟩, h6, h7⟩ => ⟨t, ht, h1, h2, h3, h4, h5, h6, h7⟩
  | tAssignScopesWithRole o site c p r ss =>
    by_cases hs : ss.length = 0
    · have h' : w.tAssignScopesWithRole o site c p r ss = .ok v := h
      unfold tAssignScopesWithRole at h'
      rw [if_pos hs] at h'; cases h'
      exact keep rfl
    · have h' : w.tAssignScopesWithRole o site c p r ss = .ok v := h
      unfold tAssignScopesWithRole at h'
      rw [if_neg hs] at h'
      obtain ⟨t, ht, _⟩ := withT_eq_ok.1 h'
      exact add _ (C43_assignScopesWithRole ht h) fun ⟨h1, h2, h3, ⟨h4, h4'⟩, ⟨h5, h5'⟩, h6, h7⟩ =>
        ⟨t, ht, h1, h2, h3, h4, h4', h5, h5', h6, h7⟩

theorem log_history (hr : V1Op.run {} ops = .ok w) {x : TP} (hx : x ∈ w.log) : Happened ops fun u op => op.Assigns u x := by
  induction ops using List.reverseRecOn generalizing w with
  | nil => cases hr; simp at hx
  | append_singleton ops op ih =>
    obtain ⟨v, h1, h2⟩ := run_snoc.1 hr
    exact (log_origin (V1Op.reachable_inv h1) h2 hx).elim (fun h => (ih h1 h).snoc) (fun h => .last h1 h)

/-- C101. Every assignment that is read back was written by an earlier call: some call of the history assigned a tuple
whose text is cut into this one. Its principal is the assigned one, or what precedes the first `_` of it, and if no id of
the tuple contains `_` it is the assigned tuple. -/
theorem C101_row (hr : V1Op.run {} ops = .ok w) {x : TP} (hx : Row w x) :
    ∃ y, (Happened ops fun u op => op.Assigns u y) ∧ (x.principal = y.principal ∨ (x.principal ++ [95]) <+: y.principal) ∧
      (Clean y → x = y) := by
  obtain ⟨k, hk, hf⟩ := hx
  obtain ⟨y, hy, rfl⟩ := ((V1Op.reachable_inv hr).tps k).1 hk
  exact ⟨y, log_history hr hy, fields_principal hf, fun hc => fields_unique hf (fields_encode hc)⟩

/-- What an assignment behind a granted request has in common with it. -/
def Backs (r : Request) (x : TP) : Prop :=
  (r.tenant ≠ .nil → x.tenant = toStr r.tenant) ∧
  (ResourceRequest r → r.scope ≠ .nil → x.scope = toStr r.scope) ∧
  (ResourceRequest r → r.namespace_ ≠ .nil → (r.tenant ≠ .nil ∨ r.scope ≠ .nil) → x.namespace_ = toStr r.namespace_)

/-- A request with a tenant only. -/
def TenantOnly (r : Request) : Prop := Shape r true false false false false

theorem backed {o : Ord} {fuel : Nat} {site : List Val} {p : Str} {opts : List Opt} (inv : Inv w)
    (h1 : ¬ TenantOnly (requestOf opts)) (h2 : ¬ TNS (requestOf opts)) (h : w.authorize o fuel site p opts = .ok true) :
    ∃ x, Row w x ∧ x.principal = p ∧ Backs (requestOf opts) x := by
  by_cases hres : ResourceRequest (requestOf opts)
  · obtain ⟨_, g⟩ := (C37_exact inv hres h).1 rfl
    generalize requestOf opts = r at *
    rcases g with ⟨a, b⟩ | ⟨a, x, t, b, c, d, e⟩ | ⟨a, x, t, b, c, d, e⟩ | ⟨a, x, b, c, d⟩ | ⟨a, x, b, c, d⟩ | ⟨a, x, b, c, d⟩ | ⟨a, _⟩
    · exact absurd a h1
    · refine ⟨x, b, c, ?_⟩; unfold Shape at a; unfold Backs; grind
    · refine ⟨x, b, c, ?_⟩; unfold Shape at a; unfold Backs; grind
    · refine ⟨x, b, c, ?_⟩; unfold Shape at a; unfold Backs; grind
    · refine ⟨x, b, c, ?_⟩; unfold Shape at a; unfold Backs; grind
    · refine ⟨x, b, c, ?_⟩; unfold Shape at a; unfold Backs; grind
    · exact absurd a h2
  · obtain ⟨_, g⟩ := (C41_exact inv hres h).1 rfl
    generalize requestOf opts = r at *
    rcases g with ⟨a, L, hL, id, hid, _⟩ | ⟨a, t, _, _, _, L, _, x, _, hx, _⟩
    · obtain ⟨T, t, ⟨x, hx⟩, _⟩ := (hL id).1 hid
      exact ⟨x, hx.1, hx.2.1, fun hn => absurd (a.1.1 hn) (by simp), fun k => absurd k hres, fun k => absurd k hres⟩
    · exact ⟨x, hx.1, hx.2.1, fun _ => hx.2.2, fun k => absurd k hres, fun k => absurd k hres⟩

/-- C101 as intended: whoever is granted a request was assigned something by an earlier call. -/
def C101_full : Prop := ∀ (ops : List V1Op) (w : V1) (o : Ord) (fuel : Nat) (site : List Val) (p : Str) (opts : List Opt),
  V1Op.run {} ops = .ok w → w.authorize o fuel site p opts = .ok true →
  ∃ y, (Happened ops fun u op => op.Assigns u y) ∧ y.principal = p

/-- C101. What holds: a granted request - other than one with only a tenant, or only tenant, namespace and scope - goes
back to an earlier call that assigned something to the principal or to a principal whose id goes on with `_`. If no id of
that assignment contains `_`, it was assigned to the principal itself, in the requested tenant, and for requests without
group and activity it names the requested scope and, unless only the namespace is given, the requested namespace. -/
theorem C101_access_partial {o : Ord} {fuel : Nat} {site : List Val} {p : Str} {opts : List Opt} (hr : V1Op.run {} ops = .ok w)
    (h1 : ¬ TenantOnly (requestOf opts)) (h2 : ¬ TNS (requestOf opts)) (h : w.authorize o fuel site p opts = .ok true) :
    ∃ y, (Happened ops fun u op => op.Assigns u y) ∧ (y.principal = p ∨ (p ++ [95]) <+: y.principal) ∧
      (Clean y → y.principal = p ∧ Backs (requestOf opts) y) := by
  obtain ⟨x, hx, rfl, hb⟩ := backed (V1Op.reachable_inv hr) h1 h2 h
  obtain ⟨y, k1, k2, k3⟩ := C101_row hr hx
  exact ⟨y, k1, k2.imp_left Eq.symm, fun hc => k3 hc ▸ ⟨rfl, hb⟩⟩

/-- The call assigns to `p` or to a principal whose id goes on with `_`; `AddScopesToNamespace` assigns to the empty
principal. -/
def Touches (p : Str) (op : V1Op) : Prop :=
  (∃ q, op.assignee = some q ∧ ¬ Apart p q) ∨ p = [] ∧ ∃ c n ss, op = .tAddScopesToNamespace c n ss

theorem touches_of {p : Str} {op : V1Op} {u : V1} {y : TP} (h : op.Assigns u y) (hp : y.principal = p ∨ (p ++ [95]) <+: y.principal) :
    Touches p op := by
  have na : ¬ Apart p y.principal := fun ⟨a, b⟩ => hp.elim a b
  cases op <;> simp only [V1Op.Assigns] at h
  case addPrincipalRole => exact .inl ⟨_, rfl, h.2.1 ▸ na⟩
  case tAddPrincipalRole => exact .inl ⟨_, rfl, h.2.2.1 ▸ na⟩
  case tAddPrincipal => obtain ⟨t, _, _, e, _⟩ := h; exact .inl ⟨_, rfl, e ▸ na⟩
  case tAddPrincipalInNamespace => obtain ⟨t, _, _, _, e, _⟩ := h; exact .inl ⟨_, rfl, e ▸ na⟩
  case tAssignScopesToPrincipal => obtain ⟨t, _, _, _, e, _⟩ := h; exact .inl ⟨_, rfl, e ▸ na⟩
  case tAssignScopesWithRole => obtain ⟨t, _, _, _, e, _⟩ := h; exact .inl ⟨_, rfl, e ▸ na⟩
  case tAddScopesToNamespace c n ss =>
    obtain ⟨t, _, _, _, e, _⟩ := h
    rw [e] at hp
    refine .inr ⟨hp.elim Eq.symm fun k => ?_, c, n, ss, rfl⟩
    have := k.length_le
    simp at this

/-- C101. A principal nothing was ever assigned to is denied every such request. -/
theorem C101_nothing_assigned {o : Ord} {fuel : Nat} {site : List Val} {p : Str} {opts : List Opt} {b : Bool} (hr : V1Op.run {} ops = .ok w)
    (hn : ∀ op ∈ ops, ¬ Touches p op) (h1 : ¬ TenantOnly (requestOf opts)) (h2 : ¬ TNS (requestOf opts))
    (h : w.authorize o fuel site p opts = .ok b) : b = false := by
  cases b with
  | false => rfl
  | true =>
    obtain ⟨y, ⟨pre, op, post, u, rfl, _, k⟩, hp, _⟩ := C101_access_partial hr h1 h2 h
    exact absurd (touches_of k hp) (hn op (by simp))

/-! ## C102 -/

theorem loop_heap {α : Type} {f : V1 → α → Out V1} {xs : List α} (hf : ∀ w w' x, f w x = .ok w' → w'.heap = w.heap)
    (h : Out.loop f w xs = .ok w') : w'.heap = w.heap :=
  Out.loop_inv (P := fun s => s.heap = w.heap) (fun s s' x _ p h => (hf s s' x h).trans p) rfl h

theorem added_heap {P : TP → Prop} (h : Added w v P) : v.heap = w.heap := by rw [h.2.2]

theorem addPrincipalRole_heap {p r : Str} {d : Nat} {ns : Option Nat} {sc : Option Str} {m : List Bool}
    (h : w.addPrincipalRole p r d ns sc m = .ok v) : v.heap = w.heap := by
  unfold addPrincipalRole at h
  split at h
  · cases h
  · obtain ⟨n, _, rfl⟩ := Out.map_eq_ok.1 h; rfl

theorem tAddPrincipalRole_heap {c : Nat} {p r : Str} {d : Nat} {ns : Option Nat} {sc : Option Str} {m : List Bool}
    (h : w.tAddPrincipalRole c p r d ns sc m = .ok v) : v.heap = w.heap := by
  obtain ⟨t, _, h⟩ := withT_eq_ok.1 h
  split at h
  · exact addPrincipalRole_heap h
  · cases h

theorem scopesToNamespace_heap {c : Nat} {n : Str} {ss : List Str} (h : w.tAddScopesToNamespace c n ss = .ok v) : v.heap = w.heap := by
  induction ss generalizing w with
  | nil => cases h; rfl
  | cons s ss ih =>
    obtain ⟨t, ht, h⟩ := withT_eq_ok.1 h
    split at h
    · cases h; rfl
    · split at h
      · exact ih h
      · split at h
        · cases h
        · obtain ⟨w1, h1, h2⟩ := Out.bind_eq_ok.1 h
          rw [ih h2, tAddPrincipalRole_heap h1]; rfl

theorem rolesToNamespace_heap {c : Nat} {n : Str} {rs : List Str} (h : w.tAddRolesToNamespace c n rs = .ok v) : v.heap = w.heap := by
  induction rs generalizing w with
  | nil => cases h; rfl
  | cons s ss ih =>
    obtain ⟨t, ht, h⟩ := withT_eq_ok.1 h
    split at h
    · cases h; rfl
    · split at h
      · cases h; rfl
      · split at h
        · cases h
        · exact (ih h).trans rfl

/-- Only calls on roles and groups change the role graph. -/
theorem heap_origin {op : V1Op} (inv : Inv w) (h : op.apply w = .ok v) : HOrigin (fun g a => op.Lists w g a) w.heap v.heap := by
  have same : v.heap = w.heap → HOrigin (fun g a => op.Lists w g a) w.heap v.heap := fun e => e ▸ .refl _
  cases op with
  | role op => obtain ⟨h1, h2, rfl⟩ := Out.map_eq_ok.1 h; exact HOrigin.apply h2
  | newTenant id => cases h; exact same rfl
  | newNamespace id => cases h; exact same rfl
  | addTenant a =>
    obtain ⟨⟨x, w1⟩, h1, rfl⟩ := Out.map_eq_ok.1 h
    refine same ?_
    unfold V1.addTenant at h1
    split at h1
    · cases h1
    · simp only at h1
      split at h1 <;> cases h1 <;> rfl
  | addNamespace a =>
    obtain ⟨⟨x, w1⟩, h1, rfl⟩ := Out.map_eq_ok.1 h
    refine same ?_
    unfold V1.addNamespace at h1
    split at h1
    · cases h1
    · split at h1 <;> cases h1 <;> rfl
  | addScope id obj => cases h; refine same ?_; unfold V1.addScope; split <;> rfl
  | addPrincipal id obj => cases h; refine same ?_; unfold V1.addPrincipal; split <;> rfl
  | addRole r =>
    obtain ⟨⟨x, w1⟩, h1, rfl⟩ := Out.map_eq_ok.1 h
    refine same ?_
    unfold V1.addRole at h1
    split at h1
    · cases h1
    · split at h1 <;> cases h1 <;> rfl
  | addAttribute a obj => cases h; refine same ?_; unfold V1.addAttribute; split <;> rfl
  | addAttributeGroup ga =>
    obtain ⟨⟨x, w1⟩, h1, rfl⟩ := Out.map_eq_ok.1 h
    refine same ?_
    unfold V1.addAttributeGroup at h1
    split at h1
    · cases h1
    · split at h1 <;> cases h1 <;> rfl
  | addPermissionsToRole r g as =>
    obtain ⟨⟨e, h'⟩, h1, rfl⟩ := Out.map_eq_ok.1 h
    refine (HOrigin.addPermissionsToRole h1).mono fun g' a k => ?_
    obtain ⟨rfl, k1, ⟨ga, k2⟩, x, ro, k3, k4⟩ := k
    exact ⟨rfl, k1, ⟨ga, GoMap.get_some_mem k2⟩, x, ro, GoMap.get_some_mem k3, k4⟩
  | addPrincipalRole p r c ns sc m => exact same (addPrincipalRole_heap h)
  | tAddDescendent c ds =>
    refine same (loop_heap (fun w w' d h => ?_) h)
    obtain ⟨t, ht, h⟩ := withT_eq_ok.1 h
    obtain ⟨dt, hd, h⟩ := withT_eq_ok.1 h
    cases h; rfl
  | tSetDefaultNamespace c n =>
    obtain ⟨t, ht, h⟩ := withT_eq_ok.1 h
    split at h <;> cases h <;> exact same rfl
  | tAddNamespace c ns =>
    refine same (loop_heap (fun w w' d h => ?_) h)
    obtain ⟨t, ht, h⟩ := withT_eq_ok.1 h
    split at h <;> cases h; rfl
  | tAddRole c rs =>
    refine same (loop_heap (fun w w' d h => ?_) h)
    obtain ⟨t, ht, h⟩ := withT_eq_ok.1 h
    split at h <;> cases h; rfl
  | tAddScopes c ss =>
    refine same (loop_heap (fun w w' d h => ?_) h)
    obtain ⟨t, ht, h⟩ := withT_eq_ok.1 h
    simp only at h
    split at h
    · cases h; rfl
    · split at h <;> cases h; rfl
  | tAddScopesToNamespace c n ss => exact same (scopesToNamespace_heap h)
  | tAddRolesToNamespace c n rs => exact same (rolesToNamespace_heap h)
  | nsAddRoles n rs =>
    refine same (loop_heap (fun w w' d h => ?_) h)
    split at h <;> cases h; rfl
  | nsAddScopes n ss =>
    refine same (loop_heap (fun w w' d h => ?_) h)
    split at h <;> cases h; rfl
  | tAddPrincipalRole c p r d ns sc m => exact same (tAddPrincipalRole_heap h)
  | tAddPrincipal c p rs =>
    obtain ⟨t, ht⟩ := tobj_of_withT h
    exact same (added_heap (C43_addPrincipal ht h))
  | tAddPrincipalInNamespace o site c p n rs =>
    obtain ⟨t, ht⟩ := tobj_of_withT h
    by_cases hr : rs = []
    · subst hr; exact same (added_heap (C43_addPrincipalInNamespace_copy inv ht h))
    · exact same (added_heap (C43_addPrincipalInNamespace inv ht hr h))
  | tAssignScopesToPrincipal o site c p ss =>
    obtain ⟨t, ht⟩ := tobj_of_withT h
    exact same (added_heap (C43_assignScopesToPrincipal ht h))
  | tAssignScopesWithRole o site c p r ss =>
    by_cases hs : ss.length = 0
    · have h' : w.tAssignScopesWithRole o site c p r ss = .ok v := h
      unfold tAssignScopesWithRole at h'
      rw [if_pos hs] at h'; cases h'
      exact same rfl
    · have h' : w.tAssignScopesWithRole o site c p r ss = .ok v := h
      unfold tAssignScopesWithRole at h'
      rw [if_neg hs] at h'
      obtain ⟨t, ht, _⟩ := withT_eq_ok.1 h'
      exact same (added_heap (C43_assignScopesWithRole ht h))

theorem held_origin (hr : V1Op.run {} ops = .ok w) : ById w.heap ∧
    ∀ g e, InGroup w.heap g e → Happened ops fun u op => op.Lists u g e.2 := by
  induction ops using List.reverseRecOn generalizing w with
  | nil => cases hr; exact ⟨fun a ro h => by simp at h, fun g e ⟨i, G, h, _⟩ => by simp at h⟩
  | append_singleton ops op ih =>
    obtain ⟨v, h1, h2⟩ := run_snoc.1 hr
    obtain ⟨b, l⟩ := ih h1
    have s := heap_origin (V1Op.reachable_inv h1) h2
    exact ⟨s.byId b, fun g e he => (s.new b g e he).elim (fun h => (l g e h).snoc) (fun h => .last h1 h)⟩

/-- C102. A granted request that is not about tenants, namespaces and scopes only goes back to a call that put an
attribute into a group with the requested id (empty if none is requested), whose text (resource, blank, action) equals or
matches the requested activity. -/
theorem C102_activity {o : Ord} {fuel : Nat} {site : List Val} {p : Str} {opts : List Opt} (hr : V1Op.run {} ops = .ok w)
    (ha : ¬ ResourceRequest (requestOf opts)) (h : w.authorize o fuel site p opts = .ok true) :
    ∃ a : Attr, (a.resource ++ 32 :: a.action = toStr (requestOf opts).activity ∨
        Matches (a.resource ++ 32 :: a.action) (toStr (requestOf opts).activity)) ∧
      Happened ops fun u op => op.Lists u (toStr (requestOf opts).group) a := by
  have inv := V1Op.reachable_inv hr
  obtain ⟨b, l⟩ := held_origin hr
  obtain ⟨_, g⟩ := (C41_exact inv ha h).1 rfl
  rcases g with ⟨s, L, _, id, _, a, _, hg⟩ | ⟨_, t, _, _, _, L, _, x, a, _, _, hg⟩
  · obtain ⟨e, h1, h2⟩ := HOrigin.of_granted b inv.heap hg
    have e0 : (requestOf opts).group = .nil := by
      have := s.2.2.2.1
      simpa using this
    exact ⟨e.2, h2, by rw [e0]; exact l _ e h1⟩
  · obtain ⟨e, h1, h2⟩ := HOrigin.of_granted b inv.heap hg
    exact ⟨e.2, h2, l _ e h1⟩

/-- The call lists an attribute of this text or matching it. -/
def Offers (act : Str) : V1Op → Prop
  | .role (.addPerm _ _ as) | .role (.addAttrs _ as) | .addPermissionsToRole _ _ as =>
    ∃ a ∈ as, a.resource ++ 32 :: a.action = act ∨ Matches (a.resource ++ 32 :: a.action) act
  | _ => False

/-- C102. An activity that no call lists an attribute for is denied to everybody. -/
theorem C102_nothing_listed {o : Ord} {fuel : Nat} {site : List Val} {p : Str} {opts : List Opt} {b : Bool}
    (hr : V1Op.run {} ops = .ok w) (ha : ¬ ResourceRequest (requestOf opts))
    (hn : ∀ op ∈ ops, ¬ Offers (toStr (requestOf opts).activity) op) (h : w.authorize o fuel site p opts = .ok b) : b = false := by
  cases b with
  | false => rfl
  | true =>
    obtain ⟨a, h1, pre, op, post, u, rfl, _, h3⟩ := C102_activity hr ha h
    refine absurd ?_ (hn op (by simp))
    cases op <;> simp only [V1Op.Lists] at h3
    case role op =>
      cases op <;> simp only [RoleOp.Lists] at h3
      case addPerm r g as => exact ⟨a, h3.2.1, h1⟩
      case addAttrs ga as => exact ⟨a, h3.1, h1⟩
    case addPermissionsToRole r g as => exact ⟨a, h3.2.1, h1⟩

/-! ## Concrete cases -/

/-- C101 as intended fails: in `exOps` nothing is ever assigned to `x`, who is granted tenant `t` and - because of what
`p` has - tenant `t` with namespace `n` and scope `s`. -/
theorem C101_counterexample : (∀ op ∈ exOps, ¬ Touches (str "x") op) ∧ ∃ w, V1Op.run {} exOps = .ok w ∧
    (w.authorize .fwd 9 [] (str "x") [.tenant (.str (str "t"))] = .ok true ∧
     w.authorize .fwd 9 [] (str "x") [.tenant (.str (str "t")), .namespace_ (.str (str "n")), .scope (.str (str "s"))] = .ok true) := by
  refine ⟨?_, Out.chk_ok (by decide +kernel)⟩
  intro op hop
  simp only [exOps, List.mem_cons, List.not_mem_nil, or_false] at hop
  rintro (⟨q, h1, h2⟩ | ⟨h1, _⟩)
  · rcases hop with rfl | rfl | rfl | rfl | rfl | rfl | rfl | rfl | rfl | rfl | rfl | rfl | rfl | rfl | rfl | rfl | rfl |
      rfl | rfl | rfl | rfl | rfl | rfl <;> simp only [V1Op.assignee, Option.some.injEq, reduceCtorEq] at h1
    all_goals subst h1; exact h2 (by decide)
  · exact absurd h1 (by decide)

theorem C101_full_false : ¬ C101_full := by
  intro hf
  obtain ⟨hn, w, hr, h, _⟩ := C101_counterexample
  obtain ⟨y, ⟨pre, op, post, u, e, _, k⟩, hp⟩ := hf _ w _ _ _ _ _ hr h
  exact hn op (by rw [e]; simp) (touches_of k (.inl hp))

/-- C101 and C102 in the state of `exIso`: `p` is granted the activity; the last call assigned it the role in the tenant
and the seventh listed the attribute in the group. -/
example : ∃ w u u', V1Op.run {} exIso = .ok w ∧ V1Op.run {} (exIso.take 13) = .ok u ∧ V1Op.run {} (exIso.take 6) = .ok u' ∧
    w.authorize .fwd 9 [] (str "p") [.tenant (.str (str "t")), .group (.str (str "g")), .activity (.str (str "/a GET"))] = .ok true ∧
    ¬ TenantOnly (requestOf [.tenant (.str (str "t")), .group (.str (str "g")), .activity (.str (str "/a GET"))]) ∧
    ¬ TNS (requestOf [.tenant (.str (str "t")), .group (.str (str "g")), .activity (.str (str "/a GET"))]) ∧
    ¬ ResourceRequest (requestOf [.tenant (.str (str "t")), .group (.str (str "g")), .activity (.str (str "/a GET"))]) ∧
    exIso = exIso.take 13 ++ V1Op.addPrincipalRole (str "p") (str "r") 0 none none [] :: [] ∧
    (V1Op.addPrincipalRole (str "p") (str "r") 0 none none []).Assigns u ⟨str "t", str "p", str "r", [], [], true⟩ ∧
    exIso = exIso.take 6 ++ V1Op.role (.addPerm 0 (str "g") [⟨str "/a", str "GET"⟩]) :: exIso.drop 7 ∧
    (V1Op.role (.addPerm 0 (str "g") [⟨str "/a", str "GET"⟩])).Lists u' (str "g") ⟨str "/a", str "GET"⟩ := by
  obtain ⟨w, h1, h2⟩ := Out.chk_ok (x := V1Op.run {} exIso) (P := fun w =>
    w.authorize .fwd 9 [] (str "p") [.tenant (.str (str "t")), .group (.str (str "g")), .activity (.str (str "/a GET"))] = .ok true)
    (by decide +kernel)
  obtain ⟨u, h3, t, h4, h5⟩ := Out.chk_ok (x := V1Op.run {} (exIso.take 13)) (P := fun u => ∃ t ∈ u.tobjs[0]?, t.id = str "t")
    (by decide +kernel)
  obtain ⟨u', h6, ro, h7, h8⟩ := Out.chk_ok (x := V1Op.run {} (exIso.take 6)) (P := fun u => ∃ ro ∈ u.heap.roles[0]?, ro.lock = false)
    (by decide +kernel)
  exact ⟨w, u, u', h1, h3, h6, h2, by unfold TenantOnly Shape; decide, by unfold TNS Shape; decide, by unfold ResourceRequest; decide,
    rfl, ⟨⟨t, h4, by rw [h5]⟩, rfl, rfl, .inl ⟨rfl, rfl⟩, .inl ⟨rfl, rfl⟩, .inl ⟨rfl, rfl⟩⟩, rfl, ⟨rfl, by simp, ro, h7, h8⟩⟩

/-- `x` meets the hypotheses of `C101_nothing_assigned` and is denied. -/
example : ∃ w, V1Op.run {} exOps = .ok w ∧
    (w.authorize .fwd 9 [] (str "x") [.tenant (.str (str "t")), .scope (.str (str "s"))] = .ok false ∧
     w.authorize .fwd 9 [] (str "x") [.activity (.str (str "/a GET"))] = .ok false) := Out.chk_ok (by decide +kernel)

/-- Nobody lists an attribute for "/a PUT" in `exIso`. -/
example : (∀ op ∈ exIso, ¬ Offers (str "/a PUT") op) ∧ ∃ w, V1Op.run {} exIso = .ok w ∧
    (w.authorize .fwd 9 [] (str "p") [.tenant (.str (str "t")), .group (.str (str "g")), .activity (.str (str "/a PUT"))] = .ok false) := by
  refine ⟨?_, Out.chk_ok (by decide +kernel)⟩
  intro op h
  simp only [exIso, List.mem_cons, List.not_mem_nil, or_false] at h
  rcases h with h | h | h | h | h | h | h | h | h | h | h | h | h | h <;> subst h <;> simp only [Offers] <;> try decide +kernel
  rintro ⟨a, h1, h2⟩
  cases List.mem_singleton.1 h1
  rw [matches_literal (by decide +kernel) (by decide +kernel)] at h2
  exact absurd h2 (by decide +kernel)

end V1
end Verif
