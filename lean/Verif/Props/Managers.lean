import Verif.Model.Managers
import Verif.Props.Manager

/-!
# Several managers in one program (C110, C111)
-/

namespace Verif
namespace MM

/-- The manager with other tenant objects. -/
def swap (T : List TenantObj) (w : Mgr) : Mgr := { w with tobjs := T }

/-- The state `w'` comes from `w` without a change of objects or registered tenants. -/
structure Kept (w w' : Mgr) : Prop where
  tobjs : w'.tobjs = w.tobjs
  heap : w'.heap = w.heap
  tenants : w'.tenants = w.tenants

theorem Kept.refl (w : Mgr) : Kept w w := ⟨rfl, rfl, rfl⟩

theorem Kept.trans {a b c : Mgr} (h1 : Kept a b) (h2 : Kept b c) : Kept a c :=
  ⟨h2.tobjs.trans h1.tobjs, h2.heap.trans h1.heap, h2.tenants.trans h1.tenants⟩

theorem addData_even {T : List TenantObj} {w w' : Mgr} {d : Data} (h : w.addData d = .ok w') :
    Kept w w' ∧ (swap T w).addData d = .ok (swap T w') := by
  obtain ⟨t, h1, rfl⟩ := Out.map_eq_ok.1 h
  exact ⟨⟨rfl, rfl, rfl⟩, by simp [Mgr.addData, swap, h1]⟩

theorem withTenant_ok {α : Type} {w : Mgr} {c : Nat} {f : TenantObj → Out α} {a : α} (h : w.withTenant c f = .ok a) :
    ∃ t, w.tobjs[c]? = some t ∧ t.managed = true ∧ f t = .ok a := by
  unfold Mgr.withTenant at h
  split at h
  · cases h
  · next t ht =>
    split at h
    · next hm => exact ⟨t, ht, hm, h⟩
    · cases h

theorem withTenant_swap {α : Type} {T : List TenantObj} {w : Mgr} {c : Nat} {f : TenantObj → Out α} {t : TenantObj}
    (ht : w.tobjs[c]? = some t) (hm : t.managed = true) (hT : T[c]? = w.tobjs[c]?) :
    (swap T w).withTenant c f = f t := by
  simp [Mgr.withTenant, swap, hT, ht, hm]

theorem row_even {T : List TenantObj} {w w' : Mgr} {c : Nat} {row : TenantObj → Data} (hT : T[c]? = w.tobjs[c]?)
    (h : (w.withTenant c fun t => w.addData (row t)) = .ok w') :
    Kept w w' ∧ ((swap T w).withTenant c fun t => (swap T w).addData (row t)) = .ok (swap T w') := by
  obtain ⟨t, ht, hm, h⟩ := withTenant_ok h
  obtain ⟨k, e⟩ := addData_even (T := T) h
  exact ⟨k, by rw [withTenant_swap ht hm hT]; exact e⟩

/-- One or two rows. -/
theorem rows_even {T : List TenantObj} {w : Mgr} {r : Option Err × Mgr} {a : Data} {b : Option Data}
    (h : ((w.addData a).bind fun w1 =>
      match b with
      | none => .ok (none, w1)
      | some d => (w1.addData d).map fun w2 => ((none : Option Err), w2)) = .ok r) :
    Kept w r.2 ∧ (((swap T w).addData a).bind fun w1 =>
      match b with
      | none => .ok (none, w1)
      | some d => (w1.addData d).map fun w2 => ((none : Option Err), w2)) = .ok (r.1, swap T r.2) := by
  obtain ⟨w1, h1, h2⟩ := Out.bind_eq_ok.1 h
  obtain ⟨k1, e1⟩ := addData_even (T := T) h1
  cases b with
  | none => cases h2; exact ⟨k1, by simp [e1]⟩
  | some d =>
    obtain ⟨w2, h3, rfl⟩ := Out.map_eq_ok.1 h2
    obtain ⟨k2, e2⟩ := addData_even (T := T) h3
    exact ⟨k1.trans k2, by simp [e1, e2]⟩

theorem withRole_even {T : List TenantObj} {w : Mgr} {c : Nat} {p r : Str} {m : Bool} {x : Option Err × Mgr}
    (hT : T[c]? = w.tobjs[c]?) (h : w.tAddPrincipalWithRole c p r m = .ok x) :
    Kept w x.2 ∧ (swap T w).tAddPrincipalWithRole c p r m = .ok (x.1, swap T x.2) := by
  obtain ⟨t, ht, hm, h⟩ := withTenant_ok h
  unfold Mgr.tAddPrincipalWithRole
  rw [withTenant_swap ht hm hT]
  split at h
  · next h1 => cases h; exact ⟨.refl w, if_pos h1⟩
  next h1 =>
  split at h
  · next h2 => cases h; exact ⟨.refl w, (if_neg h1).trans (if_pos h2)⟩
  next h2 =>
  show Kept w x.2 ∧ (if _ then _ else if _ then _ else _) = _
  rw [if_neg (show ¬ ((swap T w).principals.get p).isNone = true from h1),
    if_neg (show ¬ ((swap T w).roles.get r).isNone = true from h2)]
  have := @rows_even T w x { tenant := .str t.id, principal := .str p, role := .str r, manage := .bool m }
    (t.defNs.map fun n => { tenant := .str t.id, namespace_ := .str n, principal := .str p, role := .str r, manage := .bool m })
  cases ht2 : t.defNs with
  | none => simp only [ht2, Option.map_none] at h this ⊢; exact this h
  | some n => simp only [ht2, Option.map_some] at h this ⊢; exact this h

theorem withScope_even {T : List TenantObj} {w : Mgr} {c : Nat} {p r : Str} {m : Bool} {x : Option Err × Mgr}
    (hT : T[c]? = w.tobjs[c]?) (h : w.tAddScopeToPrincipal c p r m = .ok x) :
    Kept w x.2 ∧ (swap T w).tAddScopeToPrincipal c p r m = .ok (x.1, swap T x.2) := by
  obtain ⟨t, ht, hm, h⟩ := withTenant_ok h
  unfold Mgr.tAddScopeToPrincipal
  rw [withTenant_swap ht hm hT]
  split at h
  · next h1 => cases h; exact ⟨.refl w, if_pos h1⟩
  next h1 =>
  split at h
  · next h2 => cases h; exact ⟨.refl w, (if_neg h1).trans (if_pos h2)⟩
  next h2 =>
  show Kept w x.2 ∧ (if _ then _ else if _ then _ else _) = _
  rw [if_neg (show ¬ ((swap T w).principals.get p).isNone = true from h1),
    if_neg (show ¬ ((swap T w).scopes.get r).isNone = true from h2)]
  have := @rows_even T w x { tenant := .str t.id, scope := .str r, principal := .str p, manage := .bool m }
    (t.defNs.map fun n => { tenant := .str t.id, namespace_ := .str n, scope := .str r, principal := .str p, manage := .bool m })
  cases ht2 : t.defNs with
  | none => simp only [ht2, Option.map_none] at h this ⊢; exact this h
  | some n => simp only [ht2, Option.map_some] at h this ⊢; exact this h

theorem principal_even {T : List TenantObj} {c : Nat} {p : Str} {m : Bool} : ∀ {rs : List Str} {w : Mgr}
    {x : Option Err × Mgr}, T[c]? = w.tobjs[c]? → w.tAddPrincipal c p m rs = .ok x →
    Kept w x.2 ∧ (swap T w).tAddPrincipal c p m rs = .ok (x.1, swap T x.2)
  | [], w, x, _, h => by cases h; exact ⟨.refl w, rfl⟩
  | r :: rs, w, x, hT, h => by
    obtain ⟨y, h1, h2⟩ := Out.bind_eq_ok.1 h
    obtain ⟨k1, e1⟩ := withRole_even hT h1
    obtain ⟨e, w1⟩ := y
    simp only [Mgr.tAddPrincipal, e1, Out.bind_ok]
    cases e with
    | some e => cases h2; exact ⟨k1, rfl⟩
    | none =>
      obtain ⟨k2, e2⟩ := principal_even (hT.trans (by rw [k1.tobjs])) h2
      exact ⟨k1.trans k2, e2⟩

theorem assign_even {T : List TenantObj} {c : Nat} {p : Str} {m : Bool} : ∀ {rs : List Str} {w : Mgr}
    {x : Option Err × Mgr}, T[c]? = w.tobjs[c]? → w.tAssignScopes c p m rs = .ok x →
    Kept w x.2 ∧ (swap T w).tAssignScopes c p m rs = .ok (x.1, swap T x.2)
  | [], w, x, _, h => by cases h; exact ⟨.refl w, rfl⟩
  | r :: rs, w, x, hT, h => by
    obtain ⟨y, h1, h2⟩ := Out.bind_eq_ok.1 h
    obtain ⟨k1, e1⟩ := withScope_even hT h1
    obtain ⟨e, w1⟩ := y
    simp only [Mgr.tAssignScopes, e1, Out.bind_ok]
    cases e with
    | some e => cases h2; exact ⟨k1, rfl⟩
    | none =>
      obtain ⟨k2, e2⟩ := assign_even (hT.trans (by rw [k1.tobjs])) h2
      exact ⟨k1.trans k2, e2⟩

/-- A tenant method that writes rows only. -/
def Rows (op : MOp) : Prop :=
  match op with
  | .tSetDefaultNamespace _ _ => False
  | .tAddDescendant _ _ => False
  | _ => True

theorem tenant_even {T : List TenantObj} {w w' : Mgr} {op : MOp} {c : Nat} (hc : receiver op = some c) (hr : Rows op)
    (hT : T[c]? = w.tobjs[c]?) (h : op.apply w = .ok w') : Kept w w' ∧ op.apply (swap T w) = .ok (swap T w') := by
  cases op <;> cases hc
  case tSetDefaultNamespace => exact hr.elim
  case tAddDescendant => exact hr.elim
  case tAddPrincipalWithRole =>
    obtain ⟨x, h1, rfl⟩ := Out.map_eq_ok.1 h
    obtain ⟨k, e⟩ := withRole_even hT h1
    exact ⟨k, by simp [MOp.apply, e]⟩
  case tAddScopeToPrincipal =>
    obtain ⟨x, h1, rfl⟩ := Out.map_eq_ok.1 h
    obtain ⟨k, e⟩ := withScope_even hT h1
    exact ⟨k, by simp [MOp.apply, e]⟩
  case tAddPrincipal =>
    obtain ⟨x, h1, rfl⟩ := Out.map_eq_ok.1 h
    obtain ⟨k, e⟩ := principal_even hT h1
    exact ⟨k, by simp [MOp.apply, e]⟩
  case tAssignScopes =>
    obtain ⟨x, h1, rfl⟩ := Out.map_eq_ok.1 h
    obtain ⟨k, e⟩ := assign_even hT h1
    exact ⟨k, by simp [MOp.apply, e]⟩
  all_goals exact row_even (w := w) hT h

/-! ### Queries and decisions -/

theorem descendants_tobjs {w v : Mgr} (e : v.tobjs = w.tobjs) {o : Ord} : ∀ {n : Nat} {site : List Val} {c : Nat},
    v.descendants o n site c = w.descendants o n site c
  | 0, _, _ => rfl
  | n + 1, site, c => by
    simp only [Mgr.descendants, e]
    cases w.tobjs[c]? with
    | none => rfl
    | some t =>
      have : (fun (i : Nat) (x : Str × Nat) => (v.descendants o n (site ++ [.int i]) x.2).map (fun ds => x.1 :: ds)) =
          fun (i : Nat) (x : Str × Nat) => (w.descendants o n (site ++ [.int i]) x.2).map (fun ds => x.1 :: ds) := by
        funext i x; rw [descendants_tobjs e]
      simp only [this]

/-- The registered tenants have the same descendants among the objects `T`. -/
def Alike (T : List TenantObj) (w : Mgr) : Prop :=
  ∀ (o : Ord) (n : Nat) (site : List Val) (id : Str) (c : Nat), w.tenants.get id = some c →
    (swap T w).descendants o n site c = w.descendants o n site c

theorem Alike.kept {T : List TenantObj} {w v : Mgr} (h : Alike T w) (k : Kept w v) : Alike T v := by
  intro o n site id c hc
  rw [descendants_tobjs (v := swap T v) (w := swap T w) rfl, descendants_tobjs k.tobjs]
  exact h o n site id c (k.tenants ▸ hc)

theorem children_even {T : List TenantObj} {w : Mgr} (ha : Alike T w) {o : Ord} {n : Nat} {site : List Val} {id : Str}
    {x : List Val × Mgr} (h : w.tenantChildren o n site id = .ok x) :
    Kept w x.2 ∧ (swap T w).tenantChildren o n site id = .ok (x.1, swap T x.2) := by
  unfold Mgr.tenantChildren at h ⊢
  show _ ∧ (match w.hierarchy.get id with | some hier => _ | none => match w.tenants.get id with | none => _ | some c => _) = _
  split at h
  · next h1 => cases h; exact ⟨.refl w, by simp only [h1]⟩
  next h1 =>
  simp only [h1]
  split at h
  · next h2 => cases h; exact ⟨.refl w, by simp only [h2]⟩
  next c h2 =>
  obtain ⟨ds, h3, rfl⟩ := Out.map_eq_ok.1 h
  refine ⟨⟨rfl, rfl, rfl⟩, ?_⟩
  simp only [h2, ha o n site id c h2, h3, Out.map_ok]
  rfl

theorem loop_even {T : List TenantObj} {o : Ord} {n : Nat} {site : List Val} : ∀ {rows : List Data} {i : Nat}
    {E : List Str} {w : Mgr} {x : List Str × Mgr}, Alike T w → Mgr.implicitLoop o n site i rows E w = .ok x →
    Kept w x.2 ∧ Mgr.implicitLoop o n site i rows E (swap T w) = .ok (x.1, swap T x.2)
  | [], i, E, w, x, _, h => by cases h; exact ⟨.refl w, rfl⟩
  | rs :: rest, i, E, w, x, ha, h => by
    simp only [Mgr.implicitLoop] at h ⊢
    cases ht : rs.tenant with
    | str t =>
      simp only [ht] at h ⊢
      split at h
      · next h1 => rw [if_pos h1]; exact loop_even ha h
      next h1 =>
      rw [if_neg h1]
      split at h
      · next h2 =>
        rw [if_pos h2]
        obtain ⟨y, h3, h4⟩ := Out.bind_eq_ok.1 h
        obtain ⟨E', h5, h6⟩ := Out.bind_eq_ok.1 h4
        obtain ⟨k1, e1⟩ := children_even ha h3
        obtain ⟨k2, e2⟩ := loop_even (ha.kept k1) h6
        exact ⟨k1.trans k2, by simp [e1, h5, e2]⟩
      · next h2 => rw [if_neg h2]; exact loop_even ha h
    | _ => simp only [ht] at h; cases h

theorem implicit_even {T : List TenantObj} {w : Mgr} (ha : Alike T w) {o : Ord} {n : Nat} {site : List Val} {p : Str}
    {x : List Str × Mgr} (h : w.implicitTenants o n site p = .ok x) :
    Kept w x.2 ∧ (swap T w).implicitTenants o n site p = .ok (x.1, swap T x.2) := by
  unfold Mgr.implicitTenants at h ⊢
  show _ ∧ (match w.pcache.get p with | some I => _ | none => _) = _
  split at h
  · next h1 => cases h; exact ⟨.refl w, by simp only [h1]⟩
  next h1 =>
  obtain ⟨y, h2, rfl⟩ := Out.map_eq_ok.1 h
  obtain ⟨k, e⟩ := loop_even ha h2
  refine ⟨⟨k.tobjs, k.heap, k.tenants⟩, ?_⟩
  have e' : (Mgr.implicitLoop o n (site ++ [.int 1]) 0
      ((swap T w).search o (site ++ [.int 0]) { principal := .str p } filterTenantsByPrincipal) [] (swap T w)) =
      .ok (y.1, swap T y.2) := e
  simp only [h1, e', Out.map_ok]
  rfl

theorem roleLoop_swap {T : List TenantObj} {w : Mgr} {o : Ord} {n : Nat} {site : List Val} {r : Request} :
    ∀ {rs : List Str} {i : Nat} {al : List Str},
      (swap T w).roleLoop o n site r i al rs = w.roleLoop o n site r i al rs
  | [], _, _ => rfl
  | role :: rest, i, al => by
    simp only [Mgr.roleLoop, roleLoop_swap]
    rfl

theorem nsLoop_swap {T : List TenantObj} {w : Mgr} {o : Ord} {site : List Val} {p : Str} {n s : Val} :
    ∀ {ds : List Data} {i : Nat},
      (swap T w).collectRolesNSLoop o site p n s i ds = w.collectRolesNSLoop o site p n s i ds
  | [], _ => rfl
  | t :: ts, i => by
    simp only [Mgr.collectRolesNSLoop, nsLoop_swap]
    rfl

theorem check_swap {T : List TenantObj} {w : Mgr} {o : Ord} {n : Nat} {site : List Val} {p : Str} {r : Request}
    {f : Flags} : (swap T w).check o n site p r f = w.check o n site p r f := by
  simp only [Mgr.check, Mgr.checkActivity, Mgr.collectRolesNS, roleLoop_swap, nsLoop_swap]
  rfl

theorem fallback_swap {T : List TenantObj} {w : Mgr} {o : Ord} {n : Nat} {site : List Val} {p : Str} {f : Flags} :
    ∀ {ts : List Str} {i : Nat} {r : Request},
      (swap T w).fallback o n site p f i r ts = w.fallback o n site p f i r ts
  | [], _, _ => rfl
  | t :: ts, i, r => by simp only [Mgr.fallback, fallback_swap, check_swap]

theorem authorize_even {T : List TenantObj} {w : Mgr} (ha : Alike T w) {o : Ord} {n : Nat} {site : List Val} {p : Str}
    {opts : List Opt} {x : Bool × Mgr} (h : w.authorize o n site p opts = .ok x) :
    Kept w x.2 ∧ (swap T w).authorize o n site p opts = .ok (x.1, swap T x.2) := by
  unfold Mgr.authorize at h ⊢
  show _ ∧ (if (w.principals.get p).isNone = true then _ else _) = _
  split at h
  · next h1 => cases h; exact ⟨.refl w, if_pos h1⟩
  next h1 =>
  rw [if_neg h1]
  obtain ⟨y, h2, h3⟩ := Out.bind_eq_ok.1 h
  obtain ⟨k, e⟩ := implicit_even ha h2
  simp only [e, Out.bind_ok]
  split at h3
  · next h4 => cases h3; exact ⟨k, if_pos h4⟩
  next h4 =>
  rw [if_neg h4]
  obtain ⟨v, h5, h6⟩ := Out.bind_eq_ok.1 h3
  have h5' : (swap T y.2).validateResources (opts.foldl Opt.apply {}) = .ok v := h5
  simp only [h5', Out.bind_ok]
  split at h6
  · next h7 => cases h6; exact ⟨k, if_pos h7⟩
  next h7 =>
  rw [if_neg h7]
  obtain ⟨b, h8, h9⟩ := Out.bind_eq_ok.1 h6
  simp only [check_swap, h8, Out.bind_ok]
  split at h9
  · next h10 => cases h9; exact ⟨k, if_pos h10⟩
  next h10 =>
  rw [if_neg h10]
  obtain ⟨b', h11, rfl⟩ := Out.map_eq_ok.1 h9
  exact ⟨k, by simp only [fallback_swap, h11, Out.map_ok]⟩

/-! ### Part of the tenants -/

/-- The objects, with the tenants that are not `mine` as they were made. -/
def maskT (mine : Nat → Bool) (T : List TenantObj) : List TenantObj :=
  T.mapIdx fun i t => if mine i then t else { id := t.id }

/-- The manager without what happened to the tenants that are not `mine`. -/
def mask (mine : Nat → Bool) (w : Mgr) : Mgr := swap (maskT mine w.tobjs) w

theorem maskT_get {mine : Nat → Bool} {T : List TenantObj} {i : Nat} (h : mine i = true) : (maskT mine T)[i]? = T[i]? := by
  unfold maskT
  rw [List.getElem?_mapIdx]
  cases T[i]? <;> simp [h]

theorem maskT_other {mine : Nat → Bool} {T : List TenantObj} {i : Nat} (h : mine i = false) :
    (maskT mine T)[i]? = T[i]?.map fun t => { id := t.id } := by
  unfold maskT
  rw [List.getElem?_mapIdx]
  cases T[i]? <;> simp [h]

theorem maskT_set {mine : Nat → Bool} {T : List TenantObj} {i : Nat} {t : TenantObj} (h : mine i = true) :
    maskT mine (T.set i t) = (maskT mine T).set i t := by
  apply List.ext_getElem?
  intro j
  rcases Nat.decEq i j with hj | rfl
  · rw [List.getElem?_set_ne hj]
    cases hm : mine j
    · rw [maskT_other hm, maskT_other hm, List.getElem?_set_ne hj]
    · rw [maskT_get hm, maskT_get hm, List.getElem?_set_ne hj]
  · rw [maskT_get h, List.getElem?_set, List.getElem?_set]
    simp [maskT]

theorem maskT_set_other {mine : Nat → Bool} {T : List TenantObj} {i : Nat} {t u : TenantObj} (h : mine i = false)
    (ht : T[i]? = some t) (hid : u.id = t.id) : maskT mine (T.set i u) = maskT mine T := by
  apply List.ext_getElem?
  intro j
  rcases Nat.decEq i j with hj | rfl
  · cases hm : mine j
    · rw [maskT_other hm, maskT_other hm, List.getElem?_set_ne hj]
    · rw [maskT_get hm, maskT_get hm, List.getElem?_set_ne hj]
  · rw [maskT_other h, maskT_other h, List.getElem?_set_self (List.getElem?_eq_some_iff.1 ht).1, ht]
    simp [hid]

/-- The tenants of the manager, and what is below them, are `mine`. -/
structure Closed (mine : Nat → Bool) (w : Mgr) : Prop where
  reg : ∀ id c, w.tenants.get id = some c → mine c = true
  desc : ∀ c t, mine c = true → w.tobjs[c]? = some t → ∀ e ∈ t.desc, mine e.2 = true

theorem collectI_congr {α β : Type} {f g : Nat → α → Out (List β)} : ∀ {l : List α} {i : Nat},
    (∀ i, ∀ a ∈ l, f i a = g i a) → Out.collectI f i l = Out.collectI g i l
  | [], _, _ => rfl
  | a :: l, i, h => by
    simp only [Out.collectI, h i a List.mem_cons_self]
    rw [collectI_congr (l := l) fun i b hb => h i b (List.mem_cons_of_mem _ hb)]

theorem descendants_mask {mine : Nat → Bool} {w : Mgr} (hd : ∀ c t, mine c = true → w.tobjs[c]? = some t →
    ∀ e ∈ t.desc, mine e.2 = true) {o : Ord} : ∀ {n : Nat} {site : List Val} {c : Nat}, mine c = true →
    (swap (maskT mine w.tobjs) w).descendants o n site c = w.descendants o n site c
  | 0, _, _, _ => rfl
  | n + 1, site, c, hc => by
    simp only [Mgr.descendants, show (swap (maskT mine w.tobjs) w).tobjs[c]? = w.tobjs[c]? from maskT_get hc]
    cases ht : w.tobjs[c]? with
    | none => rfl
    | some t =>
      refine collectI_congr fun i e he => ?_
      rw [descendants_mask hd (hd c t hc ht e ((o.perm site _ t.desc).mem_iff.1 he))]

theorem Closed.alike {mine : Nat → Bool} {w : Mgr} (h : Closed mine w) : Alike (maskT mine w.tobjs) w :=
  fun _ _ _ id c hc => descendants_mask h.desc (h.reg id c hc)

theorem Closed.kept {mine : Nat → Bool} {w v : Mgr} (h : Closed mine w) (k : Kept w v) : Closed mine v :=
  ⟨fun id c hc => h.reg id c (k.tenants ▸ hc), fun c t hm hc => h.desc c t hm (k.tobjs ▸ hc)⟩

/-- The calls that run within one manager. -/
def Local : MOp → Prop
  | .role _ => False
  | .newTenant _ => False
  | .tAddDescendant _ _ => False
  | _ => True

/-- The changes of tenants and of the heap by a call within one manager. -/
inductive Effect (w w' : Mgr) : MOp → Prop
  | kept {op} (h : Kept w w') : Effect w w' op
  | reg {a t} (ha : w.tobjs[a]? = some t) (e : w'.tobjs = w.tobjs.set a { t with managed := true }) (h : w'.heap = w.heap)
      (ht : w'.tenants = (register w.tenants t.id a).2) : Effect w w' (.addTenant a)
  | def_ {c n t} (hc : w.tobjs[c]? = some t) (e : w' = { w with tobjs := w.tobjs.set c { t with defNs := some n } }) :
      Effect w w' (.tSetDefaultNamespace c n)
  | grant {r g as} (a : Nat) (e : Option Err) (h : RHeap) (hh : w.heap.addPermission a g as = .ok (e, h))
      (e : w' = { w with heap := h }) : Effect w w' (.addPermissionsToRole r g as)

/-- What a call within a manager does, and that it does the same among other tenants `T`, as far as the tenants it looks at
are alike. -/
theorem local_even {T : List TenantObj} {w w' : Mgr} {op : MOp} (hl : Local op) (hr : ∀ c, receiver op = some c →
    T[c]? = w.tobjs[c]?) (ha : ∀ a, op = .addTenant a → T[a]? = w.tobjs[a]?) (al : Alike T w) (h : op.apply w = .ok w') :
    Effect w w' op ∧ (∃ T', op.apply (swap T w) = .ok (swap T' w') ∧
      ((w'.tobjs = w.tobjs ∧ T' = T) ∨ ∃ c t, (receiver op = some c ∨ op = .addTenant c) ∧ w'.tobjs = w.tobjs.set c t ∧ T' = T.set c t)) := by
  cases hrec : receiver op with
  | some c =>
    by_cases hrow : Rows op
    · obtain ⟨k, e⟩ := tenant_even hrec hrow (hr c hrec) h
      exact ⟨.kept k, T, e, Or.inl ⟨k.tobjs, rfl⟩⟩
    · cases op <;> first | cases hrec; done | exact (hrow trivial).elim | skip
      case tAddDescendant => exact hl.elim
      case tSetDefaultNamespace d n =>
        cases hrec
        have hT := hr c rfl
        obtain ⟨t, ht, hm, h⟩ := withTenant_ok h
        simp only [MOp.apply, Mgr.tSetDefaultNamespace]
        rw [withTenant_swap ht hm hT]
        split at h
        · next hn =>
          cases h
          refine ⟨.def_ ht rfl, T.set c { t with defNs := some n }, ?_, Or.inr ⟨c, _, Or.inl rfl, rfl, rfl⟩⟩
          rw [if_pos (show ((swap T w).namespaces.get n).isSome = true from hn)]
          rfl
        · next hn =>
          cases h
          refine ⟨.kept (.refl _), T, ?_, Or.inl ⟨rfl, rfl⟩⟩
          rw [if_neg (show ¬ ((swap T w).namespaces.get n).isSome = true from hn)]
  | none =>
    cases op <;> first | (cases hrec; done) | exact hl.elim | skip
    case addTenant a =>
      obtain ⟨x, h1, rfl⟩ := Out.map_eq_ok.1 h
      unfold Mgr.addTenant at h1
      split at h1
      · cases h1
      next t ht =>
      cases h1
      refine ⟨.reg ht rfl rfl rfl, T.set a { t with managed := true }, ?_, Or.inr ⟨a, _, Or.inr rfl, rfl, rfl⟩⟩
      simp only [MOp.apply, Mgr.addTenant, show (swap T w).tobjs[a]? = some t from (ha a rfl).trans ht, Out.map_ok]
      rfl
    case addNamespace => cases h; exact ⟨.kept ⟨rfl, rfl, rfl⟩, T, rfl, Or.inl ⟨rfl, rfl⟩⟩
    case addScope => cases h; exact ⟨.kept ⟨rfl, rfl, rfl⟩, T, rfl, Or.inl ⟨rfl, rfl⟩⟩
    case addPrincipal => cases h; exact ⟨.kept ⟨rfl, rfl, rfl⟩, T, rfl, Or.inl ⟨rfl, rfl⟩⟩
    case addAttribute => cases h; exact ⟨.kept ⟨rfl, rfl, rfl⟩, T, rfl, Or.inl ⟨rfl, rfl⟩⟩
    case addRole r =>
      obtain ⟨x, h1, rfl⟩ := Out.map_eq_ok.1 h
      unfold Mgr.addRole at h1
      split at h1
      · cases h1
      next t ht =>
      cases h1
      refine ⟨.kept ⟨rfl, rfl, rfl⟩, T, ?_, Or.inl ⟨rfl, rfl⟩⟩
      simp only [MOp.apply, Mgr.addRole, show (swap T w).heap.roles[r]? = some t from ht, Out.map_ok]
      rfl
    case addAttributeGroup r =>
      obtain ⟨x, h1, rfl⟩ := Out.map_eq_ok.1 h
      unfold Mgr.addAttributeGroup at h1
      split at h1
      · cases h1
      next t ht =>
      cases h1
      refine ⟨.kept ⟨rfl, rfl, rfl⟩, T, ?_, Or.inl ⟨rfl, rfl⟩⟩
      simp only [MOp.apply, Mgr.addAttributeGroup, show (swap T w).heap.groups[r]? = some t from ht, Out.map_ok]
      rfl
    case addData d =>
      obtain ⟨k, e⟩ := addData_even (T := T) h
      exact ⟨.kept k, T, e, Or.inl ⟨k.tobjs, rfl⟩⟩
    case addPermissionsToRole r g as =>
      obtain ⟨⟨e, H⟩, h1, rfl⟩ := Out.map_eq_ok.1 h
      have e1 : MOp.apply (swap T w) (.addPermissionsToRole r g as) = .ok (swap T { w with heap := H }) := by
        have h1' : (swap T w).heap.addPermissionsToRole (swap T w).roles (swap T w).attrGroups r g as = .ok (e, H) := h1
        simp only [MOp.apply, h1', Out.map_ok]
        rfl
      refine ⟨?_, T, e1, Or.inl ⟨rfl, rfl⟩⟩
      unfold RHeap.addPermissionsToRole at h1
      split at h1
      · cases h1; exact .kept (.refl _)
      split at h1
      · cases h1; exact .kept (.refl _)
      split at h1
      · cases h1
      split at h1
      · exact .grant _ _ _ h1 rfl
      · cases h1; exact .kept (.refl _)
    case tenantChildren =>
      obtain ⟨x, h1, rfl⟩ := Out.map_eq_ok.1 h
      obtain ⟨k, e⟩ := children_even al h1
      exact ⟨.kept k, T, by simp [MOp.apply, e], Or.inl ⟨k.tobjs, rfl⟩⟩
    case implicitTenants =>
      obtain ⟨x, h1, rfl⟩ := Out.map_eq_ok.1 h
      obtain ⟨k, e⟩ := implicit_even al h1
      exact ⟨.kept k, T, by simp [MOp.apply, e], Or.inl ⟨k.tobjs, rfl⟩⟩
    case authorize =>
      obtain ⟨x, h1, rfl⟩ := Out.map_eq_ok.1 h
      obtain ⟨k, e⟩ := authorize_even al h1
      exact ⟨.kept k, T, by simp [MOp.apply, e], Or.inl ⟨k.tobjs, rfl⟩⟩

/-- A call among the tenants that are `mine` does not depend on the others. -/
theorem mask_step {mine : Nat → Bool} {w w' : Mgr} {op : MOp} (hl : Local op) (hc : Closed mine w)
    (hr : ∀ c, receiver op = some c → mine c = true) (ha : ∀ a, op = .addTenant a → mine a = true)
    (h : op.apply w = .ok w') : op.apply (mask mine w) = .ok (mask mine w') ∧ Closed mine w' := by
  obtain ⟨ef, T', e, ht⟩ := local_even (T := maskT mine w.tobjs) hl (fun c h => maskT_get (hr c h))
    (fun a h => maskT_get (ha a h)) hc.alike h
  constructor
  · rcases ht with ⟨h1, rfl⟩ | ⟨c, t, hor, h1, rfl⟩
    · rw [mask, mask, h1]; exact e
    · have hm : mine c = true := hor.elim (hr c) (ha c)
      rw [mask, mask, h1, maskT_set hm]; exact e
  · clear e ht h
    cases ef with
    | kept k => exact hc.kept k
    | @reg a t ht e h1 h2 =>
      refine ⟨fun id c hg => ?_, fun c u hm hg => ?_⟩
      · rw [h2] at hg
        unfold register at hg
        split at hg
        · exact hc.reg id c hg
        · rw [GoMap.get_set] at hg
          split at hg
          · cases hg; exact ha _ rfl
          · exact hc.reg id c hg
      · rw [e, List.getElem?_set] at hg
        split at hg
        · next hac =>
          subst hac
          split at hg
          · cases hg; exact hc.desc _ t hm ht
          · cases hg
        · exact hc.desc c u hm hg
    | @def_ d n t ht e =>
      subst e
      refine ⟨hc.reg, fun c u hm hg => ?_⟩
      rw [List.getElem?_set] at hg
      split at hg
      · next hac =>
        subst hac
        split at hg
        · cases hg; exact hc.desc _ t hm ht
        · cases hg
      · exact hc.desc c u hm hg
    | grant a e1 h1 hh e2 => subst e2; exact ⟨hc.reg, hc.desc⟩

/-! ### The program -/

theorem seen_back {k : Nat} {o : Option TObj} {t : TenantObj} : TObj.seen k (TObj.back k o t) = t := by
  obtain ⟨id, desc, defNs, managed⟩ := t
  simp only [TObj.seen, TObj.back, TenantObj.mk.injEq, true_and]
  cases managed with
  | true => simp
  | false =>
    simp only [Bool.false_eq_true, if_false, decide_eq_false_iff_not]
    intro h
    rw [Option.filter_eq_some_iff] at h
    simp at h

theorem back_seen {k : Nat} {o : TObj} : TObj.back k (some o) (TObj.seen k o) = o := by
  obtain ⟨id, desc, defNs, manager⟩ := o
  simp only [TObj.seen, TObj.back, TObj.mk.injEq, true_and, Option.bind_some, decide_eq_true_eq]
  cases manager with
  | none => simp
  | some j =>
    by_cases h : j = k
    · simp [h]
    · simp [h, Option.filter]

theorem view_put {W : World} {k : Nat} {m : Mgr} (hk : k < W.mgrs.length) : (W.put k m).view k = some m := by
  have e : (List.mapIdx (fun i t => TObj.back k W.objs[i]? t) m.tobjs).map (TObj.seen k) = m.tobjs := by
    apply List.ext_getElem?
    intro i
    rw [List.getElem?_map, List.getElem?_mapIdx]
    cases m.tobjs[i]? with
    | none => rfl
    | some t => simp [seen_back]
  simp only [World.view, World.put, List.getElem?_set_self hk, Option.map_some, e]

theorem put_objs {W : World} {k : Nat} {m : Mgr} (e : m.tobjs = W.objs.map (TObj.seen k)) : (W.put k m).objs = W.objs := by
  apply List.ext_getElem?
  intro i
  simp only [World.put, e, List.getElem?_mapIdx, List.getElem?_map]
  cases W.objs[i]? with
  | none => rfl
  | some o => simp [back_seen]

theorem put_objs_set {W : World} {k c : Nat} {m : Mgr} {t : TenantObj} (e : m.tobjs = (W.objs.map (TObj.seen k)).set c t) :
    (W.put k m).objs = W.objs.set c (TObj.back k W.objs[c]? t) := by
  apply List.ext_getElem?
  intro i
  simp only [World.put, e, List.getElem?_mapIdx, List.getElem?_set, List.length_map]
  split
  · next h => subst h; split <;> simp
  · rw [List.getElem?_map]
    cases W.objs[i]? with
    | none => rfl
    | some o => simp [back_seen]

theorem within_ok {W W' : World} {k : Nat} {op : MOp} (h : W.within k op = .ok W') :
    ∃ m m', k < W.mgrs.length ∧ W.view k = some m ∧ op.apply m = .ok m' ∧ W' = W.put k m' := by
  unfold World.within at h
  split at h
  · cases h
  · next m hm =>
    obtain ⟨m', h1, rfl⟩ := Out.map_eq_ok.1 h
    refine ⟨m, m', ?_, hm, h1, rfl⟩
    simp only [World.view, Option.map_eq_some_iff] at hm
    obtain ⟨x, hx, _⟩ := hm
    exact (List.getElem?_eq_some_iff.1 hx).1

theorem view_tobjs {W : World} {k : Nat} {m : Mgr} (h : W.view k = some m) :
    m.tobjs = W.objs.map (TObj.seen k) ∧ m.heap = W.heap ∧ ∃ m0, W.mgrs[k]? = some m0 ∧ m0.tenants = m.tenants := by
  simp only [World.view, Option.map_eq_some_iff] at h
  obtain ⟨x, hx, rfl⟩ := h
  exact ⟨rfl, rfl, x, hx, rfl⟩

/-- What a call within a manager does to the program. -/
inductive WEffect (k : Nat) (W W' : World) : MOp → Prop
  | kept {op} (e : W'.objs = W.objs) (h : W'.heap = W.heap) : WEffect k W W' op
  | reg {a o} (ha : W.objs[a]? = some o) (e : W'.objs = W.objs.set a { o with manager := some k }) (h : W'.heap = W.heap) :
      WEffect k W W' (.addTenant a)
  | def_ {c n o} (hc : W.objs[c]? = some o) (e : W'.objs = W.objs.set c { o with defNs := some n }) (h : W'.heap = W.heap) :
      WEffect k W W' (.tSetDefaultNamespace c n)
  | grant {r g as} (a : Nat) (e : Option Err) (hh : W.heap.addPermission a g as = .ok (e, W'.heap))
      (e : W'.objs = W.objs) : WEffect k W W' (.addPermissionsToRole r g as)

theorem within_effect {W W' : World} {k : Nat} {op : MOp} (hl : Local op) (h : W.within k op = .ok W') :
    WEffect k W W' op ∧ ∀ j, j ≠ k → W'.mgrs[j]? = W.mgrs[j]? := by
  obtain ⟨m, m', hk, hm, ha, rfl⟩ := within_ok h
  refine ⟨?_, fun j hj => List.getElem?_set_ne (fun e => hj e.symm)⟩
  obtain ⟨e1, e2, _⟩ := view_tobjs hm
  have ef := (local_even (T := m.tobjs) hl (fun _ _ => rfl) (fun _ _ => rfl) (fun _ _ _ _ _ _ => rfl) ha).1
  cases ef with
  | kept kp => exact .kept (put_objs (kp.tobjs.trans e1)) (kp.heap.trans e2)
  | @reg a t ht e h1 h2 =>
    rw [e1, List.getElem?_map, Option.map_eq_some_iff] at ht
    obtain ⟨o, ho, rfl⟩ := ht
    refine .reg ho ?_ (h1.trans e2)
    rw [put_objs_set (c := a) (t := { TObj.seen k o with managed := true }) (by rw [e, e1])]
    rfl
  | @def_ c n t ht e =>
    subst e
    rw [e1, List.getElem?_map, Option.map_eq_some_iff] at ht
    obtain ⟨o, ho, rfl⟩ := ht
    refine .def_ ho ?_ e2
    rw [put_objs_set (c := c) (t := { TObj.seen k o with defNs := some n }) (by rw [e1])]
    have := back_seen (k := k) (o := o)
    rw [ho]
    congr 1
    show ({ TObj.back k (some o) (TObj.seen k o) with defNs := some n } : TObj) = _
    rw [this]
  | grant a e h1 hh e' =>
    subst e'
    exact .grant a e (by rw [← e2]; exact hh) (put_objs e1)

theorem through_ok {W W' : World} {c : Nat} {op : MOp} (h : W.through c op = .ok W') :
    ∃ o k, W.objs[c]? = some o ∧ o.manager = some k ∧ W.within k op = .ok W' := by
  unfold World.through at h
  split at h
  · cases h
  next o ho =>
  split at h
  · cases h
  next k hk => exact ⟨o, k, ho, hk, h⟩

/-- `mine` are tenants of manager `k` only, and no others are. -/
structure Good (k : Nat) (mine : Nat → Bool) (W : World) : Prop where
  lt : k < W.mgrs.length
  man : ∀ c o, W.objs[c]? = some o → mine c = true → ∀ j, o.manager = some j → j = k
  ours : ∀ c o, W.objs[c]? = some o → o.manager = some k → mine c = true
  desc : ∀ c o, W.objs[c]? = some o → mine c = true → ∀ e ∈ o.desc, mine e.2 = true
  reg : ∀ m, W.mgrs[k]? = some m → ∀ id c, m.tenants.get id = some c → mine c = true

theorem Good.closed {k : Nat} {mine : Nat → Bool} {W : World} (g : Good k mine W) {v : Mgr} (h : W.view k = some v) :
    Closed mine v := by
  obtain ⟨e1, _, m0, h0, e3⟩ := view_tobjs h
  refine ⟨fun id c hc => g.reg m0 h0 id c (e3 ▸ hc), fun c t hm ht => ?_⟩
  rw [e1, List.getElem?_map, Option.map_eq_some_iff] at ht
  obtain ⟨o, ho, rfl⟩ := ht
  exact g.desc c o ho hm

theorem Good.view {k : Nat} {mine : Nat → Bool} {W : World} (g : Good k mine W) : ∃ v, W.view k = some v :=
  ⟨_, by simp [World.view, List.getElem?_eq_getElem g.lt]; rfl⟩

/-- A change of one object. -/
theorem Good.set {k : Nat} {mine : Nat → Bool} {W W' : World} (g : Good k mine W) {c : Nat} {o o' : TObj}
    (ho : W.objs[c]? = some o) (e : W'.objs = W.objs.set c o') (hm : W'.mgrs = W.mgrs)
    (h1 : mine c = true → ∀ j, o'.manager = some j → j = k) (h2 : o'.manager = some k → mine c = true)
    (h3 : mine c = true → ∀ e ∈ o'.desc, mine e.2 = true) : Good k mine W' := by
  have key : ∀ d u, W'.objs[d]? = some u → (d = c ∧ u = o') ∨ W.objs[d]? = some u := by
    intro d u hu
    rw [e, List.getElem?_set] at hu
    split at hu
    · next h => subst h; split at hu
                · cases hu; exact Or.inl ⟨rfl, rfl⟩
                · cases hu
    · exact Or.inr hu
  refine ⟨hm ▸ g.lt, fun d u hu hd => ?_, fun d u hu => ?_, fun d u hu hd => ?_, fun m h => g.reg m (hm ▸ h)⟩
  · rcases key d u hu with ⟨rfl, rfl⟩ | h
    · exact h1 hd
    · exact g.man d u h hd
  · rcases key d u hu with ⟨rfl, rfl⟩ | h
    · exact h2
    · exact g.ours d u h
  · rcases key d u hu with ⟨rfl, rfl⟩ | h
    · exact h3 hd
    · exact g.desc d u h hd

theorem Good.mgrs {k : Nat} {mine : Nat → Bool} {W W' : World} (g : Good k mine W) (e : W'.objs = W.objs)
    (hk : k < W'.mgrs.length)
    (h : ∀ m, W'.mgrs[k]? = some m → ∀ id c, m.tenants.get id = some c → mine c = true) : Good k mine W' :=
  ⟨hk, fun c o ho => g.man c o (e ▸ ho), fun c o ho => g.ours c o (e ▸ ho), fun c o ho => g.desc c o (e ▸ ho), h⟩

/-- A call within manager `k` on tenants that are `mine`. -/
theorem own_step {k : Nat} {mine : Nat → Bool} {W W' : World} {op : MOp} (g : Good k mine W) (hl : Local op)
    (hr : ∀ c, receiver op = some c → mine c = true) (ha : ∀ a, op = .addTenant a → mine a = true)
    (h : W.within k op = .ok W') : Good k mine W' ∧ ∃ v v', W.view k = some v ∧ W'.view k = some v' ∧
      op.apply (mask mine v) = .ok (mask mine v') := by
  have ef := (within_effect hl h).1
  obtain ⟨m, m', hk, hm, hap, rfl⟩ := within_ok h
  obtain ⟨e, cl⟩ := mask_step hl (g.closed hm) hr ha hap
  refine ⟨?_, m, m', hm, view_put hk, e⟩
  have hlt : k < (W.put k m').mgrs.length := by simpa [World.put] using hk
  have hreg : ∀ x, (W.put k m').mgrs[k]? = some x → ∀ id c, x.tenants.get id = some c → mine c = true := by
    intro x hx
    simp only [World.put, List.getElem?_set_self hk] at hx
    cases hx
    exact cl.reg
  cases ef with
  | kept e1 _ => exact g.mgrs e1 hlt hreg
  | grant a e _ e1 => exact g.mgrs e1 hlt hreg
  | @reg a o ho e1 _ =>
    have hma := ha a rfl
    refine Good.mgrs (W := { W with objs := (W.put k m').objs }) (g.set ho e1 rfl ?_ ?_ ?_) rfl hlt hreg
    · intro _ j hj; cases hj; rfl
    · intro _; exact hma
    · intro hc; exact g.desc a o ho hc
  | @def_ c n o ho e1 _ =>
    refine Good.mgrs (W := { W with objs := (W.put k m').objs }) (g.set ho e1 rfl ?_ ?_ ?_) rfl hlt hreg
    · intro hc; exact g.man c o ho hc
    · intro h; exact g.ours c o ho h
    · intro hc; exact g.desc c o ho hc

/-- The view of `k` only changes in the heap. -/
def Unseen (k : Nat) (mine : Nat → Bool) (W W' : World) : Prop :=
  ∃ v v', W.view k = some v ∧ W'.view k = some v' ∧ mask mine v' = { mask mine v with heap := W'.heap }

theorem unseen_of {k : Nat} {mine : Nat → Bool} {W W' : World} (g : Good k mine W) (hm : W'.mgrs[k]? = W.mgrs[k]?)
    (e : maskT mine (W'.objs.map (TObj.seen k)) = maskT mine (W.objs.map (TObj.seen k))) : Unseen k mine W W' := by
  obtain ⟨x, hx⟩ : ∃ x, W.mgrs[k]? = some x := ⟨_, List.getElem?_eq_getElem g.lt⟩
  refine ⟨_, _, by simp only [World.view, hx, Option.map_some]; rfl, by simp only [World.view, hm, hx, Option.map_some]; rfl, ?_⟩
  simp only [mask, swap, e]

/-- A call within another manager, on tenants that are not `mine`. -/
theorem other_step {k j : Nat} {mine : Nat → Bool} {W W' : World} {op : MOp} (g : Good k mine W) (hj : j ≠ k)
    (hl : Local op) (hr : ∀ c, receiver op = some c → mine c = false) (ha : ∀ a, op = .addTenant a → mine a = false)
    (h : W.within j op = .ok W') : Good k mine W' ∧ Unseen k mine W W' ∧
      (W'.heap = W.heap ∨ ∃ r g as a e, op = .addPermissionsToRole r g as ∧ W.heap.addPermission a g as = .ok (e, W'.heap)) := by
  obtain ⟨ef, hmg⟩ := within_effect hl h
  have hk := hmg k (fun e => hj e.symm)
  have hlt : k < W'.mgrs.length := by
    have := List.getElem?_eq_getElem g.lt
    rw [← hk] at this
    exact (List.getElem?_eq_some_iff.1 this).1
  have hreg : ∀ m, W'.mgrs[k]? = some m → ∀ id c, m.tenants.get id = some c → mine c = true :=
    fun m hm => g.reg m (hk ▸ hm)
  cases ef with
  | kept e1 e2 => exact ⟨g.mgrs e1 hlt hreg, unseen_of g hk (by rw [e1]), Or.inl e2⟩
  | grant a e hh e1 => exact ⟨g.mgrs e1 hlt hreg, unseen_of g hk (by rw [e1]), Or.inr ⟨_, _, _, a, e, rfl, hh⟩⟩
  | @reg a o ho e1 e2 =>
    have hma := ha a rfl
    refine ⟨Good.mgrs (W := { W with objs := W'.objs }) (g.set ho e1 rfl ?_ ?_ ?_) rfl hlt hreg, unseen_of g hk ?_, Or.inl e2⟩
    · intro h; rw [hma] at h; cases h
    · intro h; cases h; exact absurd rfl hj
    · intro h; rw [hma] at h; cases h
    · rw [e1, List.map_set, maskT_set_other hma (t := TObj.seen k o) (by rw [List.getElem?_map, ho]; rfl)]
      rfl
  | @def_ c n o ho e1 e2 =>
    have hma := hr c rfl
    refine ⟨Good.mgrs (W := { W with objs := W'.objs }) (g.set ho e1 rfl ?_ ?_ ?_) rfl hlt hreg, unseen_of g hk ?_, Or.inl e2⟩
    · intro h; rw [hma] at h; cases h
    · intro h; exact g.ours c o ho h
    · intro h; rw [hma] at h; cases h
    · rw [e1, List.map_set, maskT_set_other hma (t := TObj.seen k o) (by rw [List.getElem?_map, ho]; rfl)]
      rfl

/-- The step of `AddDescendant` that links the objects. -/
def linked (W : World) (c d : Nat) (co dob : TObj) : World :=
  if (co.desc.get dob.id).isSome then W
  else { W with objs := W.objs.set c { co with desc := co.desc.set dob.id d } }

theorem addDescendant_cons (W : World) (c d : Nat) (ds : List Nat) {W' : World} (h : W.addDescendant c (d :: ds) = .ok W') :
    ∃ co dob, W.objs[c]? = some co ∧ W.objs[d]? = some dob ∧
      ((co.defNs = none ∧ (linked W c d co dob).addDescendant c ds = .ok W') ∨
        ∃ n W2 W3, co.defNs = some n ∧ (linked W c d co dob).through d (.tAddNamespace d n) = .ok W2 ∧
          W2.through d (.tSetDefaultNamespace d n) = .ok W3 ∧ W3.addDescendant c ds = .ok W') := by
  simp only [World.addDescendant] at h
  split at h
  · next co dob hc hd =>
    refine ⟨co, dob, hc, hd, ?_⟩
    split at h
    · next hn => exact Or.inl ⟨hn, h⟩
    · next n hn =>
      obtain ⟨W2, h2, h⟩ := Out.bind_eq_ok.1 h
      obtain ⟨W3, h3, h4⟩ := Out.bind_eq_ok.1 h
      exact Or.inr ⟨n, W2, W3, hn, h2, h3, h4⟩
  · cases h

theorem mem_of_set {V : Type} : ∀ {m : GoMap Str V} {k : Str} {x : V} {e : Str × V}, e ∈ m.set k x → e = (k, x) ∨ e ∈ m
  | [], k, x, e, h => by simp only [GoMap.set, List.mem_singleton] at h; exact Or.inl h
  | (k0, x0) :: m, k, x, e, h => by
    simp only [GoMap.set] at h
    split at h
    · rcases List.mem_cons.1 h with h | h
      · exact Or.inl h
      · exact Or.inr (List.mem_cons_of_mem _ h)
    · rcases List.mem_cons.1 h with h | h
      · exact Or.inr (List.mem_cons.2 (Or.inl h))
      · exact (mem_of_set h).imp id (List.mem_cons_of_mem _)

theorem linked_good {k : Nat} {mine : Nat → Bool} {W : World} (g : Good k mine W) {c d : Nat} {co dob : TObj}
    (hc : W.objs[c]? = some co) (hcd : mine c = true → mine d = true) : Good k mine (linked W c d co dob) := by
  unfold linked
  split
  · exact g
  · refine g.set hc rfl rfl (g.man c co hc) (g.ours c co hc) fun hm e he => ?_
    rcases mem_of_set he with rfl | h
    · exact hcd hm
    · exact g.desc c co hc hm e h

theorem view_obj {W : World} {k c : Nat} {o : TObj} {v : Mgr} {mine : Nat → Bool} (hv : W.view k = some v)
    (hm : mine c = true) (ho : W.objs[c]? = some o) : (mask mine v).tobjs[c]? = some (TObj.seen k o) := by
  rw [show (mask mine v).tobjs[c]? = v.tobjs[c]? from maskT_get hm, (view_tobjs hv).1, List.getElem?_map, ho]
  rfl

theorem desc_own {k : Nat} {mine : Nat → Bool} {c : Nat} (hc : mine c = true) : ∀ {ds : List Nat} {W W' : World},
    Good k mine W → (∀ d ∈ ds, mine d = true) → W.addDescendant c ds = .ok W' →
    Good k mine W' ∧ ∃ v v', W.view k = some v ∧ W'.view k = some v' ∧
      (mask mine v).tAddDescendant c ds = .ok (mask mine v')
  | [], W, W', g, _, h => by
    cases h
    obtain ⟨v, hv⟩ := g.view
    exact ⟨g, v, v, hv, hv, rfl⟩
  | d :: ds, W, W', g, hds, h => by
    obtain ⟨co, dob, ho, hod, hk⟩ := addDescendant_cons W c d ds h
    have hd := hds d List.mem_cons_self
    obtain ⟨v, hv⟩ := g.view
    have g1 := linked_good (d := d) (dob := dob) g ho (fun _ => hd)
    obtain ⟨v1, hv1⟩ := g1.view
    have e1 : mask mine v1 = if (co.desc.get dob.id).isSome then mask mine v
        else { mask mine v with tobjs := (mask mine v).tobjs.set c { TObj.seen k co with desc := co.desc.set dob.id d } } := by
      unfold linked at hv1
      split at hv1
      · next hs => rw [hv] at hv1; cases hv1; rw [if_pos hs]
      next hs =>
      · have ex : ∀ (x : Mgr), W.mgrs[k]? = some x → v = { x with tobjs := W.objs.map (TObj.seen k), heap := W.heap } ∧
            v1 = { x with tobjs := (W.objs.set c { co with desc := co.desc.set dob.id d }).map (TObj.seen k), heap := W.heap } := by
          intro x hx
          simp only [World.view, hx, Option.map_some, Option.some.injEq] at hv hv1
          exact ⟨hv.symm, hv1.symm⟩
        obtain ⟨rfl, rfl⟩ := ex _ (List.getElem?_eq_getElem g.lt)
        rw [if_neg hs]
        simp only [mask, swap, List.map_set, maskT_set hc]
        rfl
    have hcv := view_obj hv hc ho
    have hdv := view_obj hv hd hod
    rcases hk with ⟨hn, h1⟩ | ⟨n, W2, W3, hn, h2, h3, h4⟩
    · obtain ⟨gg, w1, w2, a1, a2, a3⟩ := desc_own hc g1 (fun x hx => hds x (List.mem_cons_of_mem _ hx)) h1
      rw [hv1] at a1; cases a1
      refine ⟨gg, v, w2, hv, a2, ?_⟩
      rw [e1] at a3
      simp only [Mgr.tAddDescendant, hcv, hdv]
      show (match co.defNs with | none => _ | some n => _) = _
      rw [hn]
      exact a3
    · obtain ⟨o2, k2, b1, b2, b3⟩ := through_ok h2
      cases g1.man d o2 b1 hd k2 b2
      obtain ⟨g2, w1, w2, a1, a2, a3⟩ := own_step (op := .tAddNamespace d n) g1 trivial (fun x hx => by cases hx; exact hd) (fun _ hx => by cases hx) b3
      rw [hv1] at a1; cases a1
      obtain ⟨o3, k3, b1, b2, b3⟩ := through_ok h3
      cases g2.man d o3 b1 hd k3 b2
      obtain ⟨g3, y1, y2, c1, c2, c3⟩ := own_step (op := .tSetDefaultNamespace d n) g2 trivial (fun x hx => by cases hx; exact hd) (fun _ hx => by cases hx) b3
      rw [a2] at c1; cases c1
      obtain ⟨gg, z1, z2, d1, d2, d3⟩ := desc_own hc g3 (fun x hx => hds x (List.mem_cons_of_mem _ hx)) h4
      rw [c2] at d1; cases d1
      refine ⟨gg, v, z2, hv, d2, ?_⟩
      rw [e1] at a3
      simp only [Mgr.tAddDescendant, hcv, hdv]
      show (match co.defNs with | none => _ | some n => _) = _
      rw [hn]
      exact Out.bind_eq_ok.2 ⟨_, a3, Out.bind_eq_ok.2 ⟨_, c3, d3⟩⟩

theorem desc_other {k : Nat} {mine : Nat → Bool} {c : Nat} (hc : mine c = false) : ∀ {ds : List Nat} {W W' : World},
    Good k mine W → (∀ d ∈ ds, mine d = false) → W.addDescendant c ds = .ok W' →
    Good k mine W' ∧ ∃ v v', W.view k = some v ∧ W'.view k = some v' ∧ mask mine v' = mask mine v
  | [], W, W', g, _, h => by
    cases h
    obtain ⟨v, hv⟩ := g.view
    exact ⟨g, v, v, hv, hv, rfl⟩
  | d :: ds, W, W', g, hds, h => by
    obtain ⟨co, dob, ho, hod, hk⟩ := addDescendant_cons W c d ds h
    have hd := hds d List.mem_cons_self
    have g1 := linked_good (d := d) (dob := dob) g ho (fun h => by rw [hc] at h; cases h)
    obtain ⟨v, v1, hv, hv1, e1⟩ : ∃ v v1, W.view k = some v ∧ (linked W c d co dob).view k = some v1 ∧
        mask mine v1 = mask mine v := by
      unfold linked
      split
      · obtain ⟨v, hv⟩ := g.view
        exact ⟨v, v, hv, hv, rfl⟩
      · obtain ⟨v, v', h1, h2, h3⟩ := unseen_of (W' := { W with objs := W.objs.set c { co with desc := co.desc.set dob.id d } })
          g rfl (by
            simp only [List.map_set]
            rw [maskT_set_other hc (t := TObj.seen k co) (by rw [List.getElem?_map, ho]; rfl)]
            rfl)
        refine ⟨v, v', h1, h2, h3.trans ?_⟩
        have := (view_tobjs h1).2.1
        rw [← this]
        rfl
    have step : ∀ {W1 W2 : World} {op : MOp}, Good k mine W1 → Local op → (∀ c, receiver op = some c → mine c = false) →
        (∀ a, op ≠ .addTenant a) → (∀ r g as, op ≠ .addPermissionsToRole r g as) → receiver op = some d →
        W1.through d op = .ok W2 → Good k mine W2 ∧ ∃ v v', W1.view k = some v ∧ W2.view k = some v' ∧ mask mine v' = mask mine v := by
      intro W1 W2 op g hl hr ha hp hrec h
      obtain ⟨o2, k2, b1, b2, b3⟩ := through_ok h
      have hne : k2 ≠ k := by rintro rfl; have := g.ours d o2 b1 b2; rw [hd] at this; cases this
      obtain ⟨g2, ⟨v, v', h1, h2, h3⟩, hh⟩ := other_step g hne hl hr (fun a e => (ha a e).elim) b3
      refine ⟨g2, v, v', h1, h2, h3.trans ?_⟩
      rcases hh with hh | ⟨r, gg, as, _, _, e, _⟩
      · rw [hh, ← (view_tobjs h1).2.1]; rfl
      · exact (hp _ _ _ e).elim
    rcases hk with ⟨hn, h1⟩ | ⟨n, W2, W3, hn, h2, h3, h4⟩
    · obtain ⟨gg, w1, w2, a1, a2, a3⟩ := desc_other hc g1 (fun x hx => hds x (List.mem_cons_of_mem _ hx)) h1
      rw [hv1] at a1; cases a1
      exact ⟨gg, v, w2, hv, a2, a3.trans e1⟩
    · obtain ⟨g2, w1, w2, a1, a2, a3⟩ := step (op := .tAddNamespace d n) g1 trivial (fun x hx => by cases hx; exact hd)
        (fun _ h => by cases h) (fun _ _ _ h => by cases h) rfl h2
      rw [hv1] at a1; cases a1
      obtain ⟨g3, y1, y2, c1, c2, c3⟩ := step (op := .tSetDefaultNamespace d n) g2 trivial (fun x hx => by cases hx; exact hd)
        (fun _ h => by cases h) (fun _ _ _ h => by cases h) rfl h3
      rw [a2] at c1; cases c1
      obtain ⟨gg, z1, z2, d1, d2, d3⟩ := desc_other hc g3 (fun x hx => hds x (List.mem_cons_of_mem _ hx)) h4
      rw [c2] at d1; cases d1
      exact ⟨gg, v, z2, hv, d2, d3.trans (c3.trans (a3.trans e1))⟩

/-! ### Histories -/

/-- The calls that make up the history of manager `k`, given which tenants are its own: the calls on it and on its
tenants, and those that reach no manager. -/
def Belongs (k : Nat) (mine : Nat → Bool) (j : Nat) (op : MOp) : Prop :=
  match op with
  | .role _ => True
  | .newTenant _ => True
  | op =>
    match receiver op with
    | some c => mine c = true
    | none => j = k

/-- `ops` is what manager `k` sees of the calls: those that belong to it, and the grants to roles that other managers make
(`AddPermissionsToRole`), as calls on the role itself. -/
inductive Projects (k : Nat) (mine : Nat → Bool) : List (Nat × MOp) → List MOp → Prop
  | nil : Projects k mine [] []
  | keep {j op calls ops} : Belongs k mine j op → Projects k mine calls ops → Projects k mine ((j, op) :: calls) (op :: ops)
  | drop {j op calls ops} : ¬ Belongs k mine j op → Projects k mine calls ops → Projects k mine ((j, op) :: calls) ops
  | grant {j r g as a calls ops} : ¬ Belongs k mine j (.addPermissionsToRole r g as) → Projects k mine calls ops →
      Projects k mine ((j, .addPermissionsToRole r g as) :: calls) (.role (.addPerm a g as) :: ops)

/-- No tenant is shared: what is added to manager `k` is its own, what is added to another one is not, and descendants
belong where their ancestor belongs. -/
def Fits (k : Nat) (mine : Nat → Bool) (j : Nat) (op : MOp) : Prop :=
  match op with
  | .addTenant a => mine a = true ↔ j = k
  | .tAddDescendant c ds => ∀ d ∈ ds, mine d = mine c
  | _ => True

theorem call_local {W : World} {j : Nat} {op : MOp} (hl : Local op) {W' : World} (h : W.call j op = .ok W') :
    (W' = W ∧ ((∃ c p m, op = .tAddPrincipal c p m []) ∨ ∃ c p m, op = .tAssignScopes c p m [])) ∨
    (∃ c, receiver op = some c ∧ W.through c op = .ok W') ∨ (receiver op = none ∧ W.within j op = .ok W') := by
  cases op
  case tAddPrincipal c p m rs =>
    cases rs with
    | nil => cases h; exact Or.inl ⟨rfl, Or.inl ⟨c, p, m, rfl⟩⟩
    | cons r rs => exact Or.inr (Or.inl ⟨c, rfl, h⟩)
  case tAssignScopes c p m rs =>
    cases rs with
    | nil => cases h; exact Or.inl ⟨rfl, Or.inr ⟨c, p, m, rfl⟩⟩
    | cons r rs => exact Or.inr (Or.inl ⟨c, rfl, h⟩)
  all_goals first
    | exact hl.elim
    | exact Or.inr (Or.inl ⟨_, rfl, h⟩)
    | exact Or.inr (Or.inr ⟨rfl, h⟩)

theorem call_step {k : Nat} {mine : Nat → Bool} {W W' : World} {j : Nat} {op : MOp} (g : Good k mine W)
    (hf : Fits k mine j op) (h : W.call j op = .ok W') :
    Good k mine W' ∧ ∃ v v', W.view k = some v ∧ W'.view k = some v' ∧
      ((Belongs k mine j op ∧ op.apply (mask mine v) = .ok (mask mine v')) ∨
       (¬ Belongs k mine j op ∧ mask mine v' = mask mine v) ∨
       (∃ r gr as a, op = .addPermissionsToRole r gr as ∧ ¬ Belongs k mine j op ∧
         MOp.apply (mask mine v) (.role (.addPerm a gr as)) = .ok (mask mine v'))) := by
  obtain ⟨v, hv⟩ := g.view
  obtain ⟨x, hx⟩ : ∃ x, W.mgrs[k]? = some x := ⟨_, List.getElem?_eq_getElem g.lt⟩
  have hvx := hv
  simp only [World.view, hx, Option.map_some, Option.some.injEq] at hvx
  by_cases hl : Local op
  · rcases call_local hl h with ⟨rfl, ho⟩ | ⟨c, hrec, ht⟩ | ⟨hrec, hw⟩
    · refine ⟨g, v, v, hv, hv, ?_⟩
      by_cases hb : Belongs k mine j op
      · exact Or.inl ⟨hb, by rcases ho with ⟨c, p, m, rfl⟩ | ⟨c, p, m, rfl⟩ <;> rfl⟩
      · exact Or.inr (Or.inl ⟨hb, rfl⟩)
    · obtain ⟨o, j', b1, b2, b3⟩ := through_ok ht
      have hna : ∀ a, op ≠ .addTenant a := by rintro a rfl; cases hrec
      have hnp : ∀ r g as, op ≠ .addPermissionsToRole r g as := by rintro r g as rfl; cases hrec
      have hbe : Belongs k mine j op ↔ mine c = true := by
        cases op <;> first | (cases hrec; done) | (cases hrec; exact Iff.rfl)
      cases hm : mine c
      · have hne : j' ≠ k := by rintro rfl; have := g.ours c o b1 b2; rw [hm] at this; cases this
        obtain ⟨g2, ⟨w, w', h1, h2, h3⟩, hh⟩ := other_step g hne hl
          (fun d hd => by rw [hrec] at hd; cases hd; exact hm) (fun a e => (hna a e).elim) b3
        refine ⟨g2, w, w', h1, h2, Or.inr (Or.inl ⟨by rw [hbe, hm]; simp, h3.trans ?_⟩)⟩
        rcases hh with hh | ⟨r, gg, as, _, _, e, _⟩
        · rw [hh, ← (view_tobjs h1).2.1]; rfl
        · exact (hnp _ _ _ e).elim
      · cases g.man c o b1 hm j' b2
        obtain ⟨g2, w, w', h1, h2, h3⟩ := own_step g hl
          (fun d hd => by rw [hrec] at hd; cases hd; exact hm) (fun a e => (hna a e).elim) b3
        exact ⟨g2, w, w', h1, h2, Or.inl ⟨hbe.2 hm, h3⟩⟩
    · have hbe : Belongs k mine j op ↔ j = k := by
        cases op <;> first | (cases hrec; done) | exact Iff.rfl | exact hl.elim
      by_cases hjk : j = k
      · subst hjk
        obtain ⟨g2, w, w', h1, h2, h3⟩ := own_step g hl
          (fun d hd => by rw [hrec] at hd; cases hd) (fun a e => by subst e; exact hf.2 rfl) hw
        exact ⟨g2, w, w', h1, h2, Or.inl ⟨hbe.2 rfl, h3⟩⟩
      · obtain ⟨g2, ⟨w, w', h1, h2, h3⟩, hh⟩ := other_step g hjk hl
          (fun d hd => by rw [hrec] at hd; cases hd) (fun a e => by
            subst e
            cases hm : mine a
            · rfl
            · exact (hjk (hf.1 hm)).elim) hw
        refine ⟨g2, w, w', h1, h2, ?_⟩
        rcases hh with hh | ⟨r, gg, as, a, er, rfl, e⟩
        · exact Or.inr (Or.inl ⟨fun hb => hjk (hbe.1 hb), by rw [h3, hh, ← (view_tobjs h1).2.1]; rfl⟩)
        · refine Or.inr (Or.inr ⟨r, gg, as, a, rfl, fun hb => hjk (hbe.1 hb), ?_⟩)
          rw [← (view_tobjs h1).2.1] at e
          have e' : (mask mine w).heap.addPermission a gg as = .ok (er, W'.heap) := e
          simp only [MOp.apply, RoleOp.apply, e', Out.map_ok, h3]
  · cases op <;> first | exact (hl trivial).elim | skip
    case role op =>
      obtain ⟨H, h1, rfl⟩ := Out.map_eq_ok.1 h
      refine ⟨g.mgrs rfl g.lt g.reg, v, { v with heap := H }, hv, by rw [← hvx]; simp only [World.view, hx, Option.map_some], Or.inl ⟨trivial, ?_⟩⟩
      have h1' : op.apply (mask mine v).heap = .ok H := by
        show op.apply v.heap = .ok H
        rw [(view_tobjs hv).2.1]; exact h1
      simp only [MOp.apply, h1', Out.map_ok]
      rfl
    case newTenant id =>
      cases h
      have hget : ∀ (c : Nat) (o : TObj), (W.objs ++ [({ id := id } : TObj)])[c]? = some o →
          W.objs[c]? = some o ∨ o = { id := id } := by
        intro c o ho
        rw [List.getElem?_append] at ho
        split at ho
        · exact Or.inl ho
        · rw [List.getElem?_singleton] at ho
          split at ho
          · cases ho; exact Or.inr rfl
          · cases ho
      refine ⟨⟨g.lt, ?_, ?_, ?_, g.reg⟩, v, { v with tobjs := v.tobjs ++ [{ id := id }] }, hv, ?_, Or.inl ⟨trivial, ?_⟩⟩
      · intro c o ho hm
        rcases hget c o ho with h | rfl
        · exact g.man c o h hm
        · nofun
      · intro c o ho
        rcases hget c o ho with h | rfl
        · exact g.ours c o h
        · nofun
      · intro c o ho hm
        rcases hget c o ho with h | rfl
        · exact g.desc c o h hm
        · intro e he; cases he
      · rw [← hvx]
        simp only [World.view, hx, Option.map_some, List.map_append, List.map_cons, List.map_nil]
        simp [TObj.seen]
      · simp only [MOp.apply, Mgr.newTenant, mask, swap, maskT, List.mapIdx_append, List.mapIdx_cons, List.mapIdx_nil]
        split <;> rfl
    case tAddDescendant c ds =>
      have h : W.addDescendant c ds = .ok W' := h
      cases hm : mine c
      · obtain ⟨g2, w, w', h1, h2, h3⟩ := desc_other hm g (fun d hd => (hf d hd).trans hm) h
        have hb : ¬ Belongs k mine j (.tAddDescendant c ds) := by
          intro hb
          have : mine c = true := hb
          rw [hm] at this; cases this
        exact ⟨g2, w, w', h1, h2, Or.inr (Or.inl ⟨hb, h3⟩)⟩
      · obtain ⟨g2, w, w', h1, h2, h3⟩ := desc_own hm g (fun d hd => (hf d hd).trans hm) h
        exact ⟨g2, w, w', h1, h2, Or.inl ⟨hm, h3⟩⟩

theorem run_step {k : Nat} {mine : Nat → Bool} : ∀ {calls : List (Nat × MOp)} {W W' : World}, Good k mine W →
    (∀ x ∈ calls, Fits k mine x.1 x.2) → W.run calls = .ok W' →
    Good k mine W' ∧ ∃ ops v v', Projects k mine calls ops ∧ W.view k = some v ∧ W'.view k = some v' ∧
      MOp.run (mask mine v) ops = .ok (mask mine v')
  | [], W, W', g, _, h => by
    cases h
    obtain ⟨v, hv⟩ := g.view
    exact ⟨g, [], v, v, .nil, hv, hv, rfl⟩
  | (j, op) :: calls, W, W', g, hf, h => by
    obtain ⟨W1, h1, h2⟩ := Out.bind_eq_ok.1 h
    obtain ⟨g1, v, v1, a1, a2, a3⟩ := call_step g (hf _ List.mem_cons_self) h1
    obtain ⟨g2, ops, w, v', b1, b2, b3, b4⟩ := run_step g1 (fun x hx => hf x (List.mem_cons_of_mem _ hx)) h2
    rw [a2] at b2; cases b2
    refine ⟨g2, ?_⟩
    rcases a3 with ⟨hb, e⟩ | ⟨hb, e⟩ | ⟨r, gr, as, a, rfl, hb, e⟩
    · exact ⟨op :: ops, v, v', .keep hb b1, a1, b3, by simp [MOp.run, e, b4]⟩
    · exact ⟨ops, v, v', .drop hb b1, a1, b3, by rw [← e]; exact b4⟩
    · exact ⟨.role (.addPerm a gr as) :: ops, v, v', .grant hb b1, a1, b3, by simp only [MOp.run, e, Out.bind_ok]; exact b4⟩

theorem good_new {n k : Nat} (hk : k < n) (mine : Nat → Bool) : Good k mine (World.new n) := by
  refine ⟨by simpa [World.new] using hk, ?_, ?_, ?_, ?_⟩
  · intro c o ho; simp [World.new] at ho
  · intro c o ho; simp [World.new] at ho
  · intro c o ho; simp [World.new] at ho
  · intro m hm id c hc
    have : m = {} := List.eq_of_mem_replicate (List.mem_of_getElem? hm)
    subst this
    cases hc

theorem Closed.mask {mine : Nat → Bool} {v : Mgr} (h : Closed mine v) : Alike v.tobjs (mask mine v) := by
  intro o n site id c hc
  rw [descendants_tobjs (v := swap v.tobjs (MM.mask mine v)) (w := v) rfl]
  exact (descendants_mask h.desc (h.reg id c hc)).symm

/-- C110, partial: a manager that shares no tenants with others behaves as though it were the only one. After
any calls there is a history of calls on a single manager - made of the calls on this manager, on its tenants and on
roles and groups - with the same registries, rows and caches, the same own tenants, and the same decisions. So what is
proved about a single manager holds for it. Missing: managers that share tenants (false, see `C110_counterexample`). -/
theorem C110_alone_partial {n k : Nat} (hk : k < n) {mine : Nat → Bool} {calls : List (Nat × MOp)} {W : World}
    (hf : ∀ x ∈ calls, Fits k mine x.1 x.2) (h : (World.new n).run calls = .ok W) :
    ∃ ops v w, Projects k mine calls ops ∧ W.view k = some v ∧ MOp.run {} ops = .ok w ∧ w = { v with tobjs := w.tobjs } ∧
      (∀ c, mine c = true → w.tobjs[c]? = v.tobjs[c]?) ∧
      ∀ o fuel site p opts b, (∃ w', w.authorize o fuel site p opts = .ok (b, w')) ↔
        ∃ v', v.authorize o fuel site p opts = .ok (b, v') := by
  obtain ⟨g, ops, v0, v, h1, h2, h3, h4⟩ := run_step (good_new hk mine) hf h
  have e0 : mask mine v0 = {} := by
    simp only [World.view, World.new, List.getElem?_replicate, hk, if_true, Option.map_some, Option.some.injEq] at h2
    subst h2
    rfl
  rw [e0] at h4
  have cl := g.closed h3
  refine ⟨ops, v, mask mine v, h1, h3, h4, rfl, fun c hc => maskT_get hc, fun o fuel site p opts b => ⟨?_, ?_⟩⟩
  · rintro ⟨w', h⟩
    exact ⟨_, (authorize_even cl.mask h).2⟩
  · rintro ⟨v', h⟩
    exact ⟨_, (authorize_even cl.alike h).2⟩

/-- The tenants that are added to manager `k` at some time. -/
def added (k : Nat) (calls : List (Nat × MOp)) (c : Nat) : Bool :=
  calls.any fun x => match x.2 with
    | .addTenant a => decide (x.1 = k ∧ a = c)
    | _ => false

/-- The full claim: a manager decides as though it were the only one. -/
def C110_full : Prop :=
  ∀ (n k : Nat) (calls : List (Nat × MOp)) (W : World), k < n → (World.new n).run calls = .ok W →
    ∃ ops v w, Projects k (added k calls) calls ops ∧ W.view k = some v ∧ MOp.run {} ops = .ok w ∧
      ∀ o fuel site p opts b, (∃ w', w.authorize o fuel site p opts = .ok (b, w')) ↔
        ∃ v', v.authorize o fuel site p opts = .ok (b, v')

/-! ### Where rows go -/

/-- The call adds the tenant to a manager. -/
def adds (c : Nat) : MOp → Bool
  | .addTenant a => a == c
  | _ => false

/-- The manager to which a tenant was added last. -/
def lastAdded (c : Nat) : List (Nat × MOp) → Option Nat
  | [] => none
  | (j, op) :: calls => (lastAdded c calls).or (if adds c op then some j else none)

/-- The manager a tenant points to. -/
def World.manager (W : World) (c : Nat) : Option Nat := W.objs[c]?.bind TObj.manager

theorem manager_set {W W' : World} {c : Nat} {o o' : TObj} (ho : W.objs[c]? = some o) (e : W'.objs = W.objs.set c o')
    (h : o'.manager = o.manager) (d : Nat) : W'.manager d = W.manager d := by
  simp only [World.manager, e, List.getElem?_set]
  split
  · next hcd =>
    subst hcd
    rw [if_pos (List.getElem?_eq_some_iff.1 ho).1, ho]
    exact h
  · rfl

theorem within_manager {W W' : World} {k : Nat} {op : MOp} (hl : Local op) (hn : ∀ a, op ≠ .addTenant a)
    (h : W.within k op = .ok W') (d : Nat) : W'.manager d = W.manager d := by
  cases (within_effect hl h).1 with
  | kept e _ => simp [World.manager, e]
  | reg _ _ _ => exact (hn _ rfl).elim
  | def_ ho e _ => exact manager_set ho e rfl d
  | grant _ _ _ e => simp [World.manager, e]

theorem desc_manager {c : Nat} : ∀ {ds : List Nat} {W W' : World}, W.addDescendant c ds = .ok W' →
    (∀ d, W'.manager d = W.manager d) ∧ ∀ k, (∀ d ∈ ds, W.manager d ≠ some k) → W'.mgrs[k]? = W.mgrs[k]?
  | [], W, W', h => by cases h; exact ⟨fun _ => rfl, fun _ _ => rfl⟩
  | d :: ds, W, W', h => by
    obtain ⟨co, dob, ho, hod, hk⟩ := addDescendant_cons W c d ds h
    have m1 : ∀ x, (linked W c d co dob).manager x = W.manager x := by
      intro x
      unfold linked
      split
      · rfl
      · exact manager_set (W' := { W with objs := W.objs.set c { co with desc := co.desc.set dob.id d } }) ho rfl rfl x
    have g1 : (linked W c d co dob).mgrs = W.mgrs := by unfold linked; split <;> rfl
    rcases hk with ⟨_, h1⟩ | ⟨n, W2, W3, _, h2, h3, h4⟩
    · obtain ⟨i1, i2⟩ := desc_manager h1
      exact ⟨fun x => (i1 x).trans (m1 x), fun k hk => (i2 k fun x hx => by
        rw [m1]; exact hk x (List.mem_cons_of_mem _ hx)).trans (by rw [g1])⟩
    · obtain ⟨o2, k2, a1, a2, a3⟩ := through_ok h2
      obtain ⟨o3, k3, b1, b2, b3⟩ := through_ok h3
      have m2 := within_manager (op := .tAddNamespace d n) trivial (fun _ h => by cases h) a3
      have m3 := within_manager (op := .tSetDefaultNamespace d n) trivial (fun _ h => by cases h) b3
      have g2 := (within_effect (op := .tAddNamespace d n) trivial a3).2
      have g3 := (within_effect (op := .tSetDefaultNamespace d n) trivial b3).2
      obtain ⟨i1, i2⟩ := desc_manager h4
      refine ⟨fun x => (i1 x).trans ((m3 x).trans ((m2 x).trans (m1 x))), fun k hk => ?_⟩
      have hd := hk d List.mem_cons_self
      have e2 : W.manager d = some k2 := by rw [← m1 d]; simp [World.manager, a1, a2]
      have e3 : W.manager d = some k3 := by rw [← m1 d, ← m2 d]; simp [World.manager, b1, b2]
      rw [i2 k fun x hx => by rw [m3, m2, m1]; exact hk x (List.mem_cons_of_mem _ hx),
        g3 k (by rintro rfl; exact hd e3), g2 k (by rintro rfl; exact hd e2), g1]

theorem call_manager {W W' : World} {j : Nat} {op : MOp} (h : W.call j op = .ok W') (c : Nat) :
    W'.manager c = if adds c op then some j else W.manager c := by
  by_cases hl : Local op
  · by_cases ha : ∃ a, op = .addTenant a
    · obtain ⟨a, rfl⟩ := ha
      obtain ⟨m, m', hk, hm, hap, rfl⟩ := within_ok (show W.within j (.addTenant a) = .ok W' from h)
      obtain ⟨x, h1, rfl⟩ := Out.map_eq_ok.1 hap
      unfold Mgr.addTenant at h1
      split at h1
      · cases h1
      next t ht =>
      cases h1
      have e1 := (view_tobjs hm).1
      simp only [World.manager]
      rw [put_objs_set (c := a) (t := { t with managed := true }) (by rw [← e1])]
      rw [e1, List.getElem?_map, Option.map_eq_some_iff] at ht
      obtain ⟨o, ho, rfl⟩ := ht
      rw [List.getElem?_set]
      by_cases hac : a = c
      · subst hac
        rw [if_pos rfl, if_pos (List.getElem?_eq_some_iff.1 ho).1, if_pos (by simp [adds])]
        rfl
      · rw [if_neg hac, if_neg (by simp [adds, hac])]
    · have hn : ∀ a, op ≠ .addTenant a := fun a e => ha ⟨a, e⟩
      rw [if_neg (by cases op <;> first | exact (hn _ rfl).elim | simp [adds])]
      rcases call_local hl h with ⟨rfl, _⟩ | ⟨d, _, ht⟩ | ⟨_, hw⟩
      · rfl
      · obtain ⟨o, k, _, _, h3⟩ := through_ok ht
        exact within_manager hl hn h3 c
      · exact within_manager hl hn hw c
  · cases op <;> first | exact (hl trivial).elim | skip
    case role op => obtain ⟨H, h1, rfl⟩ := Out.map_eq_ok.1 h; rfl
    case newTenant id =>
      cases h
      show ((W.objs ++ [({ id := id } : TObj)])[c]?).bind TObj.manager = _
      rw [if_neg (by simp [adds]), List.getElem?_append]
      split
      · rfl
      · next hge =>
        have : W.objs[c]? = none := List.getElem?_eq_none (by omega)
        rw [List.getElem?_singleton, World.manager, this]
        split <;> rfl
    case tAddDescendant d ds => rw [if_neg (by simp [adds])]; exact (desc_manager h).1 c

theorem run_manager {c : Nat} : ∀ {calls : List (Nat × MOp)} {W W' : World}, W.run calls = .ok W' →
    W'.manager c = (lastAdded c calls).or (W.manager c)
  | [], W, W', h => by cases h; rfl
  | (j, op) :: calls, W, W', h => by
    obtain ⟨W1, h1, h2⟩ := Out.bind_eq_ok.1 h
    rw [run_manager h2, call_manager h1, lastAdded]
    cases lastAdded c calls with
    | some x => rfl
    | none => cases adds c op <;> rfl

/-- A tenant belongs to the manager it was added to last. -/
theorem C111_manager {n : Nat} {calls : List (Nat × MOp)} {W : World} (h : (World.new n).run calls = .ok W) (c : Nat) :
    W.manager c = lastAdded c calls := by
  rw [run_manager h]
  simp [World.manager, World.new]

/-- The claim in full: a row added through a tenant is stored in every manager that has the tenant. -/
def C111_full : Prop :=
  ∀ (n : Nat) (calls : List (Nat × MOp)) (W W' : World) (j c : Nat) (p s r : Str), (World.new n).run calls = .ok W →
    W.call j (.tAddPrincipalInNamespace c p s r) = .ok W' → ∀ (k : Nat) (v v' : Mgr) (id : Str), W.view k = some v →
      v.tenants.get id = some c → W'.view k = some v' → ∀ o site, ∃ d ∈ v'.trie.data o site, d.principal = .str p

/-- C111, partial: a method of a tenant takes effect in the manager the tenant was added to last, as if there were
no others, and in no other manager. Missing: other managers that have the tenant (false, see `C111_counterexample`). -/
theorem C111_rows_partial {n : Nat} {calls : List (Nat × MOp)} {W W' : World} (h : (World.new n).run calls = .ok W)
    {j c : Nat} {op : MOp} (hr : receiver op = some c) (hl : Local op) (hc : W.call j op = .ok W') :
    (∀ k v, lastAdded c calls = some k → W.view k = some v → ∃ v', W'.view k = some v' ∧ op.apply v = .ok v') ∧
      ∀ k, lastAdded c calls ≠ some k → W'.mgrs[k]? = W.mgrs[k]? := by
  rcases call_local hl hc with ⟨rfl, ho⟩ | ⟨d, hd, ht⟩ | ⟨hd, _⟩
  · refine ⟨fun k v hk hv => ?_, fun _ _ => rfl⟩
    exact ⟨v, hv, by rcases ho with ⟨c, p, m, rfl⟩ | ⟨c, p, m, rfl⟩ <;> rfl⟩
  · rw [hr] at hd; cases hd
    obtain ⟨o, k, b1, b2, b3⟩ := through_ok ht
    have hk : lastAdded c calls = some k := by rw [← C111_manager h]; simp [World.manager, b1, b2]
    refine ⟨fun k' v hk' hv => ?_, fun k' hk' => (within_effect hl b3).2 k' (by rintro rfl; exact hk' hk)⟩
    rw [hk] at hk'; cases hk'
    obtain ⟨m, m', hlt, hm, hap, rfl⟩ := within_ok b3
    rw [hm] at hv; cases hv
    exact ⟨m', view_put hlt, hap⟩
  · rw [hr] at hd; cases hd

/-- `AddDescendant` reaches the managers the descendants were added to last, and no others. -/
theorem C111_descendants {n : Nat} {calls : List (Nat × MOp)} {W W' : World} (h : (World.new n).run calls = .ok W)
    {j c : Nat} {ds : List Nat} (hc : W.call j (.tAddDescendant c ds) = .ok W') {k : Nat}
    (hk : ∀ d ∈ ds, lastAdded d calls ≠ some k) : W'.mgrs[k]? = W.mgrs[k]? :=
  (desc_manager hc).2 k fun d hd => by rw [C111_manager h]; exact hk d hd

/-! ### Cases -/

/-- A tenant added to manager 0 and then to manager 1; a principal is then assigned to it. -/
def shared : List (Nat × MOp) :=
  [(0, .newTenant (str "t")), (0, .addTenant 0), (0, .addPrincipal (str "p") 0), (1, .addTenant 0),
    (0, .tAddPrincipalInNamespace 0 (str "p") (str "n") (str "r"))]

/-- What manager 0 would have seen alone. -/
def sharedAlone : List MOp :=
  [.newTenant (str "t"), .addTenant 0, .addPrincipal (str "p") 0,
    .tAddPrincipalInNamespace 0 (str "p") (str "n") (str "r")]

theorem shared_projects {ops : List MOp} (h : Projects 0 (added 0 shared) shared ops) : ops = sharedAlone := by
  unfold shared at h
  cases h with
  | drop n _ => exact (n trivial).elim
  | keep _ h =>
  cases h with
  | drop n _ => exact (n rfl).elim
  | keep _ h =>
  cases h with
  | drop n _ => exact (n rfl).elim
  | keep _ h =>
  cases h with
  | keep b _ => cases b
  | drop _ h =>
  cases h with
  | drop n _ => exact (n (show added 0 shared 0 = true by decide)).elim
  | keep _ h =>
  cases h
  rfl

/-- What manager `k` decides. -/
def World.decision (W : World) (k : Nat) (p : Str) (opts : List Opt) : Out Bool :=
  match W.view k with
  | none => .panic
  | some v => (v.authorize .fwd 9 [] p opts).map (·.1)

/-- C110. A tenant is added to two managers: the first one denies what it would grant if it were alone. -/
theorem C110_counterexample : ∃ W, (World.new 2).run shared = .ok W ∧
    W.decision 0 (str "p") [.tenant (.str (str "t"))] = .ok false ∧
    (MOp.run {} sharedAlone).Chk fun w =>
      (w.authorize .fwd 9 [] (str "p") [.tenant (.str (str "t"))]).map (·.1) = .ok true := Out.chk_ok (by decide +kernel)

theorem C110_full_false : ¬ C110_full := by
  intro h
  obtain ⟨W, h1, h2, h3⟩ := C110_counterexample
  obtain ⟨ops, v, w, p1, p2, p3, p4⟩ := h 2 0 shared W (by decide) h1
  cases shared_projects p1
  rw [p3] at h3
  obtain ⟨⟨_, w'⟩, e, rfl⟩ := Out.map_eq_ok.1 (show Out.map _ _ = _ from h3)
  obtain ⟨v', e'⟩ := (p4 .fwd 9 [] (str "p") [.tenant (.str (str "t"))] _).1 ⟨_, e⟩
  rw [World.decision, p2] at h2
  simp only [e', Out.map] at h2
  cases h2

/-- Two managers with a tenant each, sharing a role; manager 1 adds a permission to it. -/
def apart : List (Nat × MOp) :=
  [(0, .newTenant (str "t")), (0, .newTenant (str "u")), (0, .role (.newRole (str "r"))), (0, .role (.newGroup (str "g"))),
    (0, .addTenant 0), (1, .addTenant 1), (0, .addRole 0), (1, .addRole 0), (1, .addAttributeGroup 0),
    (1, .role (.addAttrs 0 [⟨str "/x", str "GET"⟩])),
    (0, .addPrincipal (str "p") 0), (1, .addPrincipal (str "p") 0), (0, .addNamespace (str "n") 0),
    (0, .tAddNamespace 0 (str "n")), (0, .tSetDefaultNamespace 0 (str "n")),
    (0, .tAddPrincipalWithRole 0 (str "p") (str "r") false),
    (1, .addPermissionsToRole (str "r") (str "g") [⟨str "/x", str "GET"⟩])]

/-- C110. The hypotheses hold with manager 0, which has tenant 0: it grants an activity of its tenant, on the strength of the
permission that manager 1 gave to the role, and manager 1 denies it in its own tenant. -/
example : (∀ x ∈ apart, Fits 0 (fun c => c = 0) x.1 x.2) ∧ ((World.new 2).run apart).Chk fun W =>
    W.decision 0 (str "p") [.tenant (.str (str "t")), .namespace_ (.str (str "n")), .group (.str (str "g")), .activity (.str (str "/x GET"))] = .ok true ∧
    W.decision 1 (str "p") [.tenant (.str (str "u")), .group (.str (str "g")), .activity (.str (str "/x GET"))] = .ok false := by
  refine ⟨?_, by decide +kernel⟩
  intro x hx
  simp only [apart, List.mem_cons, List.not_mem_nil, or_false] at hx
  rcases hx with rfl | rfl | rfl | rfl | rfl | rfl | rfl | rfl | rfl | rfl | rfl | rfl | rfl | rfl | rfl | rfl | rfl <;>
    simp [Fits]

/-- What manager `k` stores. -/
def World.stored (W : World) (k : Nat) : List Data :=
  match W.view k with
  | none => []
  | some v => v.trie.data .fwd []

/-- C111. The hypotheses hold: the tenant was added to manager 1 last, and the row is there. -/
example : lastAdded 0 (shared.take 4) = some 1 ∧ ((World.new 2).run (shared.take 4)).Chk fun W =>
    (W.call 0 (.tAddPrincipalInNamespace 0 (str "p") (str "n") (str "r"))).Chk fun W' =>
      W'.stored 0 = [] ∧ (W'.stored 1).map (·.principal) = [.str (str "p")] := ⟨rfl, by decide +kernel⟩

/-- C111. Both managers have the tenant, and the row is in one of them only. -/
theorem C111_counterexample : ∃ W, (World.new 2).run (shared.take 4) = .ok W ∧
    (W.view 0).map (fun v => v.tenants.get (str "t")) = some (some 0) ∧
    (W.call 0 (.tAddPrincipalInNamespace 0 (str "p") (str "n") (str "r"))).Chk fun W' =>
      W'.stored 0 = [] ∧ (W'.view 0).isSome := Out.chk_ok (by decide +kernel)

theorem C111_full_false : ¬ C111_full := by
  intro h
  obtain ⟨W, h1, h2, h3⟩ := C111_counterexample
  obtain ⟨W', h4, h5, h6⟩ := Out.chk_ok h3
  obtain ⟨v, hv, h7⟩ := Option.map_eq_some_iff.1 h2
  obtain ⟨v', hv'⟩ := Option.isSome_iff_exists.1 h6
  obtain ⟨d, hd, _⟩ := h 2 _ W W' 0 0 _ _ _ h1 h4 0 v v' _ hv h7 hv' .fwd []
  rw [World.stored, hv'] at h5
  simp only at h5
  rw [h5] at hd
  cases hd

/-- C111. `AddDescendant` with a descendant of another manager: the row that names its namespace goes there. -/
example : lastAdded 1 [(0, .newTenant (str "t")), (0, .newTenant (str "u")), (0, .addTenant 0), (1, .addTenant 1),
      (0, .addNamespace (str "n") 0), (1, .addNamespace (str "n") 0), (0, .tSetDefaultNamespace 0 (str "n"))] = some 1 ∧
    ((World.new 2).run [(0, .newTenant (str "t")), (0, .newTenant (str "u")), (0, .addTenant 0), (1, .addTenant 1),
      (0, .addNamespace (str "n") 0), (1, .addNamespace (str "n") 0), (0, .tSetDefaultNamespace 0 (str "n")),
      (0, .tAddDescendant 0 [1])]).Chk fun W =>
      (W.stored 0).map (·.tenant) = [] ∧ (W.stored 1).map (·.tenant) = [.str (str "u")] := ⟨rfl, by decide +kernel⟩

end MM
end Verif
