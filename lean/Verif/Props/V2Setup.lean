import Verif.Props.V2Remove

/-!
# Package v2: exact effect of the setup calls, C73
-/

namespace Verif
open Spec
namespace V2
variable {w w' : V2}

theorem getT_set {w : V2} {c : Nat} {t t' : T2} (hc : w.tobjs[c]? = some t) (i : Nat) :
    (w.setT c t').tobjs[i]? = if i = c then some t' else w.tobjs[i]? := by
  rw [setT, List.getElem?_set]
  have := (List.getElem?_eq_some_iff.1 hc).1
  by_cases h : i = c
  · subst h; simp [this]
  · simp [h, Ne.symm h]

/-- `w'` is `w` with tenant object `c` replaced by `t'`, and nothing else changed. -/
def Replaced (w w' : V2) (c : Nat) (t' : T2) : Prop :=
  w'.tobjs.length = w.tobjs.length ∧ (∀ i, w'.tobjs[i]? = if i = c then some t' else w.tobjs[i]?) ∧
  { w' with tobjs := w.tobjs } = w

theorem replaced_setT {c : Nat} {t : T2} (hc : w.tobjs[c]? = some t) (t' : T2) : Replaced w (w.setT c t') c t' :=
  ⟨by simp [setT], getT_set hc, rfl⟩

/-! ## Tenants -/

/-- C73. A new tenant is active, has no child, and at most the namespace named, which is then its default. -/
theorem C73_newTenant (w : V2) (id : Str) (ns : Option Str) :
    ∃ t, (w.newTenant id ns).tobjs = w.tobjs ++ [t] ∧ t.id = id ∧ t.status = 0 ∧ t.children = [] ∧
      (∀ n, ns = some n → t.defNs = n ∧ t.namespaces = [(n, [])]) ∧ (ns = none → t.defNs = [] ∧ t.namespaces = []) ∧
      { w.newTenant id ns with tobjs := w.tobjs } = w := by
  cases ns with
  | none => exact ⟨_, rfl, rfl, rfl, rfl, by simp, by simp, rfl⟩
  | some n => exact ⟨_, rfl, rfl, rfl, rfl, by rintro _ ⟨⟩; exact ⟨rfl, rfl⟩, by simp, rfl⟩

/-- C73. `AddNamespace` adds an empty namespace unless there is one under the name, and makes it the default if told to. -/
theorem C73_addNamespace {c : Nat} {t : T2} (hc : w.tobjs[c]? = some t) (n : Str) (d : Bool) :
    ∃ w' t', w.tAddNamespace c n d = .ok w' ∧ Replaced w w' c t' ∧ t' = { t with namespaces := t'.namespaces, defNs := t'.defNs } ∧
      (∀ k, t'.namespaces.get k = (t.namespaces.get k).or (if k = n then some [] else none)) ∧
      (d = true → t'.defNs = n) ∧ (d = false → t'.defNs = t.defNs) := by
  rw [tAddNamespace, withT, hc]
  refine ⟨_, _, rfl, replaced_setT hc _, rfl, fun k => ?_, by rintro rfl; rfl, by rintro rfl; rfl⟩
  dsimp only
  split
  · rename_i s hs
    by_cases hk : k = n
    · subst hk; simp [hs]
    · simp [hk]
  · rename_i hs
    rw [GoMap.get_set]
    by_cases hk : k = n
    · subst hk; simp [hs]
    · simp [hk, Ne.symm hk]

/-- C73. `AddScopeToNamespace` fails and changes nothing if the tenant has no such namespace. Otherwise the namespace
has the scopes it had and those passed; every other namespace keeps its scopes. -/
theorem C73_addScope {c : Nat} {t : T2} (hc : w.tobjs[c]? = some t) (n : Str) (scs : List Str) :
    (t.namespaces.get n = none → w.tAddScope c n scs = .ok (true, w)) ∧
    (∀ s, t.namespaces.get n = some s → ∃ w' t' s', w.tAddScope c n scs = .ok (false, w') ∧ Replaced w w' c t' ∧
      t' = { t with namespaces := t'.namespaces } ∧ t'.namespaces.get n = some s' ∧ (∀ x, x ∈ s' ↔ x ∈ s ∨ x ∈ scs) ∧
      (s.Nodup → s'.Nodup) ∧ ∀ k, k ≠ n → t'.namespaces.get k = t.namespaces.get k) := by
  rw [tAddScope, withT, hc]
  dsimp only
  constructor
  · intro h; rw [h]
  · intro s h
    rw [h]
    refine ⟨_, _, scs.foldl addStr s, rfl, replaced_setT hc _, rfl, by simp, fun x => mem_addStrs, fun hn => ?_,
      fun k hk => by simp [Ne.symm hk]⟩
    clear h
    induction scs generalizing s with
    | nil => exact hn
    | cons a l ih =>
      refine ih _ ?_
      unfold addStr
      split
      · exact hn
      · rename_i h
        rw [List.nodup_append]
        exact ⟨hn, by simp, fun x hx y hy => by simp at hy; subst hy; rintro rfl; exact h hx⟩

/-- The last tenant object of `ds` with id `k`. -/
def lastWith (w : V2) (ds : List Nat) (k : Str) : Option Nat := ds.reverse.find? fun d => w.tobjs[d]?.map (·.id) == some k

/-- C73. `AddChildTenant` links the tenants passed, the last one under each id. -/
theorem C73_addChildTenant {c : Nat} {t : T2} (hc : w.tobjs[c]? = some t) {ds : List Nat}
    (hds : ∀ d ∈ ds, ∃ dt, w.tobjs[d]? = some dt) :
    ∃ w' t', w.tAddChild c ds = .ok w' ∧ Replaced w w' c t' ∧ t' = { t with children := t'.children } ∧
      ∀ k, t'.children.get k = (lastWith w ds k).or (t.children.get k) := by
  induction ds generalizing w t with
  | nil => exact ⟨w, t, rfl, ⟨rfl, fun i => by split <;> simp_all, rfl⟩, rfl, fun k => by simp [lastWith]⟩
  | cons d ds ih =>
    obtain ⟨dt, hd⟩ := hds d (List.mem_cons_self ..)
    have g := getT_set (t' := { t with children := t.children.set dt.id d }) hc
    have ids : ∀ i : Nat, (w.setT c { t with children := t.children.set dt.id d }).tobjs[i]?.map (·.id) = w.tobjs[i]?.map (·.id) := by
      intro i
      rw [g]
      by_cases h : i = c
      · subst h; simp [hc]
      · simp [h]
    obtain ⟨w', t', h1, ⟨h2, h3, h4⟩, h5, h6⟩ := ih (w := w.setT c { t with children := t.children.set dt.id d })
      (t := { t with children := t.children.set dt.id d }) (by rw [g]; simp) fun x hx => by
        obtain ⟨xt, hxt⟩ := hds x (List.mem_cons_of_mem _ hx)
        have := ids x
        rw [hxt] at this
        obtain ⟨y, hy, _⟩ := Option.map_eq_some_iff.1 this
        exact ⟨y, hy⟩
    refine ⟨w', t', ?_, ⟨h2.trans (by simp [setT]), fun i => ?_, congrArg (fun x : V2 => { x with tobjs := w.tobjs }) h4⟩, h5, fun k => ?_⟩
    · rw [tAddChild, Out.loop, withT, hc]
      simp only [withT, hd, Out.bind_ok]
      exact h1
    · rw [h3, g]; split <;> rfl
    · rw [h6]
      simp only [lastWith, ids, List.reverse_cons, List.find?_append, Option.or_assoc, GoMap.get_set]
      congr 1
      simp only [List.find?_cons, List.find?_nil, hd, Option.map_some]
      by_cases hk : dt.id = k
      · subst hk; simp
      · have : (dt.id == k) = false := by simpa using hk
        simp [hk, this]

/-- C73. A write to the status changes that status only. -/
theorem C73_setStatus {c : Nat} {t : T2} (hc : w.tobjs[c]? = some t) (s : Int) :
    ∃ w', w.setStatus c s = .ok w' ∧ Replaced w w' c { t with status := s } := by
  rw [setStatus, withT, hc]; exact ⟨_, rfl, replaced_setT hc _⟩

/-- C73. `AddTenant` registers the tenant, replacing one with the same id, and records it as the parent of its children. -/
theorem C73_addTenant (inv : Inv w) {c : Nat} {t : T2} (hc : w.tobjs[c]? = some t) :
    ∃ w', w.addTenant c = .ok w' ∧ (∀ k, w'.tenants.get k = if k = t.id then some c else w.tenants.get k) ∧
      (∀ k, w'.parents.get k = if (t.children.get k).isSome then some c else w.parents.get k) ∧
      { w' with tenants := w.tenants, parents := w.parents } = w := by
  rw [addTenant, withT, hc]
  dsimp only
  have key : ∀ (l : GoMap Str Nat) (v : V2), (∀ e ∈ l, ∃ d, v.tobjs[e.2]? = some d ∧ d.id = e.1) →
      ∃ v', Out.loop (fun (w : V2) (kd : Str × Nat) => w.withT kd.2 fun d => .ok { w with parents := w.parents.set d.id c }) v l = .ok v' ∧
        (∀ k, v'.parents.get k = if (GoMap.get l k).isSome then some c else v.parents.get k) ∧ { v' with parents := v.parents } = v := by
    intro l
    induction l with
    | nil => exact fun v _ => ⟨v, rfl, fun k => by simp, rfl⟩
    | cons e l ih =>
      intro v hv
      obtain ⟨d, hd, hid⟩ := hv e (List.mem_cons_self ..)
      obtain ⟨v', h1, h2, h3⟩ := ih { v with parents := v.parents.set d.id c } fun x hx => hv x (List.mem_cons_of_mem _ hx)
      refine ⟨v', ?_, fun k => ?_, ?_⟩
      · rw [Out.loop, withT, hd, Out.bind_ok]; exact h1
      · rw [h2]
        simp only [GoMap.get_set, hid]
        by_cases hk : e.1 = k
        · subst hk; simp [GoMap.get]
        · have : GoMap.get (e :: l) k = GoMap.get l k := by simp [GoMap.get, hk]
          rw [this]; simp [hk]
      · have := congrArg (fun x : V2 => { x with parents := v.parents }) h3
        exact this
  obtain ⟨w', h1, h2, h3⟩ := key t.children { w with tenants := w.tenants.set t.id c } fun e he =>
    inv.children t (List.mem_of_getElem? hc) e.1 e.2 he
  refine ⟨w', h1, fun k => ?_, h2, ?_⟩
  · have := congrArg V2.tenants h3
    dsimp only at this
    rw [this, GoMap.get_set]
    by_cases hk : t.id = k
    · subst hk; simp
    · simp [hk, Ne.symm hk]
  · exact congrArg (fun x : V2 => { x with tenants := w.tenants }) h3

/-- C73. `AddTenants` registers all of them, the last one under each id. -/
theorem C73_addTenants (inv : Inv w) {cs : List Nat} (hcs : ∀ c ∈ cs, ∃ t, w.tobjs[c]? = some t) :
    ∃ w', w.addTenants cs = .ok w' ∧ (∀ k, w'.tenants.get k = (lastWith w cs k).or (w.tenants.get k)) ∧
      { w' with tenants := w.tenants, parents := w.parents } = w := by
  induction cs generalizing w with
  | nil => exact ⟨w, rfl, fun k => by simp [lastWith], rfl⟩
  | cons c cs ih =>
    obtain ⟨t, hc⟩ := hcs c (List.mem_cons_self ..)
    obtain ⟨w1, h1, h2, _, h4⟩ := C73_addTenant inv hc
    have eo : w1.tobjs = w.tobjs := by have := congrArg V2.tobjs h4; exact this
    obtain ⟨w2, g1, g2, g3⟩ := ih (inv_addTenant inv h1) fun x hx => by rw [eo]; exact hcs x (List.mem_cons_of_mem _ hx)
    refine ⟨w2, by rw [addTenants, Out.loop, h1, Out.bind_ok]; exact g1, fun k => ?_, ?_⟩
    · rw [g2]
      simp only [lastWith, eo, List.reverse_cons, List.find?_append, Option.or_assoc, h2]
      congr 1
      simp only [List.find?_cons, List.find?_nil, hc, Option.map_some]
      by_cases hk : t.id = k
      · subst hk; simp
      · have : (t.id == k) = false := by simpa using hk
        simp [Ne.symm hk, this]
    · rw [← g3] at h4; exact h4

/-! ## Assignments -/

/-- The assignments among `is` of principal `p` in tenant `t`. -/
def those (w : V2) (p t : Str) (is : List Nat) : List Nat :=
  is.filter fun i => w.prs[i]?.map (fun u => (u.principal, u.tenant)) == some (p, t)

/-- C73. `AddPrincipalRole` appends the assignments to the list and to the index, in order, and changes nothing else. -/
theorem C73_addPrincipalRole {is : List Nat} (his : ∀ i ∈ is, ∃ u, w.prs[i]? = some u) :
    ∃ w', w.addPrincipalRole is = .ok w' ∧ w'.userRoles = w.userRoles ++ is.map some ∧
      (∀ p t, indexAt w' p t = indexAt w p t ++ those w p t is) ∧
      { w' with userRoles := w.userRoles, index := w.index } = w := by
  induction is generalizing w with
  | nil => exact ⟨w, rfl, by simp, by simp [those], rfl⟩
  | cons i is ih =>
    obtain ⟨u, hu⟩ := his i (List.mem_cons_self ..)
    rw [addPrincipalRole, Out.loop]
    simp only [prAt, hu, Out.bind_ok]
    obtain ⟨w', h1, h2, h3, h4⟩ := ih (w := { w with
      userRoles := w.userRoles ++ [some i]
      index := w.index.set u.principal (((w.index.get u.principal).getD []).set u.tenant
        ((((w.index.get u.principal).getD []).get u.tenant).getD [] ++ [i])) }) fun x hx => his x (List.mem_cons_of_mem _ hx)
    refine ⟨w', h1, by rw [h2]; simp, fun p t => ?_, ?_⟩
    · rw [h3]
      have e1 : ∀ l, those { w with
        userRoles := w.userRoles ++ [some i]
        index := w.index.set u.principal (((w.index.get u.principal).getD []).set u.tenant
          ((((w.index.get u.principal).getD []).get u.tenant).getD [] ++ [i])) } p t l = those w p t l := fun _ => rfl
      rw [e1]
      have e2 : those w p t (i :: is) = those w p t [i] ++ those w p t is := by
        simp only [those, List.filter_cons, List.filter_nil]; split <;> rfl
      rw [e2, ← List.append_assoc]
      congr 1
      unfold indexAt
      simp only [GoMap.get_set, those, List.filter_cons, List.filter_nil, hu, Option.map_some]
      by_cases hp : u.principal = p
      · subst hp
        by_cases ht : u.tenant = t
        · subst ht
          cases w.index.get u.principal with
          | none => simp
          | some m => cases hm : m.get u.tenant <;> simp [hm]
        · have : ((u.principal, u.tenant) == (u.principal, t)) = false := by simpa using ht
          cases w.index.get u.principal with
          | none => simp [ht]
          | some m => cases hm : m.get t <;> simp [hm, ht]
      · have : ((u.principal, u.tenant) == (p, t)) = false := by simp [hp]
        simp [hp]
    · exact congrArg (fun x : V2 => { x with userRoles := w.userRoles, index := w.index }) h4

/-- The index agrees with the list: under every principal and tenant it has exactly their assignments, in order. -/
def Agrees (w : V2) : Prop := ∀ p t, indexAt w p t = those w p t (w.userRoles.filterMap id)

theorem Agrees.same (inv : Inv w) (h : Agrees w) (hu : w'.userRoles = w.userRoles) (hi : w'.index = w.index)
    (hk : ∀ (i : Nat) (u : PR), w.prs[i]? = some u → ∃ u' : PR, w'.prs[i]? = some u' ∧ u'.principal = u.principal ∧ u'.tenant = u.tenant) :
    Agrees w' := by
  intro p t
  have e : indexAt w' p t = indexAt w p t := by unfold indexAt; rw [hi]
  rw [e, h p t, hu]
  unfold those
  refine List.filter_congr fun i hm => ?_
  obtain ⟨x, hx, rfl⟩ := List.mem_filterMap.1 hm
  obtain ⟨u, h1⟩ := inv.users i hx
  obtain ⟨u', h2, h3, h4⟩ := hk i u h1
  simp [h1, h2, h3, h4]

theorem Agrees.onPR {i : Nat} {f : PR → PR} (inv : Inv w) (h : Agrees w) (hf : ∀ u, (f u).principal = u.principal ∧ (f u).tenant = u.tenant)
    (ha : V2Op.onPR w i f = .ok w') : Agrees w' := by
  obtain ⟨u, hu, rfl⟩ := Out.map_eq_ok.1 ha
  obtain ⟨j, hj, hu⟩ := prAt_eq_ok.1 hu
  cases hj
  refine h.same inv rfl rfl fun k v hk => ?_
  simp only [List.getElem?_set]
  by_cases hik : i = k
  · subst hik
    rw [hu] at hk; cases hk
    exact ⟨f u, by simp [(List.getElem?_eq_some_iff.1 hu).1], hf u⟩
  · exact ⟨v, by simp [hik, hk], rfl, rfl⟩

theorem Agrees.apply (inv : Inv w) (h : Agrees w) {op : V2Op} (hr : ∀ target, op ≠ .removePrincipalRole target)
    (ha : op.apply w = .ok w') : Agrees w' := by
  have keep : ∀ {v : V2}, v.userRoles = w.userRoles → v.index = w.index → v.prs = w.prs → Agrees v :=
    fun h1 h2 h3 => h.same inv h1 h2 fun i u hu => ⟨u, by rw [h3]; exact hu, rfl, rfl⟩
  cases op with
  | newRole n => cases ha; exact keep rfl rfl rfl
  | addPermission a ps => obtain ⟨d, _, rfl⟩ := Out.map_eq_ok.1 ha; exact keep rfl rfl rfl
  | removePermission a ps => obtain ⟨d, _, rfl⟩ := Out.map_eq_ok.1 ha; exact keep rfl rfl rfl
  | addRoles as => obtain ⟨d, _, rfl⟩ := Out.map_eq_ok.1 ha; exact keep rfl rfl rfl
  | addChildRole fuel p cs => obtain ⟨d, _, rfl⟩ := Out.map_eq_ok.1 ha; exact keep rfl rfl rfl
  | newTenant id ns => cases ha; exact keep rfl rfl rfl
  | addNamespace c n d => obtain ⟨t, _, h1⟩ := withT_eq_ok.1 ha; cases h1; exact keep rfl rfl rfl
  | addScopes c n scs =>
    obtain ⟨⟨b, d⟩, h0, rfl⟩ := Out.map_eq_ok.1 ha
    obtain ⟨t, _, h1⟩ := withT_eq_ok.1 h0
    split at h1 <;> (cases h1; exact keep rfl rfl rfl)
  | addChildTenant c ds =>
    have : w'.userRoles = w.userRoles ∧ w'.index = w.index ∧ w'.prs = w.prs :=
      Out.loop_inv (P := fun v : V2 => v.userRoles = w.userRoles ∧ v.index = w.index ∧ v.prs = w.prs) (fun s s' d _ hs hf => by
        obtain ⟨t, _, h1⟩ := withT_eq_ok.1 hf
        obtain ⟨dt, _, h2⟩ := withT_eq_ok.1 h1
        cases h2; exact hs) ⟨rfl, rfl, rfl⟩ ha
    exact keep this.1 this.2.1 this.2.2
  | setStatus c s => obtain ⟨t, _, h1⟩ := withT_eq_ok.1 ha; cases h1; exact keep rfl rfl rfl
  | addTenant c => obtain ⟨t, ps, _, rfl⟩ := addTenant_eq ha; exact keep rfl rfl rfl
  | setDefaultTenant t => cases ha; exact keep rfl rfl rfl
  | newPrincipalRole u =>
    cases ha
    refine h.same inv rfl rfl fun i v hv => ⟨v, ?_, rfl, rfl⟩
    dsimp only
    rw [List.getElem?_append_left (List.getElem?_eq_some_iff.1 hv).1]; exact hv
  | setExpiry i now e =>
    refine h.onPR inv (fun u => ?_) ha
    unfold PR.setExpiry; split <;> exact ⟨rfl, rfl⟩
  | setExpiryDuration i parse now a =>
    refine h.onPR inv (fun u => ?_) ha
    cases a with
    | str s => cases hp : parse s <;> simp [PR.setExpiryDuration, hp]
    | dur d => exact ⟨rfl, rfl⟩
    | other => exact ⟨rfl, rfl⟩
  | clearExpiry i => exact h.onPR (f := PR.clearExpiry) inv (fun u => ⟨rfl, rfl⟩) ha
  | addPrincipalRole is =>
    have his : ∀ i ∈ is, ∃ u, w.prs[i]? = some u := by
      have : ∀ (is : List Nat) (w w' : V2), w.addPrincipalRole is = .ok w' → ∀ i ∈ is, ∃ u, w.prs[i]? = some u := by
        intro is
        induction is with
        | nil => intro w w' _ i hi; cases hi
        | cons j is ih =>
          intro w w' hw i hi
          rw [addPrincipalRole, Out.loop] at hw
          obtain ⟨w1, h1, h2⟩ := Out.bind_eq_ok.1 hw
          obtain ⟨u, hu, h3⟩ := Out.bind_eq_ok.1 h1
          obtain ⟨k, hk, hu⟩ := prAt_eq_ok.1 hu
          cases hk; cases h3
          rcases List.mem_cons.1 hi with rfl | hi
          · exact ⟨u, hu⟩
          · exact ih _ _ h2 i hi
      exact this is w w' ha
    obtain ⟨v, h1, h2, h3, h4⟩ := C73_addPrincipalRole his
    rw [show (V2Op.addPrincipalRole is).apply w = w.addPrincipalRole is from rfl, h1] at ha
    rw [Out.ok.injEq] at ha
    subst ha
    intro p t
    have ep : v.prs = w.prs := by have := congrArg V2.prs h4; exact this
    have et : ∀ l, those v p t l = those w p t l := fun l => by unfold those; rw [ep]
    rw [h3, h p t, et, h2, List.filterMap_append]
    have : (is.map some).filterMap id = is := by
      rw [List.filterMap_map]; exact List.filterMap_some
    rw [this]
    unfold those
    rw [List.filter_append]
  | removePrincipalRole target => exact absurd rfl (hr target)
  | authorize e fuel site r =>
    obtain ⟨⟨b, d⟩, h1, rfl⟩ := Out.map_eq_ok.1 ha
    have f := (authorize_run inv h1).frame
    exact keep (by rw [f]) (by rw [f]) (by rw [f])
  | can e fuel site r roles =>
    obtain ⟨⟨b, d⟩, h1, rfl⟩ := Out.map_eq_ok.1 ha
    have f := (can_run inv h1).frame
    exact keep (by rw [f]) (by rw [f]) (by rw [f])

/-- C73. As long as nothing is removed, the index agrees with the list. -/
theorem C73_index {l : Bool} {ops : List V2Op} (h : V2Op.run { logger := l } ops = .ok w)
    (hr : ∀ target, V2Op.removePrincipalRole target ∉ ops) : Agrees w := by
  have := Out.loop_inv (P := fun v => Inv v ∧ Agrees v) (fun s s' op hop hs hf =>
    ⟨inv_apply hs.1 hf, hs.2.apply hs.1 (fun target e => hr target (e ▸ hop)) hf⟩)
    ⟨inv_init l, fun p t => rfl⟩ h
  exact this.2

/-- C73. A removal that selects the last assignments keeps the agreement. -/
theorem C73_index_removed (inv : Inv w) (h : Agrees w) (hnil : none ∉ w.userRoles) {target : PR} (hend : AtEnd w target) {b : Bool}
    (hr : w.removePrincipalRole target = .ok (b, w')) : Agrees w' := by
  cases b with
  | true => rw [(C48_error inv hnil hr).2 rfl]; exact h
  | false =>
    intro p t
    have h1 := (nil_iff_not_atEnd inv hnil hr).1 hend
    have ep : w'.prs = w.prs := by rw [C48_frame hr]
    rw [index_removed inv hr, h p t, h1]
    unfold those
    rw [ep, List.filter_filter]
    generalize w.userRoles = l
    induction l with
    | nil => rfl
    | cons x l ih =>
      cases x with
      | none => cases hs : w.sel target none <;> simpa [hs] using ih
      | some i =>
        cases hs : w.sel target (some i) with
        | true => simpa [hs, List.filter_cons] using ih
        | false =>
          simp only [id_eq, List.filterMap_cons, List.filter_cons, hs, Bool.not_false, Bool.true_and, if_true]
          split <;> [exact congrArg _ ih; exact ih]

/-- Two tenants with id "t", a child, a repeated assignment. -/
def exSetup2 : List V2Op := [.newTenant (str "t") (some (str "n")), .newTenant (str "t") none, .newTenant (str "k") none,
  .addChildTenant 1 [2], .addTenant 0, .addTenant 1, .addNamespace 1 (str "m") true,
  .newPrincipalRole { principal := str "p", tenant := str "t" }, .newPrincipalRole { principal := str "p", tenant := str "k" },
  .newPrincipalRole { principal := str "p", tenant := str "t", role := str "r" }, .addPrincipalRole [0, 1, 2, 0]]

/-- The hypotheses hold: the later tenant is registered, and the index has the assignments in order. -/
example : ∃ w, V2Op.run {} exSetup2 = .ok w ∧
    (w.tenants = [(str "t", 1)] ∧ w.parents = [(str "k", 1)] ∧ w.tobjs.map (·.defNs) = [str "n", str "m", []] ∧
     indexAt w (str "p") (str "t") = [0, 2, 0] ∧ indexAt w (str "p") (str "k") = [1] ∧
     w.userRoles = [some 0, some 1, some 2, some 0]) := Out.chk_ok (by decide +kernel)

/-- A scope in a missing namespace is an error, a repeated scope is kept once. -/
example : ∃ w, V2Op.run {} exSetup2 = .ok w ∧ ((w.tAddScope 1 (str "n") [str "s"]).map (·.1) = .ok true ∧
     (w.tAddScope 0 (str "n") [str "s", str "s"]).Chk fun x => x.1 = false ∧
        x.2.tobjs.map (fun t => t.namespaces.map (·.2)) = [[[str "s"]], [[]], []]) := Out.chk_ok (by decide +kernel)

end V2
end Verif
