import Verif.Model.V2Cost
import Verif.Props.V2Cache

/-!
# Package v2: how much work a decision is (C130)
-/

namespace Verif
open Spec
namespace V2
variable {w w' : V2} {e : Env} {fuel : Nat} {site : List Val}

/-! ## The counters do not change the answers -/

theorem loop_map {σ τ α : Type} {f : σ → α → Out σ} {g : τ → α → Out τ} {pr : σ → τ} {xs : List α}
    (h : ∀ s, ∀ x ∈ xs, (f s x).map pr = g (pr s) x) (s : σ) : (Out.loop f s xs).map pr = Out.loop g (pr s) xs := by
  induction xs generalizing s with
  | nil => rfl
  | cons x xs ih =>
    unfold Out.loop
    rw [← h s x (List.mem_cons_self ..)]
    cases f s x with
    | ok s' => exact ih (fun s y hy => h s y (List.mem_cons_of_mem _ hy)) s'
    | panic => rfl
    | diverge => rfl

theorem traverseC_fst {σ : Type} {p : Str} {visit : Str → σ → Out σ} (n c : Nat) (st : (List Str × σ) × Work) :
    (w.traverseC e site p visit n c st).map (·.1) = w.traverse e site p visit n c st.1 := by
  induction n generalizing c st with
  | zero => rfl
  | succ n ih =>
    unfold traverseC traverse withT
    cases w.tobjs[c]? with
    | none => rfl
    | some t =>
      dsimp only
      split
      · rfl
      · cases visit t.id st.1.2 with
        | panic => rfl
        | diverge => rfl
        | ok s =>
          refine loop_map (fun st xi _ => ?_) _
          cases w.prAt xi.1 with
          | panic => rfl
          | diverge => rfl
          | ok u =>
            dsimp only [Out.bind_ok]
            split
            · exact loop_map (fun st kd _ => ih kd.2 st) st
            · rfl

theorem resolvePermsC_fst {p tid ns sc : Str} : (w.resolvePermsC e fuel site p tid ns sc).map (·.1) = w.resolvePerms e fuel site p tid ns sc := by
  unfold resolvePermsC resolvePerms
  cases w.tenants.get tid with
  | none => rfl
  | some c =>
    dsimp only
    have := traverseC_fst (w := w) (e := e) (site := site) (p := p)
      (visit := fun tid s => Out.loop (w.permRow e fuel site p ns sc tid) s w.userRoles.zipIdx) fuel c (([], ({ dag := w.dag } : PAcc)), {})
    dsimp only at this
    rw [← this]
    cases w.traverseC e site p (fun tid s => Out.loop (w.permRow e fuel site p ns sc tid) s w.userRoles.zipIdx) fuel c (([], ({ dag := w.dag } : PAcc)), {}) <;> rfl

theorem resolveRolesC_fst {p tid ns : Str} : (w.resolveRolesC e fuel site p tid ns).map (·.1) = w.resolveRoles e fuel site p tid ns := by
  unfold resolveRolesC resolveRoles
  cases w.tenants.get tid with
  | none => rfl
  | some c =>
    dsimp only
    have := traverseC_fst (w := w) (e := e) (site := site) (p := p)
      (visit := fun tid s => Out.loop (w.roleRow e fuel site p ns tid) s w.userRoles.zipIdx) fuel c (([], ({ dag := w.dag } : RAcc)), {})
    dsimp only at this
    rw [← this]
    cases w.traverseC e site p (fun tid s => Out.loop (w.roleRow e fuel site p ns tid) s w.userRoles.zipIdx) fuel c (([], ({ dag := w.dag } : RAcc)), {}) <;> rfl

theorem tenantLoopC_fst {r : Req2} {body : Nat → Str → Str → V2 → Out ((Bool × V2) × Work)} {body' : Nat → Str → Str → V2 → Out (Bool × V2)}
    (h : ∀ k tid ns w, (body k tid ns w).map (·.1) = body' k tid ns w) (k : Nat) (cs : List Nat) (w : V2) :
    (tenantLoopC r body k cs w).map (·.1) = tenantLoop r body' k cs w := by
  induction cs generalizing k w with
  | nil => rfl
  | cons c cs ih =>
    unfold tenantLoopC tenantLoop withT
    cases w.tobjs[c]? with
    | none => rfl
    | some t =>
      dsimp only
      cases nsOf t r with
      | none => exact ih ..
      | some ns =>
        dsimp only
        cases t.namespaces.get ns with
        | none => exact ih ..
        | some scs =>
          dsimp only
          split
          · exact ih ..
          · rw [← h]
            cases body k t.id ns w with
            | panic => rfl
            | diverge => rfl
            | ok bw =>
              dsimp only [Out.bind_ok, Out.map_ok]
              split
              · rfl
              · rw [← ih]
                cases tenantLoopC r body (k + 1) cs bw.1.2 <;> rfl

/-- C130. With or without counters: the same answers, panics and endless recursions. -/
theorem C130_counted {r : Req2} (roles : List Str) : (w.authorizeC e fuel site r).map (·.1) = w.authorize e fuel site r ∧
    (w.canC e fuel site r roles).map (·.1) = w.can e fuel site r roles := by
  constructor
  · unfold authorizeC authorize
    cases w.findTargets e.o site r with
    | panic => rfl
    | diverge => rfl
    | ok ts =>
      cases ts with
      | none => rfl
      | some cs =>
        refine tenantLoopC_fst (fun k tid ns w => ?_) 0 cs w
        unfold authBodyC authBody
        rw [← resolvePermsC_fst]
        cases w.resolvePermsC e fuel (site ++ [.int k]) r.principal tid ns r.scope with
        | panic => rfl
        | diverge => rfl
        | ok pd =>
          dsimp only [Out.bind_ok, Out.map_ok]
          cases pd.1.1 with
          | none => rfl
          | some perms => dsimp only; cases Out.anyI (fun _ perm => matchPermission perm r) 0 (e.o.ord (site ++ [.int k]) _ perms) <;> rfl
  · unfold canC can
    cases w.findTargets e.o site r with
    | panic => rfl
    | diverge => rfl
    | ok ts =>
      cases ts with
      | none => rfl
      | some cs =>
        refine tenantLoopC_fst (fun k tid ns w => ?_) 0 cs w
        unfold canBodyC canBody
        rw [← resolveRolesC_fst]
        cases w.resolveRolesC e fuel (site ++ [.int k]) r.principal tid ns with
        | panic => rfl
        | diverge => rfl
        | ok pd =>
          dsimp only [Out.bind_ok, Out.map_ok]
          cases pd.1.1 with
          | none => rfl
          | some rs => rfl

/-! ## Bounds -/

/-- Child links of the tenants whose id is not in `V`. -/
def openLinks (ts : List T2) (V : List Str) : Nat := ((ts.filter fun t => decide (t.id ∉ V)).map fun t => t.children.length).sum

/-- Tenants whose id is not in `V`. -/
def openTenants (ts : List T2) (V : List Str) : Nat := (ts.filter fun t => decide (t.id ∉ V)).length

theorem openLinks_visit {ts : List T2} {V : List Str} {t : T2} (ht : t ∈ ts) (hv : t.id ∉ V) :
    openLinks ts (V ++ [t.id]) + t.children.length ≤ openLinks ts V := by
  unfold openLinks
  induction ts with
  | nil => cases ht
  | cons a ts ih =>
    have mono : ∀ ts : List T2, ((ts.filter fun x => decide (x.id ∉ V ++ [t.id])).map fun t => t.children.length).sum ≤
        ((ts.filter fun x => decide (x.id ∉ V)).map fun t => t.children.length).sum := fun ts => by
      induction ts with
      | nil => simp
      | cons b ts ih2 =>
        by_cases h1 : b.id ∈ V
        · simp [h1] at ih2 ⊢; exact ih2
        · by_cases h2 : b.id = t.id
          · simp [h2, hv] at ih2 ⊢; omega
          · simp [h1, h2] at ih2 ⊢; omega
    rcases List.mem_cons.1 ht with rfl | ht'
    · have := mono ts
      simp [hv] at this ⊢; omega
    · have := ih ht'
      by_cases h1 : a.id ∈ V
      · simp [h1] at this ⊢; exact this
      · by_cases h2 : a.id = t.id
        · simp [h2, hv] at this ⊢; omega
        · simp [h1, h2] at this ⊢; omega

theorem openTenants_visit {ts : List T2} {V : List Str} {t : T2} (ht : t ∈ ts) (hv : t.id ∉ V) :
    openTenants ts (V ++ [t.id]) + 1 ≤ openTenants ts V := by
  unfold openTenants
  induction ts with
  | nil => cases ht
  | cons a ts ih =>
    have mono : ∀ ts : List T2, (ts.filter fun x => decide (x.id ∉ V ++ [t.id])).length ≤ (ts.filter fun x => decide (x.id ∉ V)).length :=
      fun ts => by
        induction ts with
        | nil => simp
        | cons b ts ih2 =>
          by_cases h1 : b.id ∈ V
          · simp [h1] at ih2 ⊢; exact ih2
          · by_cases h2 : b.id = t.id
            · simp [h2, hv] at ih2 ⊢; omega
            · simp [h1, h2] at ih2 ⊢; omega
    rcases List.mem_cons.1 ht with rfl | ht'
    · have := mono ts
      simp [hv] at this ⊢; omega
    · have := ih ht'
      by_cases h1 : a.id ∈ V
      · simp [h1] at this ⊢; exact this
      · by_cases h2 : a.id = t.id
        · simp [h2, hv] at this ⊢; omega
        · simp [h1, h2] at this ⊢; omega

theorem loop_grows {σ α : Type} {f : σ → α → Out σ} {g : σ → Nat} {B : Nat} {xs : List α} {s s' : σ}
    (hf : ∀ s s' x, f s x = .ok s' → g s' ≤ g s + B) (h : Out.loop f s xs = .ok s') : g s' ≤ g s + xs.length * B := by
  induction xs generalizing s with
  | nil => cases h; simp
  | cons x xs ih =>
    obtain ⟨s1, h1, h2⟩ := Out.bind_eq_ok.1 h
    have := ih h2
    have := hf _ _ _ h1
    rw [List.length_cons, Nat.add_mul, Nat.one_mul]; omega

theorem traverseC_le {σ : Type} {p : Str} {visit : Str → σ → Out σ} {n c : Nat} {st st' : (List Str × σ) × Work}
    (h : w.traverseC e site p visit n c st = .ok st') :
    st'.2.calls + w.userRoles.length * openLinks w.tobjs st'.1.1 ≤ st.2.calls + w.userRoles.length * openLinks w.tobjs st.1.1 + 1 ∧
    st'.2.reads + 2 * w.userRoles.length * openTenants w.tobjs st'.1.1 ≤ st.2.reads + 2 * w.userRoles.length * openTenants w.tobjs st.1.1 := by
  induction n generalizing c st st' with
  | zero => cases h
  | succ n ih =>
    unfold traverseC at h
    obtain ⟨t, ht, h1⟩ := withT_eq_ok.1 h
    split at h1
    · cases h1; exact ⟨by simp; omega, Nat.le_refl _⟩
    · rename_i hv
      obtain ⟨s, h2, h3⟩ := Out.bind_eq_ok.1 h1
      have l1 := openLinks_visit (List.mem_of_getElem? ht) hv
      have l2 := openTenants_visit (List.mem_of_getElem? ht) hv
      have k1 := loop_grows (g := fun st : (List Str × σ) × Work => st.2.calls + w.userRoles.length * openLinks w.tobjs st.1.1)
        (B := t.children.length) (fun s s' xi hf => by
          obtain ⟨u, _, h4⟩ := Out.bind_eq_ok.1 hf
          split at h4
          · have := loop_grows (g := fun st : (List Str × σ) × Work => st.2.calls + w.userRoles.length * openLinks w.tobjs st.1.1)
              (B := 1) (fun s s' kd hk => (ih hk).1) h4
            rw [Ord.ord_length, Nat.mul_one] at this
            exact this
          · cases h4; exact Nat.le_add_right ..) h3
      have k2 := loop_grows (g := fun st : (List Str × σ) × Work => st.2.reads + 2 * w.userRoles.length * openTenants w.tobjs st.1.1)
        (B := 0) (fun s s' xi hf => by
          obtain ⟨u, _, h4⟩ := Out.bind_eq_ok.1 hf
          split at h4
          · have := loop_grows (g := fun st : (List Str × σ) × Work => st.2.reads + 2 * w.userRoles.length * openTenants w.tobjs st.1.1)
              (B := 0) (fun s s' kd hk => (ih hk).2) h4
            rw [Nat.mul_zero] at this
            exact this
          · cases h4; exact Nat.le_add_right ..) h3
      rw [List.length_zipIdx] at k1
      dsimp only at k1 k2
      have m1 := Nat.mul_le_mul_left w.userRoles.length l1
      have m2 := Nat.mul_le_mul_left (2 * w.userRoles.length) l2
      rw [Nat.mul_add] at m1 m2
      constructor <;> omega

/-- Child links of all tenants. -/
def links (w : V2) : Nat := (w.tobjs.map fun t => t.children.length).sum

theorem openLinks_nil (ts : List T2) : openLinks ts [] = (ts.map fun t => t.children.length).sum := by
  unfold openLinks; simp

theorem openTenants_nil (ts : List T2) : openTenants ts [] = ts.length := by
  unfold openTenants; simp

theorem perms_le {p tid ns sc : Str} {x : (Option (List Str) × Dag) × Work} (h : w.resolvePermsC e fuel site p tid ns sc = .ok x) :
    x.2.calls ≤ w.userRoles.length * w.links + 1 ∧ x.2.reads ≤ 2 * w.userRoles.length * w.tobjs.length := by
  unfold resolvePermsC at h
  split at h
  · cases h; exact ⟨Nat.zero_le _, Nat.zero_le _⟩
  · obtain ⟨y, h1, rfl⟩ := Out.map_eq_ok.1 h
    have := traverseC_le h1
    dsimp only at this
    rw [openLinks_nil, openTenants_nil] at this
    exact ⟨by unfold links; dsimp only; omega, by dsimp only; omega⟩

theorem roles_le {p tid ns : Str} {x : (Option (List Str) × Dag) × Work} (h : w.resolveRolesC e fuel site p tid ns = .ok x) :
    x.2.calls ≤ w.userRoles.length * w.links + 1 ∧ x.2.reads ≤ 2 * w.userRoles.length * w.tobjs.length := by
  unfold resolveRolesC at h
  split at h
  · cases h; exact ⟨Nat.zero_le _, Nat.zero_le _⟩
  · obtain ⟨y, h1, rfl⟩ := Out.map_eq_ok.1 h
    have := traverseC_le h1
    dsimp only at this
    rw [openLinks_nil, openTenants_nil] at this
    exact ⟨by unfold links; dsimp only; omega, by dsimp only; omega⟩

theorem logMsg_users (r : Req2) (m : Msg) : (w.logMsg r m).userRoles = w.userRoles ∧ (w.logMsg r m).tobjs = w.tobjs := by
  unfold logMsg; split <;> exact ⟨rfl, rfl⟩

theorem authBodyC_le {r : Req2} {k : Nat} {tid ns : Str} {x : (Bool × V2) × Work} (h : authBodyC e fuel site r k tid ns w = .ok x) :
    (x.2.calls ≤ w.userRoles.length * w.links + 1 ∧ x.2.reads ≤ 2 * w.userRoles.length * w.tobjs.length) ∧
      x.1.2.userRoles = w.userRoles ∧ x.1.2.tobjs = w.tobjs := by
  obtain ⟨pd, h1, h2⟩ := Out.bind_eq_ok.1 h
  have := perms_le h1
  split at h2
  · cases h2; exact ⟨this, logMsg_users ..⟩
  · obtain ⟨b, _, rfl⟩ := Out.map_eq_ok.1 h2
    refine ⟨this, ?_⟩
    dsimp only
    split
    · exact logMsg_users ..
    · exact ⟨rfl, rfl⟩

theorem canBodyC_le {r : Req2} {roles : List Str} {k : Nat} {tid ns : Str} {x : (Bool × V2) × Work}
    (h : canBodyC e fuel site r roles k tid ns w = .ok x) :
    (x.2.calls ≤ w.userRoles.length * w.links + 1 ∧ x.2.reads ≤ 2 * w.userRoles.length * w.tobjs.length) ∧
      x.1.2.userRoles = w.userRoles ∧ x.1.2.tobjs = w.tobjs := by
  obtain ⟨pd, h1, h2⟩ := Out.bind_eq_ok.1 h
  have := roles_le h1
  split at h2
  · cases h2; exact ⟨this, logMsg_users ..⟩
  · cases h2
    refine ⟨this, ?_⟩
    dsimp only
    split
    · exact logMsg_users ..
    · exact ⟨rfl, rfl⟩

theorem tenantLoopC_le {r : Req2} {body : Nat → Str → Str → V2 → Out ((Bool × V2) × Work)} {us : List (Option Nat)} {ts : List T2} {B R : Nat}
    (hb : ∀ k tid ns w x, w.userRoles = us → w.tobjs = ts → body k tid ns w = .ok x →
      (x.2.calls ≤ B ∧ x.2.reads ≤ R) ∧ x.1.2.userRoles = us ∧ x.1.2.tobjs = ts)
    {k : Nat} {cs : List Nat} {w : V2} (h1 : w.userRoles = us) (h2 : w.tobjs = ts) {x : (Bool × V2) × Work}
    (h : tenantLoopC r body k cs w = .ok x) : x.2.calls ≤ cs.length * B ∧ x.2.reads ≤ cs.length * R := by
  induction cs generalizing k w x with
  | nil => cases h; exact ⟨Nat.zero_le _, Nat.zero_le _⟩
  | cons c cs ih =>
    have up : ∀ {x : (Bool × V2) × Work}, x.2.calls ≤ cs.length * B ∧ x.2.reads ≤ cs.length * R →
        x.2.calls ≤ (c :: cs).length * B ∧ x.2.reads ≤ (c :: cs).length * R := fun {x} hx => by
      rw [List.length_cons, Nat.add_mul, Nat.add_mul]; omega
    unfold tenantLoopC at h
    obtain ⟨t, _, h3⟩ := withT_eq_ok.1 h
    split at h3
    · exact up (ih h1 h2 h3)
    · split at h3
      · exact up (ih h1 h2 h3)
      · split at h3
        · exact up (ih h1 h2 h3)
        · obtain ⟨bw, g1, g2⟩ := Out.bind_eq_ok.1 h3
          obtain ⟨a1, a2, a3⟩ := hb _ _ _ _ _ h1 h2 g1
          rw [List.length_cons, Nat.add_mul, Nat.add_mul, Nat.one_mul, Nat.one_mul]
          split at g2
          · cases g2; omega
          · obtain ⟨y, g3, rfl⟩ := Out.map_eq_ok.1 g2
            have := ih a2 a3 g3
            dsimp only; omega

theorem targets_le (inv : Inv w) {o : Ord} {r : Req2} {cs : List Nat} (h : w.findTargets o site r = .ok (some cs)) :
    cs.length ≤ w.tenants.length := by
  obtain ⟨h1, h2⟩ := (findTargets_spec inv h).1 cs rfl
  have hs : cs ⊆ w.tenants.map (·.2) := fun c hc => by
    obtain ⟨t, _, ht⟩ := target_registered inv ((h2 c).1 hc)
    exact List.mem_map.2 ⟨_, ht, rfl⟩
  have := (List.subperm_of_subset h1 hs).length_le
  rwa [List.length_map] at this

/-- C130. `Authorize` calls `traverse`, for each registered tenant, once and once more for each assignment and child link at most,
and reads the assignments twice for each tenant object: a polynomial, whatever the tenant graph and the map order. -/
theorem C130_authorize (inv : Inv w) {r : Req2} {x : (Bool × V2) × Work} (h : w.authorizeC e fuel site r = .ok x) :
    x.2.calls ≤ w.tenants.length * (w.userRoles.length * w.links + 1) ∧
      x.2.reads ≤ w.tenants.length * (2 * w.userRoles.length * w.tobjs.length) := by
  obtain ⟨ts, h1, h2⟩ := Out.bind_eq_ok.1 h
  cases ts with
  | none => cases h2; exact ⟨Nat.zero_le _, Nat.zero_le _⟩
  | some cs =>
    have := tenantLoopC_le (us := w.userRoles) (ts := w.tobjs) (B := w.userRoles.length * w.links + 1)
      (R := 2 * w.userRoles.length * w.tobjs.length) (fun k tid ns v x g1 g2 g3 => by
      have := authBodyC_le g3
      unfold links at this ⊢
      rw [g1, g2] at this; exact this) rfl rfl h2
    have hl := targets_le inv h1
    exact ⟨Nat.le_trans this.1 (Nat.mul_le_mul_right _ hl), Nat.le_trans this.2 (Nat.mul_le_mul_right _ hl)⟩

/-- C130. The same for `Can`. -/
theorem C130_can (inv : Inv w) {r : Req2} {roles : List Str} {x : (Bool × V2) × Work} (h : w.canC e fuel site r roles = .ok x) :
    x.2.calls ≤ w.tenants.length * (w.userRoles.length * w.links + 1) ∧
      x.2.reads ≤ w.tenants.length * (2 * w.userRoles.length * w.tobjs.length) := by
  obtain ⟨ts, h1, h2⟩ := Out.bind_eq_ok.1 h
  cases ts with
  | none => cases h2; exact ⟨Nat.zero_le _, Nat.zero_le _⟩
  | some cs =>
    have := tenantLoopC_le (us := w.userRoles) (ts := w.tobjs) (B := w.userRoles.length * w.links + 1)
      (R := 2 * w.userRoles.length * w.tobjs.length) (fun k tid ns v x g1 g2 g3 => by
      have := canBodyC_le g3
      unfold links at this ⊢
      rw [g1, g2] at this; exact this) rfl rfl h2
    have hl := targets_le inv h1
    exact ⟨Nat.le_trans this.1 (Nat.mul_le_mul_right _ hl), Nat.le_trans this.2 (Nat.mul_le_mul_right _ hl)⟩

/-- C130. When the request or the default names a tenant the factor is one. -/
theorem C130_named {r : Req2} (hn : named w r ≠ []) {x : (Bool × V2) × Work} (h : w.authorizeC e fuel site r = .ok x) :
    x.2.calls ≤ w.userRoles.length * w.links + 1 ∧ x.2.reads ≤ 2 * w.userRoles.length * w.tobjs.length := by
  obtain ⟨ts, h1, h2⟩ := Out.bind_eq_ok.1 h
  cases ts with
  | none => cases h2; exact ⟨Nat.zero_le _, Nat.zero_le _⟩
  | some cs =>
    have := tenantLoopC_le (us := w.userRoles) (ts := w.tobjs) (B := w.userRoles.length * w.links + 1)
      (R := 2 * w.userRoles.length * w.tobjs.length) (fun k tid ns v x g1 g2 g3 => by
      have := authBodyC_le g3
      unfold links at this ⊢
      rw [g1, g2] at this; exact this) rfl rfl h2
    have hc : cs.length = 1 := by
      unfold findTargets at h1
      rw [named_eq] at h1
      simp only [if_neg hn] at h1
      split at h1
      · cases h1
      · cases h1; rfl
    rw [hc, Nat.one_mul, Nat.one_mul] at this
    exact this

/-- C130. Resolving a role goes round its queue once for the role and once for each link between roles at most: that
many rounds are always enough. -/
theorem C130_roles (inv : w.dag.DInv) (role : Str) {n : Nat} (hn : 1 + (w.dag.edges.map fun e => e.2.length).sum ≤ n) :
    (∃ s, w.dag.resolvePermissions n role = .ok s) ∧ ∃ s, w.dag.resolveChildRoles n role = .ok s := by
  have hp : Dag.pending w.dag.edges [] = (w.dag.edges.map fun e => e.2.length).sum := by unfold Dag.pending; simp
  exact ⟨Dag.resolve_total inv _ (by rw [hp]; exact hn) role, Dag.resolve_total inv _ (by rw [hp]; exact hn) role⟩

/-- Tenants "t" above "a" and "b", both above "c"; `p` manages the child tenants of all and has no role. -/
def exDiamond : List V2Op := [.newTenant (str "t") (some (str "n")), .newTenant (str "a") none, .newTenant (str "b") none,
  .newTenant (str "c") none, .addChildTenant 0 [1, 2], .addChildTenant 1 [3], .addChildTenant 2 [3], .addTenant 0,
  .newPrincipalRole { principal := str "p", tenant := str "t", manage := true },
  .newPrincipalRole { principal := str "p", tenant := str "a", manage := true },
  .newPrincipalRole { principal := str "p", tenant := str "b", manage := true }, .addPrincipalRole [0, 1, 2]]

/-- C130. Five calls for four tenants, "c" being met twice; the bound is 13. -/
example : ∃ w, V2Op.run {} exDiamond = .ok w ∧ (w.authorizeC exEnv 9 [] exReq).map (fun x => (x.1.1, x.2)) = .ok (false, ⟨5, 24⟩) ∧
    w.tenants.length * (w.userRoles.length * w.links + 1) = 13 ∧ w.tenants.length * (2 * w.userRoles.length * w.tobjs.length) = 24 :=
  Out.chk_ok (by decide +kernel)

end V2
end Verif
