import Verif.Props.V2Remove

/-!
# Package v2: the role cache (C47)
-/

namespace Verif
open Spec
namespace V2
variable {w w' : V2} {e : Env} {fuel : Nat} {site : List Val}

/-- The state with an empty role cache: in it every role grants its current permissions. -/
def fresh (w : V2) : V2 := { w with dag := { w.dag with resolved := [] } }

theorem inv_fresh (inv : Inv w) : Inv (fresh w) :=
  ⟨⟨inv.dag.rolesWF, inv.dag.edgesWF, GoMap.wf_nil, inv.dag.keyed, inv.dag.perms⟩, inv.tenantsWF, inv.tenants, inv.nsWF, inv.childrenWF,
    inv.children, inv.users, inv.indexWF, inv.indexWF2, inv.indexed⟩

theorem permClosure_same {d d' : Dag} (h : d.SameBut d') {r x : Str} : PermClosure d' r x ↔ PermClosure d r x := by
  unfold PermClosure HasPerm
  simp only [h.under, h.1, h.2.1]

theorem rolePerm_fresh {r x : Str} : RolePerm (fresh w).dag r x ↔ PermClosure w.dag r x := by
  unfold RolePerm
  have : (fresh w).dag.resolved = [] := rfl
  simp only [this, List.not_mem_nil, false_and, exists_false, not_false_eq_true, implies_true, true_and, false_or]
  exact permClosure_same (d := w.dag) (d' := (fresh w).dag) ⟨rfl, rfl, rfl⟩

/-- The role grants its current permissions. -/
def Fits (d : Dag) (r : Str) : Prop := ∀ x, RolePerm d r x ↔ PermClosure d r x

theorem fits_uncached {d : Dag} {r : Str} (h : ∀ s, (r, s) ∉ d.resolved) : Fits d r := fun x =>
  ⟨fun h1 => by
    rcases h1 with ⟨s, h2, _⟩ | ⟨_, h2⟩
    · exact absurd h2 (h s)
    · exact h2, fun h1 => .inr ⟨h, h1⟩⟩

theorem grants_fresh {now : Int} {r : Req2} (hf : ∀ u, Assigned w u → u.principal = r.principal → Fits w.dag u.role) :
    Grants2 w now r ↔ Grants2 (fresh w) now r := by
  have hm : ∀ p c c', Managed (fresh w) p c c' ↔ Managed w p c c' := fun p c c' => by
    constructor <;> intro h
    · induction h with
      | self => exact .self
      | child _ g1 g2 g3 ih => exact .child ih g1 g2 g3
    · induction h with
      | self => exact .self
      | child _ g1 g2 g3 ih => exact .child ih g1 g2 g3
  have hc : ∀ p c t, Covers (fresh w) p c t ↔ Covers w p c t := fun p c t => by unfold Covers; simp only [hm]; rfl
  have hs : ∀ c ns x, ScopedPerm (fresh w) now r c ns x ↔ ScopedPerm w now r c ns x := fun c ns x => by
    unfold ScopedPerm
    simp only [hc, rolePerm_fresh]
    constructor
    · rintro ⟨t, u, h1, h2, h3, h4⟩; exact ⟨t, u, h1, h2, h3, (hf u h2.1 h2.2.1 x).2 h4⟩
    · rintro ⟨t, u, h1, h2, h3, h4⟩; exact ⟨t, u, h1, h2, h3, (hf u h2.1 h2.2.1 x).1 h4⟩
  have hu : ∀ c ns x, UnscopedPerm (fresh w) now r c ns x ↔ UnscopedPerm w now r c ns x := fun c ns x => by
    unfold UnscopedPerm
    simp only [hc, rolePerm_fresh]
    constructor
    · rintro ⟨t, u, h1, h2, h3, h4⟩; exact ⟨t, u, h1, h2, h3, (hf u h2.1 h2.2.1 x).2 h4⟩
    · rintro ⟨t, u, h1, h2, h3, h4⟩; exact ⟨t, u, h1, h2, h3, (hf u h2.1 h2.2.1 x).1 h4⟩
  unfold Grants2 UsedPerm
  simp only [hs, hu]
  rfl

/-- C47 as intended: `Authorize` uses the current permissions. -/
def C47_full : Prop := ∀ (l : Bool) ops w e fuel site r now b w', V2Op.run { logger := l } ops = .ok w → Steady w e now →
  (∀ p c, NoTwins w p c) → w.authorize e fuel site r = .ok (b, w') → (b = true ↔ Grants2 (fresh w) now r)

/-- C47. `Authorize` uses the current permissions when those of the principal's roles that are cached are cached
with their current permissions - in particular when none is cached. -/
theorem C47_roles_partial (inv : Inv w) {now : Int} (st : Steady w e now) {r : Req2}
    (tw : ∀ c, Target w r c → NoTwins w r.principal c)
    (hf : ∀ u, Assigned w u → u.principal = r.principal → (∀ s, (u.role, s) ∉ w.dag.resolved) ∨ Fits w.dag u.role)
    {b : Bool} (h : w.authorize e fuel site r = .ok (b, w')) : b = true ↔ Grants2 (fresh w) now r :=
  (authorize_exact inv st tw h).trans (grants_fresh fun u h1 h2 => (hf u h1 h2).elim fits_uncached id)

end V2

/-! ## Histories -/

/-- Calls that change roles, their permissions or their links. -/
def V2Op.changesRoles : V2Op → Bool
  | newRole _ | addPermission .. | removePermission .. | addRoles _ | addChildRole .. => true
  | _ => false

/-- `Authorize` and `Can`. -/
def V2Op.decides : V2Op → Bool
  | authorize .. | can .. => true
  | _ => false

/-- `Can`. -/
def V2Op.isCan : V2Op → Bool
  | can .. => true
  | _ => false

namespace V2
variable {w w' : V2} {e : Env} {fuel : Nat} {site : List Val}

theorem onPR_dag {i : Nat} {f : PR → PR} (h : V2Op.onPR w i f = .ok w') : w'.dag = w.dag := by
  obtain ⟨u, _, rfl⟩ := Out.map_eq_ok.1 h; rfl

/-- The other calls leave the role graph alone. -/
theorem dag_apply {op : V2Op} (h1 : op.changesRoles = false) (h2 : op.decides = false) (h : op.apply w = .ok w') : w'.dag = w.dag := by
  cases op with
  | newRole n => cases h1
  | addPermission a ps => cases h1
  | removePermission a ps => cases h1
  | addRoles as => cases h1
  | addChildRole fuel p cs => cases h1
  | newTenant id ns => cases h; rfl
  | addNamespace c n d => obtain ⟨t, _, g⟩ := withT_eq_ok.1 h; cases g; rfl
  | addScopes c n scs =>
    obtain ⟨⟨b, d⟩, g1, rfl⟩ := Out.map_eq_ok.1 h
    obtain ⟨t, _, g2⟩ := withT_eq_ok.1 g1
    split at g2 <;> cases g2 <;> rfl
  | addChildTenant c ds =>
    refine Out.loop_inv (P := fun x : V2 => x.dag = w.dag) (fun s s' d _ hs hf => ?_) rfl h
    obtain ⟨t, _, g1⟩ := withT_eq_ok.1 hf
    obtain ⟨dt, _, g2⟩ := withT_eq_ok.1 g1
    cases g2; exact hs
  | setStatus c s => obtain ⟨t, _, g⟩ := withT_eq_ok.1 h; cases g; rfl
  | addTenant c => obtain ⟨t, ps, _, rfl⟩ := addTenant_eq h; rfl
  | setDefaultTenant t => cases h; rfl
  | newPrincipalRole u => cases h; rfl
  | setExpiry i now e => exact onPR_dag h
  | setExpiryDuration i parse now a => exact onPR_dag h
  | clearExpiry i => exact onPR_dag h
  | addPrincipalRole is =>
    refine Out.loop_inv (P := fun x : V2 => x.dag = w.dag) (fun s s' i _ hs hf => ?_) rfl h
    obtain ⟨u, _, g⟩ := Out.bind_eq_ok.1 hf
    cases g; exact hs
  | removePrincipalRole target =>
    obtain ⟨⟨b, d⟩, g, rfl⟩ := Out.map_eq_ok.1 h
    rcases (remove_eq g).2 with ⟨_, rfl, _⟩ | ⟨_, _, rfl⟩ <;> rfl
  | authorize e fuel site r => cases h2
  | can e fuel site r roles => cases h2

/-- Only decisions write the cache. -/
theorem resolved_apply {op : V2Op} (h2 : op.decides = false) (h : op.apply w = .ok w') : w'.dag.resolved = w.dag.resolved := by
  cases h1 : op.changesRoles with
  | false => rw [dag_apply h1 h2 h]
  | true =>
    cases op with
    | newRole n => cases h; rfl
    | addPermission a ps =>
      obtain ⟨d, g1, rfl⟩ := Out.map_eq_ok.1 h
      obtain ⟨o, _, rfl⟩ := Dag.addPermission_eq g1
      rfl
    | removePermission a ps =>
      obtain ⟨d, g1, rfl⟩ := Out.map_eq_ok.1 h
      obtain ⟨o, _, rfl⟩ := Dag.removePermission_eq g1
      rfl
    | addRoles as =>
      obtain ⟨d, g1, rfl⟩ := Out.map_eq_ok.1 h
      exact (Dag.addRole_same g1).2.2
    | addChildRole fuel p cs =>
      obtain ⟨⟨b, d⟩, g1, rfl⟩ := Out.map_eq_ok.1 h
      rcases (Dag.addChildRole_cases g1).2 with ⟨_, rfl⟩ | ⟨_, rfl⟩ <;> rfl
    | _ => cases h1

/-- C47. A cached set stays cached, unchanged, whatever calls follow. -/
theorem C47_frozen (inv : Inv w) {ops : List V2Op} (h : V2Op.run w ops = .ok w') {r : Str} {s : List Str}
    (hs : (r, s) ∈ w.dag.resolved) : (r, s) ∈ w'.dag.resolved ∧ ∀ x, RolePerm w'.dag r x ↔ x ∈ s := by
  have key : Inv w' ∧ (r, s) ∈ w'.dag.resolved := by
    refine Out.loop_inv (P := fun v : V2 => Inv v ∧ (r, s) ∈ v.dag.resolved) (fun v v' op _ hv hf => ⟨inv_apply hv.1 hf, ?_⟩) ⟨inv, hs⟩ h
    cases hd : op.decides with
    | false => rw [resolved_apply hd hf]; exact hv.2
    | true =>
      cases op with
      | authorize e fuel site q =>
        obtain ⟨⟨b, d⟩, g1, rfl⟩ := Out.map_eq_ok.1 hf
        exact (authorize_run hv.1 g1).dag.mono _ hv.2
      | can e fuel site q roles =>
        obtain ⟨⟨b, d⟩, g1, rfl⟩ := Out.map_eq_ok.1 hf
        exact (can_run hv.1 g1).dag.mono _ hv.2
      | _ => cases hd
  refine ⟨key.2, fun x => ⟨?_, fun hx => .inl ⟨s, key.2, hx⟩⟩⟩
  rintro (⟨s2, g1, g2⟩ | ⟨g1, _⟩)
  · have g3 := (GoMap.mem_iff_get key.1.dag.resolvedWF).1 g1
    rw [(GoMap.mem_iff_get key.1.dag.resolvedWF).1 key.2] at g3
    cases g3; exact g2
  · exact absurd key.2 (g1 s)

/-- C47. If all role changes come before the first decision and `Can` is never called, every `Authorize` uses the
current permissions, however many decisions and other calls came before it.  Missing: role changes after a
decision, and histories with `Can` (see the counterexamples). -/
theorem C47_histories_partial {l : Bool} {setup rest : List V2Op} (h1 : ∀ op ∈ setup, op.decides = false)
    (h2 : ∀ op ∈ rest, op.changesRoles = false ∧ op.isCan = false) (h : V2Op.run { logger := l } (setup ++ rest) = .ok w)
    {now : Int} (st : Steady w e now) {r : Req2} (tw : ∀ c, Target w r c → NoTwins w r.principal c) {b : Bool}
    (ha : w.authorize e fuel site r = .ok (b, w')) : b = true ↔ Grants2 (fresh w) now r := by
  have inv := reachable_inv h
  suffices hf : ∀ r, Fits w.dag r from C47_roles_partial inv st tw (fun u _ _ => .inr (hf u.role)) ha
  obtain ⟨v, g1, g2⟩ := Out.bind_eq_ok.1 (Out.loop_append.symm.trans h)
  have hv : v.dag.resolved = [] := Out.loop_inv (P := fun v : V2 => v.dag.resolved = [])
    (fun s s' op hop hs hf => by rw [resolved_apply (h1 op hop) hf]; exact hs) rfl g1
  have invv := reachable_inv g1
  have fv : ∀ r, Fits v.dag r := fun r => fits_uncached (by simp [hv])
  refine (Out.loop_inv (P := fun v : V2 => Inv v ∧ ∀ r, Fits v.dag r) (fun s s' op hop hs hf => ⟨inv_apply hs.1 hf, ?_⟩) ⟨invv, fv⟩ g2).2
  obtain ⟨k1, k2⟩ := h2 op hop
  cases hd : op.decides with
  | false => rw [dag_apply k1 hd hf]; exact hs.2
  | true =>
    cases op with
    | authorize e fuel site q =>
      obtain ⟨⟨b, d⟩, g3, rfl⟩ := Out.map_eq_ok.1 hf
      have run := authorize_run hs.1 g3
      exact fun r x => (run.dag.res r x).trans ((hs.2 r x).trans (permClosure_same run.dag.same).symm)
    | can e fuel site q roles => cases k2
    | _ => cases hd

/-- C47. A permission taken from the role after a decision is still granted; with an empty cache it is not. -/
theorem C47_counterexample : ∃ w, V2Op.run {} (exRoles ++ exTenant ++ exUser ++
      [.authorize exEnv 9 [] exReq, .removePermission 0 [⟨str "x", str "read", []⟩]]) = .ok w ∧
    (w.authorize exEnv 9 [] exReq).map (·.1) = .ok true ∧ ((fresh w).authorize exEnv 9 [] exReq).map (·.1) = .ok false ∧
    w.tobjs.length = 1 := Out.chk_ok (by decide +kernel)

/-- C47. `Can` caches role names in place of permissions: a later `Authorize` denies what it granted. -/
theorem C47_can_then_authorize : ∃ w, V2Op.run {} (exRoles ++ exTenant ++ exUser) = .ok w ∧
    (w.authorize exEnv 9 [] exReq).map (·.1) = .ok true ∧
    ((w.can exEnv 9 [] exReq [str "r"]).bind fun x => (x.2.authorize exEnv 9 [] exReq).map (·.1)) = .ok false :=
  Out.chk_ok (by decide +kernel)

/-- C47. `Authorize` caches permissions in place of role names: a later `Can` does not see the child role. -/
theorem C47_authorize_then_can : ∃ w, V2Op.run {} (exRoles ++ exTenant ++ exUser ++ [.addChildRole 9 (str "r") [str "q"]]) = .ok w ∧
    (w.can exEnv 9 [] exReq [str "q"]).map (·.1) = .ok true ∧
    ((w.authorize exEnv 9 [] exReq).bind fun x => (x.2.can exEnv 9 [] exReq [str "q"]).map (·.1)) = .ok false :=
  Out.chk_ok (by decide +kernel)

/-- C47. A permission or a child role added after a decision is not granted. -/
theorem C47_additions_ignored : ∃ w, V2Op.run {} (exRoles ++ exTenant ++ exUser ++ [.authorize exEnv 9 [] exReq,
      .addPermission 0 [⟨str "z", str "read", []⟩], .addChildRole 9 (str "r") [str "q"]]) = .ok w ∧
    (w.authorize exEnv 9 [] { exReq with resource := str "z" }).map (·.1) = .ok false ∧
    (w.authorize exEnv 9 [] { exReq with resource := str "y" }).map (·.1) = .ok false ∧
    ((fresh w).authorize exEnv 9 [] { exReq with resource := str "z" }).map (·.1) = .ok true ∧
    ((fresh w).authorize exEnv 9 [] { exReq with resource := str "y" }).map (·.1) = .ok true := Out.chk_ok (by decide +kernel)

theorem noTwins_single (h : w.tobjs.length = 1) (p : Str) (c : Nat) : NoTwins w p c :=
  noTwins_of_distinct (fun c1 c2 t1 t2 g1 g2 _ => by
    have := (List.getElem?_eq_some_iff.1 g1).1
    have := (List.getElem?_eq_some_iff.1 g2).1
    omega) _ _

/-- C47. So the intended property fails. -/
theorem C47_full_false : ¬ C47_full := by
  intro h
  obtain ⟨w, h1, h2, h3, h4⟩ := C47_counterexample
  obtain ⟨⟨b1, w1⟩, g1, g2⟩ := Out.map_eq_ok.1 h2
  obtain ⟨⟨b2, w2⟩, g3, g4⟩ := Out.map_eq_ok.1 h3
  simp only at g2 g4
  subst g2; subst g4
  have inv := reachable_inv (l := false) h1
  have st : ∀ w, Steady w exEnv 100 := fun _ => steady_const fun _ => rfl
  have k1 := (h false _ w exEnv 9 [] exReq 100 true w1 h1 (st w) (noTwins_single h4) g1).1 rfl
  exact Bool.false_ne_true ((authorize_exact (inv_fresh inv) (st _) (fun c _ => noTwins_single (w := fresh w) h4 _ c) g3).2 k1)

/-- C47. A history as in the theorem: decisions, a new assignment, decisions; the answers are the current ones. -/
example : ∃ w, V2Op.run {} ((exRoles ++ exTenant ++ exUser) ++ [.authorize exEnv 9 [] exReq,
      .newPrincipalRole { principal := str "z", tenant := str "t", role := str "q" }, .addPrincipalRole [1],
      .authorize exEnv 9 [] { exReq with principal := str "z" }]) = .ok w ∧
    (w.authorize exEnv 9 [] exReq).map (·.1) = .ok true ∧
    (w.authorize exEnv 9 [] { exReq with principal := str "z", resource := str "y" }).map (·.1) = .ok true ∧
    (w.authorize exEnv 9 [] { exReq with principal := str "z" }).map (·.1) = .ok false := Out.chk_ok (by decide +kernel)

end V2
end Verif
