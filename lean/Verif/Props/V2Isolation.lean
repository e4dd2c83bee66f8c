import Verif.Props.V2Cache
import Verif.Props.V2Setup

/-!
# Package v2: other principals have no influence on the decisions for a principal (C74)
-/

namespace Verif
open Spec
namespace V2
variable {w w' v v' : V2} {e e' : Env} {fuel fuel' : Nat} {site site' : List Val}

/-- The states have the same tenants, and the same assignments of principal `p`.  Nothing is said about the
assignments of other principals, the assignment index, the log, or the order of the assignments. -/
structure SameFor (p : Str) (w v : V2) : Prop where
  tobjs : v.tobjs = w.tobjs
  tenants : v.tenants = w.tenants
  default : v.defTenant = w.defTenant
  own : ∀ u, u.principal = p → (Assigned w u ↔ Assigned v u)

/-- Every role gives the same permissions in both states. -/
def SamePerms (w v : V2) : Prop := ∀ r x, RolePerm w.dag r x ↔ RolePerm v.dag r x

/-- The same roles are below every role in both states. -/
def SameBelow (w v : V2) : Prop := ∀ r x, RoleBelow w.dag r x ↔ RoleBelow v.dag r x

namespace SameFor
variable {p : Str}

theorem refl (p : Str) (w : V2) : SameFor p w w := ⟨rfl, rfl, rfl, fun _ _ => .rfl⟩

theorem symm (h : SameFor p w v) : SameFor p v w :=
  ⟨h.tobjs.symm, h.tenants.symm, h.default.symm, fun u hu => (h.own u hu).symm⟩

theorem trans {z : V2} (h : SameFor p w v) (g : SameFor p v z) : SameFor p w z :=
  ⟨g.tobjs.trans h.tobjs, g.tenants.trans h.tenants, g.default.trans h.default, fun u hu => (h.own u hu).trans (g.own u hu)⟩

theorem managed (h : SameFor p w v) {c c' : Nat} (g : Managed w p c c') : Managed v p c c' := by
  induction g with
  | self => exact .self
  | child _ g1 g2 g3 ih =>
    obtain ⟨u, k1, k2, k3⟩ := g2
    exact .child ih (h.tobjs.symm ▸ g1) ⟨u, (h.own u k2).1 k1, k2, k3⟩ g3

theorem covers (h : SameFor p w v) {c : Nat} {t : Str} (g : Covers w p c t) : Covers v p c t := by
  obtain ⟨c', t', h1, h2, h3⟩ := g
  exact ⟨c', t', h.managed h1, h.tobjs.symm ▸ h2, h3⟩

theorem noTwins (h : SameFor p w v) {c : Nat} (g : NoTwins w p c) : NoTwins v p c := by
  intro c1 c2 t1 t2 h1 h2 h3 h4
  exact g c1 c2 t1 t2 (h.symm.managed h1) (h.symm.managed h2) (h.tobjs ▸ h3) (h.tobjs ▸ h4)

theorem named_eq (h : SameFor p w v) (r : Req2) : named v r = named w r := by unfold named; rw [h.default]

theorem target {r : Req2} (h : SameFor r.principal w v) {c : Nat} (g : Target w r c) : Target v r c := by
  rcases g with ⟨g1, g2⟩ | ⟨g1, u, t, g2, g3, g4, g5, g6, g7⟩
  · exact .inl ⟨h.named_eq r ▸ g1, by rw [h.named_eq, h.tenants]; exact g2⟩
  · exact .inr ⟨(h.named_eq r).trans g1, u, t, (h.own u g3).1 g2, g3, g4, h.tenants.symm ▸ g5, h.tobjs.symm ▸ g6, g7⟩

theorem counts (h : SameFor p w v) {ns t : Str} {now : Int} {u : PR} (g : Counts w p ns t now u) : Counts v p ns t now u :=
  ⟨(h.own u g.2.1).1 g.1, g.2⟩

theorem grants {r : Req2} (h : SameFor r.principal w v) (hp : SamePerms w v) {now : Int} (g : Grants2 w now r) : Grants2 v now r := by
  have hs : ∀ {w v : V2}, SameFor r.principal w v → SamePerms w v → ∀ {c ns x}, ScopedPerm w now r c ns x → ScopedPerm v now r c ns x := by
    rintro w v h hp c ns x ⟨t, u, h1, h2, h3, h4⟩
    exact ⟨t, u, h.covers h1, h.counts h2, h3, (hp _ _).1 h4⟩
  obtain ⟨c, t, ns, x, h1, h2, h3, h4, h5⟩ := g
  refine ⟨c, t, ns, x, h.target h1, h.tobjs.symm ▸ h2, h3, ?_, h5⟩
  rcases h4 with h4 | ⟨h4, t', u, k1, k2, k3, k4⟩
  · exact .inl (hs h hp h4)
  · exact .inr ⟨fun y hy => h4 y (hs h.symm (fun r x => (hp r x).symm) hy), t', u, h.covers k1, h.counts k2, k3, (hp _ _).1 k4⟩

theorem can {r : Req2} (h : SameFor r.principal w v) (hp : SameBelow w v) {now : Int} {roles : List Str} (g : Can2 w now r roles) :
    Can2 v now r roles := by
  obtain ⟨c, t, ns, x, h1, h2, h3, h4, t', u, h5, h6, h7, h8⟩ := g
  exact ⟨c, t, ns, x, h.target h1, h.tobjs.symm ▸ h2, h3, h4, t', u, h.covers h5, h.counts h6, h7, h8.imp id (hp _ _).1⟩

end SameFor

/-- C74. Two states with the same tenants, roles and assignments of a principal give it the same decisions,
whatever other principals are assigned, in whatever order, and however map iteration falls out. -/
theorem C74_authorize {r : Req2} (inv : Inv w) (inv' : Inv v) (h : SameFor r.principal w v) (hp : SamePerms w v) {now : Int}
    (st : Steady w e now) (st' : Steady v e' now) (tw : ∀ c, Target w r c → NoTwins w r.principal c) {b b' : Bool}
    (h1 : w.authorize e fuel site r = .ok (b, w')) (h2 : v.authorize e' fuel' site' r = .ok (b', v')) : b = b' := by
  have k1 := authorize_exact inv st tw h1
  have k2 := authorize_exact inv' st' (fun c hc => h.noTwins (tw c (h.symm.target hc))) h2
  rw [Bool.eq_iff_iff, k1, k2]
  exact ⟨h.grants hp, h.symm.grants fun r x => (hp r x).symm⟩

/-- C74. The same for `Can`. -/
theorem C74_can {r : Req2} (inv : Inv w) (inv' : Inv v) (h : SameFor r.principal w v) (hp : SameBelow w v) {now : Int}
    (st : Steady w e now) (st' : Steady v e' now) (tw : ∀ c, Target w r c → NoTwins w r.principal c) {roles : List Str} {b b' : Bool}
    (h1 : w.can e fuel site r roles = .ok (b, w')) (h2 : v.can e' fuel' site' r roles = .ok (b', v')) : b = b' := by
  have k1 := can_exact inv st tw h1
  have k2 := can_exact inv' st' (fun c hc => h.noTwins (tw c (h.symm.target hc))) h2
  rw [Bool.eq_iff_iff, k1, k2]
  exact ⟨h.can hp, h.symm.can fun r x => (hp r x).symm⟩

/-! ## Histories -/

/-- The call is about assignments or decisions of principals other than `p`. -/
def Foreign (p : Str) (w : V2) : V2Op → Prop
  | .newPrincipalRole _ => True
  | .setExpiry i _ _ | .setExpiryDuration i _ _ _ | .clearExpiry i => ∀ u, w.prs[i]? = some u → u.principal ≠ p
  | .addPrincipalRole is => ∀ i ∈ is, ∀ u, w.prs[i]? = some u → u.principal ≠ p
  | .removePrincipalRole target => target.principal ≠ [] ∧ target.principal ≠ p
  | .authorize _ _ _ r => r.principal ≠ p
  | .can _ _ _ r _ => r.principal ≠ p
  | _ => False

/-- A history of calls about other principals. -/
inductive ForeignRun (p : Str) : V2 → List V2Op → V2 → Prop where
  | nil (w : V2) : ForeignRun p w [] w
  | cons {w v z : V2} {op : V2Op} {ops : List V2Op} : Foreign p w op → op.apply w = .ok v → ForeignRun p v ops z →
      ForeignRun p w (op :: ops) z

/-- `Authorize`. -/
def _root_.Verif.V2Op.isAuth : V2Op → Bool
  | .authorize .. => true
  | _ => false

/-- C74 as intended: calls about other principals do not change a decision that was possible before. -/
def C74_full : Prop := ∀ (l : Bool) ops w ops' v e now fuel site r b, V2Op.run { logger := l } ops = .ok w →
  ForeignRun r.principal w ops' v → (∀ s, e.now s = now) → (∀ c, Target w r c → NoTwins w r.principal c) →
  w.needs ≤ fuel → v.needs ≤ fuel →
  (w.authorize e fuel site r).map (·.1) = .ok b → (v.authorize e fuel site r).map (·.1) = .ok b

theorem own_onPR {p : Str} {i : Nat} {f : PR → PR} (hf : ∀ u, (f u).principal = u.principal)
    (hi : ∀ u, w.prs[i]? = some u → u.principal ≠ p) (h : V2Op.onPR w i f = .ok w') :
    SameFor p w w' ∧ w'.dag = w.dag ∧ w'.userRoles = w.userRoles := by
  obtain ⟨u, h1, rfl⟩ := Out.map_eq_ok.1 h
  have hu : w.prs[i]? = some u := by
    unfold prAt at h1
    cases hg : w.prs[i]? with
    | none => simp [hg] at h1
    | some x => simp [hg] at h1; rw [h1]
  refine ⟨⟨rfl, rfl, rfl, fun x hx => ?_⟩, rfl, rfl⟩
  have lt : i < w.prs.length := (List.getElem?_eq_some_iff.1 hu).1
  constructor
  · rintro ⟨j, h2, h3⟩
    refine ⟨j, h2, ?_⟩
    by_cases hij : i = j
    · subst hij; rw [hu] at h3; cases h3; exact absurd hx (hi u hu)
    · simpa [List.getElem?_set, hij] using h3
  · rintro ⟨j, h2, h3⟩
    refine ⟨j, h2, ?_⟩
    by_cases hij : i = j
    · subst hij
      simp [lt] at h3
      subst h3
      exact absurd ((hf u).symm.trans hx) (hi u hu)
    · simpa [List.getElem?_set, hij] using h3

theorem setExpiryDuration_principal (u : PR) (parse : Str → Option Int) (now : Int) (a : DurArg) :
    (u.setExpiryDuration parse now a).principal = u.principal := by
  cases a with
  | str s => cases hp : parse s <;> simp [PR.setExpiryDuration, hp]
  | dur d => rfl
  | other => rfl

theorem addPrincipalRole_known : ∀ {is : List Nat} {w w' : V2}, w.addPrincipalRole is = .ok w' → ∀ i ∈ is, ∃ u, w.prs[i]? = some u := by
  intro is
  induction is with
  | nil => intro w w' _ i hi; cases hi
  | cons j is ih =>
    intro w w' hw i hi
    rw [addPrincipalRole, Out.loop] at hw
    obtain ⟨w1, h1, h2⟩ := Out.bind_eq_ok.1 hw
    obtain ⟨u, hu, h3⟩ := Out.bind_eq_ok.1 h1
    obtain ⟨k, hk, hu⟩ := prAt_eq_ok.1 hu
    cases hk; cases h3
    rcases List.mem_cons.1 hi with rfl | hi
    · exact ⟨u, hu⟩
    · exact ih h2 i hi

theorem addPrincipalRole_frame {is : List Nat} (h : w.addPrincipalRole is = .ok w') :
    w'.userRoles = w.userRoles ++ is.map some ∧ { w' with userRoles := w.userRoles, index := w.index } = w := by
  obtain ⟨v, h1, h2, _, h4⟩ := C73_addPrincipalRole (addPrincipalRole_known h)
  rw [h] at h1
  rw [Out.ok.injEq] at h1
  subst h1
  exact ⟨h2, h4⟩

/-- Only the decisions of other principals are made between the two states, at most: roles and links are equal. -/
structure Kept (p : Str) (ops : List V2Op) (w v : V2) : Prop where
  same : SameFor p w v
  dag : w.dag.SameBut v.dag
  perms : (∀ op ∈ ops, op.isCan = false) → SamePerms w v
  below : (∀ op ∈ ops, op.isAuth = false) → SameBelow w v

theorem Frame.sameFor {p : Str} (h : Frame w w') : SameFor p w w' :=
  ⟨h.tobjs, h.tenants, by rw [h], fun u _ => by unfold Assigned; rw [h.users, h.prs]⟩

/-- One call about other principals that leaves no nil entry. -/
theorem own_step {p : Str} {op : V2Op} (inv : Inv w) (hnil : none ∉ w.userRoles) (hnil' : none ∉ w'.userRoles)
    (hf : Foreign p w op) (h : op.apply w = .ok w') : Kept p [op] w w' := by
  have done : ∀ {v : V2}, SameFor p w v → v.dag = w.dag → Kept p [op] w v :=
    fun h1 h2 => ⟨h1, h2 ▸ .refl _, fun _ r x => by rw [h2], fun _ r x => by rw [h2]⟩
  cases op with
  | newPrincipalRole u =>
    cases h
    refine done ⟨rfl, rfl, rfl, fun x hx => ?_⟩ rfl
    constructor
    · rintro ⟨i, h1, h2⟩
      exact ⟨i, h1, by rw [List.getElem?_append_left (List.getElem?_eq_some_iff.1 h2).1]; exact h2⟩
    · rintro ⟨i, h1, h2⟩
      obtain ⟨y, hy⟩ := inv.users i h1
      exact ⟨i, h1, by rw [List.getElem?_append_left (List.getElem?_eq_some_iff.1 hy).1] at h2; exact h2⟩
  | setExpiry i n x =>
    have := own_onPR (fun u => by unfold PR.setExpiry; split <;> rfl) hf h
    exact done this.1 this.2.1
  | setExpiryDuration i ps n a =>
    have := own_onPR (fun u => setExpiryDuration_principal u ps n a) hf h
    exact done this.1 this.2.1
  | clearExpiry i =>
    have := own_onPR (f := PR.clearExpiry) (fun _ => rfl) hf h
    exact done this.1 this.2.1
  | addPrincipalRole is =>
    obtain ⟨h2, h4⟩ := addPrincipalRole_frame h
    have ep : w'.prs = w.prs := by have := congrArg V2.prs h4; exact this
    have e1 : w'.tobjs = w.tobjs := by have := congrArg V2.tobjs h4; exact this
    have e2 : w'.tenants = w.tenants := by have := congrArg V2.tenants h4; exact this
    have e3 : w'.defTenant = w.defTenant := by have := congrArg V2.defTenant h4; exact this
    have e4 : w'.dag = w.dag := by have := congrArg V2.dag h4; exact this
    refine done ⟨e1, e2, e3, fun u hu => ?_⟩ e4
    unfold Assigned
    rw [h2, ep]
    constructor
    · rintro ⟨i, g1, g2⟩; exact ⟨i, List.mem_append_left _ g1, g2⟩
    · rintro ⟨i, g1, g2⟩
      rcases List.mem_append.1 g1 with g1 | g1
      · exact ⟨i, g1, g2⟩
      · obtain ⟨j, g3, g4⟩ := List.mem_map.1 g1
        cases g4
        exact absurd hu (hf i g3 u g2)
  | removePrincipalRole target =>
    obtain ⟨⟨b, d⟩, g1, rfl⟩ := Out.map_eq_ok.1 h
    have hend : AtEnd w target := Classical.byContradiction fun hc => hnil' ((C48_nil_iff inv hnil g1).1.2 hc)
    have fr := C48_frame g1
    refine done ⟨by rw [fr], by rw [fr], by rw [fr], fun u hu => ?_⟩ (by rw [fr])
    rw [C48_assigned_partial inv hnil hend g1]
    refine ⟨fun hx => ⟨hx, fun hs => ?_⟩, And.left⟩
    rcases hs.1 with h2 | h2
    · exact hf.1 h2
    · exact hf.2 (h2.symm.trans hu)
  | authorize e fuel site q =>
    obtain ⟨⟨b, d⟩, g1, rfl⟩ := Out.map_eq_ok.1 h
    have run := authorize_run inv g1
    exact ⟨run.frame.sameFor, run.dag.same, fun _ r x => (run.dag.res r x).symm, fun hh => by
      have := hh _ (List.mem_singleton.2 rfl); cases this⟩
  | can e fuel site q roles =>
    obtain ⟨⟨b, d⟩, g1, rfl⟩ := Out.map_eq_ok.1 h
    have run := can_run inv g1
    refine ⟨run.frame.sameFor, run.dag.same, fun hh => (by have := hh _ (List.mem_singleton.2 rfl); cases this), fun _ r x => ?_⟩
    rw [← Dag.resolves_names inv.dag, ← Dag.resolves_names run.dag.inv]
    exact (run.dag.res r x).symm
  | _ => cases hf

/-- A nil entry stays. -/
theorem nil_stays {p : Str} {op : V2Op} (inv : Inv w) (hnil : none ∈ w.userRoles) (hf : Foreign p w op)
    (h : op.apply w = .ok w') : none ∈ w'.userRoles := by
  have pr : ∀ {i f}, V2Op.onPR w i f = .ok w' → none ∈ w'.userRoles := fun h => by
    obtain ⟨u, _, rfl⟩ := Out.map_eq_ok.1 h; exact hnil
  cases op with
  | newPrincipalRole u => cases h; exact hnil
  | setExpiry i n x => exact pr h
  | setExpiryDuration i ps n a => exact pr h
  | clearExpiry i => exact pr h
  | addPrincipalRole is => rw [(addPrincipalRole_frame h).1]; exact List.mem_append_left _ hnil
  | removePrincipalRole target =>
    obtain ⟨⟨b, d⟩, g1, rfl⟩ := Out.map_eq_ok.1 h
    rw [C48_nil_panic hnil fun hn => hf.1 hn.1] at g1
    cases g1
  | authorize e fuel site q =>
    obtain ⟨⟨b, d⟩, g1, rfl⟩ := Out.map_eq_ok.1 h
    rw [(authorize_run inv g1).frame.users]; exact hnil
  | can e fuel site q roles =>
    obtain ⟨⟨b, d⟩, g1, rfl⟩ := Out.map_eq_ok.1 h
    rw [(can_run inv g1).frame.users]; exact hnil
  | _ => cases hf

theorem foreign_kept {p : Str} {ops : List V2Op} (h : ForeignRun p w ops v) (inv : Inv w) (hnil : none ∉ v.userRoles) :
    Inv v ∧ none ∉ w.userRoles ∧ Kept p ops w v := by
  induction h with
  | nil w => exact ⟨inv, hnil, .refl p w, .refl _, fun _ _ _ => .rfl, fun _ _ _ => .rfl⟩
  | cons h1 h2 _ ih =>
    obtain ⟨k1, k2, k3⟩ := ih (inv_apply inv h2) hnil
    have k4 := Classical.byContradiction fun hc => k2 (nil_stays inv (Classical.not_not.1 hc) h1 h2)
    have k5 := own_step inv k4 k2 h1 h2
    refine ⟨k1, k4, k5.same.trans k3.same, k5.dag.trans k3.dag, fun hh r x => ?_, fun hh r x => ?_⟩
    · exact (k5.perms (fun op hop => hh op (by simp_all)) r x).trans (k3.perms (fun op hop => hh op (List.mem_cons_of_mem _ hop)) r x)
    · exact (k5.below (fun op hop => hh op (by simp_all)) r x).trans (k3.below (fun op hop => hh op (List.mem_cons_of_mem _ hop)) r x)

/-- C74. After any calls about other principals - assignments added, removed, changed, decisions made for them -
`Authorize` decides as before, if none of them was a `Can` call and no removal left a nil entry.  Missing: `Can`
calls and removals that leave nil entries (see the counterexamples). -/
theorem C74_authorize_partial {r : Req2} {ops : List V2Op} (inv : Inv w) (h : ForeignRun r.principal w ops v)
    (hc : ∀ op ∈ ops, op.isCan = false) (hnil : none ∉ v.userRoles) {now : Int} (st : Steady w e now) (st' : Steady v e' now)
    (tw : ∀ c, Target w r c → NoTwins w r.principal c) {b b' : Bool}
    (h1 : w.authorize e fuel site r = .ok (b, w')) (h2 : v.authorize e' fuel' site' r = .ok (b', v')) : b = b' := by
  obtain ⟨k1, _, k3⟩ := foreign_kept h inv hnil
  exact C74_authorize inv k1 k3.same (k3.perms hc) st st' tw h1 h2

/-- C74. `Can` decides as before, if none of the calls was an `Authorize` call and no removal left a nil entry. -/
theorem C74_can_partial {r : Req2} {ops : List V2Op} (inv : Inv w) (h : ForeignRun r.principal w ops v)
    (hc : ∀ op ∈ ops, op.isAuth = false) (hnil : none ∉ v.userRoles) {now : Int} (st : Steady w e now) (st' : Steady v e' now)
    (tw : ∀ c, Target w r c → NoTwins w r.principal c) {roles : List Str} {b b' : Bool}
    (h1 : w.can e fuel site r roles = .ok (b, w')) (h2 : v.can e' fuel' site' r roles = .ok (b', v')) : b = b' := by
  obtain ⟨k1, _, k3⟩ := foreign_kept h inv hnil
  exact C74_can inv k1 k3.same (k3.below hc) st st' tw h1 h2

/-- C74. Both calls return afterwards, unless the matcher hangs on a permission of the principal. -/
theorem C74_returns_partial {r : Req2} {ops : List V2Op} (inv : Inv w) (h : ForeignRun r.principal w ops v)
    (hnil : none ∉ v.userRoles) (hf : v.needs ≤ fuel) :
    ((∀ op ∈ ops, op.isCan = false) → (∀ u x, Assigned w u → u.principal = r.principal → RolePerm w.dag u.role x →
        ¬ Hangs x (r.resource ++ [32] ++ r.action)) → ∃ b v', v.authorize e fuel site r = .ok (b, v')) ∧
    ∀ roles, ∃ b v', v.can e fuel site r roles = .ok (b, v') := by
  obtain ⟨k1, _, k3⟩ := foreign_kept h inv hnil
  refine ⟨fun hc hx => authorize_total k1 hnil hf fun c tid u x _ _ h3 h4 _ h6 => ?_, fun roles => can_total k1 hnil hf⟩
  exact hx u x ((k3.same.own u h4).2 h3) h4 ((k3.perms hc _ _).2 h6)

/-- `z` and `p` both have role "r". -/
def exTwo : List V2Op := exRoles ++ exTenant ++ [
  .newPrincipalRole { principal := str "z", tenant := str "t", role := str "r" },
  .newPrincipalRole { principal := str "p", tenant := str "t", role := str "r" }, .addPrincipalRole [0, 1]]

/-- Calls about `z` (and a new principal `y`): an assignment added, one changed, one removed, decisions made. -/
def exForeign : List V2Op := [
  .newPrincipalRole { principal := str "y", tenant := str "t", role := str "q" }, .addPrincipalRole [2], .setExpiry 0 0 50,
  .authorize exEnv 9 [] { exReq with principal := str "z" }, .authorize exEnv 9 [] { exReq with principal := str "y", resource := str "y" },
  .removePrincipalRole { principal := str "y" }]

instance {p : Str} {w : V2} {i : Nat} : Decidable (∀ u, w.prs[i]? = some u → u.principal ≠ p) :=
  match h : w.prs[i]? with
  | none => isTrue (by simp)
  | some u => if g : u.principal = p then isFalse fun k => k u rfl g else isTrue fun _ hx => by cases hx; exact g

instance {p : Str} {w : V2} : (op : V2Op) → Decidable (Foreign p w op)
  | .newPrincipalRole _ => isTrue trivial
  | .setExpiry i _ _ | .setExpiryDuration i _ _ _ | .clearExpiry i =>
    inferInstanceAs (Decidable (∀ u, w.prs[i]? = some u → u.principal ≠ p))
  | .addPrincipalRole is => inferInstanceAs (Decidable (∀ i ∈ is, ∀ u, w.prs[i]? = some u → u.principal ≠ p))
  | .removePrincipalRole target => inferInstanceAs (Decidable (target.principal ≠ [] ∧ target.principal ≠ p))
  | .authorize _ _ _ r => inferInstanceAs (Decidable (r.principal ≠ p))
  | .can _ _ _ r _ => inferInstanceAs (Decidable (r.principal ≠ p))
  | .newRole .. | .addPermission .. | .removePermission .. | .addRoles .. | .addChildRole .. | .newTenant .. | .addNamespace ..
  | .addScopes .. | .addChildTenant .. | .setStatus .. | .addTenant .. | .setDefaultTenant .. => isFalse id

/-- Run the calls, checking that each is about other principals. -/
def foreign (p : Str) (w : V2) : List V2Op → Out V2
  | [] => .ok w
  | op :: ops => if Foreign p w op then (op.apply w).bind fun v => foreign p v ops else .panic

theorem foreignRun_of {p : Str} {ops : List V2Op} : ∀ {w v : V2}, foreign p w ops = .ok v → ForeignRun p w ops v := by
  induction ops with
  | nil => intro w v h; cases h; exact .nil _
  | cons op ops ih =>
    intro w v h
    rw [foreign] at h
    split at h
    · obtain ⟨x, h1, h2⟩ := Out.bind_eq_ok.1 h
      exact .cons (by assumption) h1 (ih h2)
    · cases h

/-- C74. Six calls about other principals; the decisions stay what they were. -/
example : ∃ w, V2Op.run {} exTwo = .ok w ∧ (w.authorize exEnv 9 [] exReq).map (·.1) = .ok true ∧
    (foreign (str "p") w exForeign).Chk fun v => none ∉ v.userRoles ∧ (v.authorize exEnv 9 [] exReq).map (·.1) = .ok true ∧
      (v.authorize { exEnv with now := fun _ => 40 } 9 [] { exReq with principal := str "z" }).map (·.1) = .ok true ∧
      (v.authorize exEnv 9 [] { exReq with principal := str "z" }).map (·.1) = .ok false ∧ v.userRoles = [some 0, some 1] ∧
      v.prs.length = 3 := Out.chk_ok (by decide +kernel)

/-- C74. `Can` for `z` changes the decision of `Authorize` for `p`. -/
theorem C74_can_counterexample : ∃ w, V2Op.run {} exTwo = .ok w ∧ (w.authorize exEnv 9 [] exReq).map (·.1) = .ok true ∧
    w.tobjs.length = 1 ∧ w.needs ≤ 9 ∧
    (foreign (str "p") w [.can exEnv 9 [] { exReq with principal := str "z" } [str "r"]]).Chk fun v =>
      v.needs ≤ 9 ∧ (v.authorize exEnv 9 [] exReq).map (·.1) = .ok false := Out.chk_ok (by decide +kernel)

/-- C74. Removing the assignment of `z` makes decisions for `p` panic. -/
theorem C74_remove_counterexample : ∃ w, V2Op.run {} exTwo = .ok w ∧ (w.authorize exEnv 9 [] exReq).map (·.1) = .ok true ∧
    (foreign (str "p") w [.removePrincipalRole { principal := str "z" }]).Chk fun v =>
      v.authorize exEnv 9 [] exReq = .panic ∧ v.can exEnv 9 [] exReq [str "r"] = .panic := Out.chk_ok (by decide +kernel)

/-- C74. So the intended property fails. -/
theorem C74_full_false : ¬ C74_full := by
  intro h
  obtain ⟨w, h1, h2, h3, h4, h5⟩ := C74_can_counterexample
  obtain ⟨v, h6, h7, h8⟩ := Out.chk_ok h5
  have := h false _ w _ v exEnv 100 9 [] exReq true h1 (foreignRun_of h6) (fun _ => rfl)
    (fun c _ => noTwins_single h3 _ c) h4 h7 h2
  rw [h8] at this
  cases this

end V2
end Verif
