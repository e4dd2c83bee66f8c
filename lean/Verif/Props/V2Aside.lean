import Verif.Props.V2Link
import Verif.Props.V2Isolation
import Verif.Props.V2Cache

/-!
# Objects that are not registered (v2)
-/

namespace Verif
namespace Spec

/-- The tenant object is registered, or a child of one that is, and so on. -/
inductive KnownT (w : V2) : Nat → Prop
  | registered {k : Str} {c : Nat} : (k, c) ∈ w.tenants → KnownT w c
  | child {a b : Nat} {t : T2} {k : Str} : KnownT w a → w.tobjs[a]? = some t → (k, b) ∈ t.children → KnownT w b

/-- The call creates an object, or changes a role that is not registered, a tenant that is neither registered nor below one that is, or an
assignment that has not been added. -/
def Aside (w : V2) : V2Op → Prop
  | .newRole _ | .newTenant _ _ | .newPrincipalRole _ => True
  | .addPermission a _ | .removePermission a _ => ∀ k, (k, a) ∉ w.dag.roles
  | .addNamespace c _ _ | .addScopes c _ _ | .addChildTenant c _ | .setStatus c _ => ¬ KnownT w c
  | .setExpiry i _ _ | .setExpiryDuration i _ _ _ | .clearExpiry i => some i ∉ w.userRoles
  | _ => False

end Spec

open Spec V2

namespace Aside2

/-- Nothing registered differs. -/
structure Unseen (w v : V2) : Prop where
  roles : v.dag.roles = w.dag.roles
  edges : v.dag.edges = w.dag.edges
  cache : v.dag.resolved = w.dag.resolved
  robjs : ∀ k a, (k, a) ∈ w.dag.roles → v.dag.objs[a]? = w.dag.objs[a]?
  users : v.userRoles = w.userRoles
  prs : ∀ i, some i ∈ w.userRoles → v.prs[i]? = w.prs[i]?
  tenants : v.tenants = w.tenants
  default : v.defTenant = w.defTenant
  objs : ∀ c, KnownT w c → v.tobjs[c]? = w.tobjs[c]?

theorem Unseen.refl (w : V2) : Unseen w w := ⟨rfl, rfl, rfl, fun _ _ _ => rfl, rfl, fun _ _ => rfl, rfl, rfl, fun _ _ => rfl⟩

namespace Unseen
variable {w v : V2} (U : Unseen w v)
include U

theorem known {c : Nat} : KnownT v c ↔ KnownT w c := by
  constructor
  · intro h
    induction h with
    | registered h => exact .registered (U.tenants ▸ h)
    | child _ h2 h3 ih => exact .child ih (U.objs _ ih ▸ h2) h3
  · intro h
    induction h with
    | registered h => exact .registered (U.tenants.symm ▸ h)
    | child h1 h2 h3 ih => exact .child ih ((U.objs _ h1).trans h2) h3

theorem trans {x : V2} (U' : Unseen v x) : Unseen w x :=
  ⟨U'.roles.trans U.roles, U'.edges.trans U.edges, U'.cache.trans U.cache,
    fun k a h => (U'.robjs k a (U.roles.symm ▸ h)).trans (U.robjs k a h), U'.users.trans U.users,
    fun i h => (U'.prs i (U.users.symm ▸ h)).trans (U.prs i h), U'.tenants.trans U.tenants, U'.default.trans U.default,
    fun c h => (U'.objs c (U.known.2 h)).trans (U.objs c h)⟩

theorem symm : Unseen v w :=
  ⟨U.roles.symm, U.edges.symm, U.cache.symm, fun k a h => (U.robjs k a (U.roles ▸ h)).symm, U.users.symm,
    fun i h => (U.prs i (U.users ▸ h)).symm, U.tenants.symm, U.default.symm, fun c h => (U.objs c (U.known.1 h)).symm⟩

theorem aside {op : V2Op} (h : Aside w op) : Aside v op := by
  cases op <;> first | exact h | (simp only [Aside, U.known, U.roles, U.users] at *; exact h)

theorem asg {u : PR} (h : Assigned w u) : Assigned v u := by
  obtain ⟨i, h1, h2⟩ := h
  exact ⟨i, U.users.symm ▸ h1, (U.prs i h1).trans h2⟩

theorem managed {p : Str} {c c' : Nat} (hc : KnownT w c) (h : Managed w p c c') : KnownT w c' ∧ Managed v p c c' := by
  induction h with
  | self => exact ⟨hc, .self⟩
  | child _ h2 h3 h4 ih =>
    obtain ⟨u, g1, g2⟩ := h3
    exact ⟨.child ih.1 h2 h4, .child ih.2 ((U.objs _ ih.1).trans h2) ⟨u, U.asg g1, g2⟩ h4⟩

theorem covers {p : Str} {c : Nat} (hc : KnownT w c) {t : Str} (h : Covers w p c t) : Covers v p c t := by
  obtain ⟨c', t', h1, h2, h3⟩ := h
  exact ⟨c', t', (U.managed hc h1).2, (U.objs _ (U.managed hc h1).1).trans h2, h3⟩

theorem noTwins {p : Str} {c : Nat} (hc : KnownT w c) (h : NoTwins v p c) : NoTwins w p c :=
  fun c1 c2 t1 t2 h1 h2 h3 h4 => h c1 c2 t1 t2 (U.managed hc h1).2 (U.managed hc h2).2 ((U.objs _ (U.managed hc h1).1).trans h3)
    ((U.objs _ (U.managed hc h2).1).trans h4)

omit U in
theorem known_target {r : Req2} {c : Nat} (h : Target w r c) : KnownT w c := by
  rcases h with ⟨_, h⟩ | ⟨_, _, _, _, _, _, h, _⟩ <;> exact .registered h

theorem target {r : Req2} {c : Nat} (h : Target w r c) : Target v r c := by
  have hn : named v r = named w r := by unfold named; rw [U.default]
  have hk := known_target h
  rcases h with ⟨h1, h2⟩ | ⟨h1, u, t, h2, h3, h4, h5, h6, h7⟩
  · exact .inl ⟨hn ▸ h1, hn ▸ U.tenants ▸ h2⟩
  · exact .inr ⟨hn.trans h1, u, t, U.asg h2, h3, h4, U.tenants ▸ h5, (U.objs _ hk).trans h6, h7⟩

theorem counts {p ns t : Str} {now : Int} {u : PR} (h : Counts w p ns t now u) : Counts v p ns t now u := ⟨U.asg h.1, h.2⟩

theorem below {r x : Str} (h : Below w.dag r x) : Below v.dag r x := by
  induction h with
  | self h => exact .self (by unfold Registered; rw [U.roles]; exact h)
  | step _ h2 h3 ih => exact .step ih (by unfold Edge; rw [U.edges]; exact h2) (by unfold Registered; rw [U.roles]; exact h3)

theorem rolePerm {r x : Str} (h : RolePerm w.dag r x) : RolePerm v.dag r x := by
  unfold RolePerm
  rw [U.cache]
  refine h.imp_right fun ⟨h1, b, h2, a, o, h3, h4, h5⟩ => ⟨h1, b, U.below h2, a, o, U.roles.symm ▸ h3, (U.robjs _ _ h3).trans h4, h5⟩

theorem roleBelow {r x : Str} (h : RoleBelow w.dag r x) : RoleBelow v.dag r x := by
  unfold RoleBelow
  rw [U.cache]
  exact h.imp_right fun ⟨h1, h2⟩ => ⟨h1, U.below h2⟩

theorem scopedP {r : Req2} {now : Int} {c : Nat} (hc : KnownT w c) {ns x : Str} (h : ScopedPerm w now r c ns x) : ScopedPerm v now r c ns x := by
  obtain ⟨t, u, h1, h2, h3, h4⟩ := h
  exact ⟨t, u, U.covers hc h1, U.counts h2, h3, U.rolePerm h4⟩

theorem grants {r : Req2} {now : Int} (h : Grants2 w now r) : Grants2 v now r := by
  obtain ⟨c, t, ns, x, h1, h2, h3, h4, h5⟩ := h
  have hk := known_target h1
  refine ⟨c, t, ns, x, U.target h1, (U.objs _ hk).trans h2, h3, h4.imp (U.scopedP hk) fun ⟨k1, t1, u, k2, k3, k4, k5⟩ =>
    ⟨fun y hy => k1 y (U.symm.scopedP (U.known.2 hk) hy), t1, u, U.covers hk k2, U.counts k3, k4, U.rolePerm k5⟩, h5⟩

theorem can {r : Req2} {now : Int} {roles : List Str} (h : Can2 w now r roles) : Can2 v now r roles := by
  obtain ⟨c, t, ns, x, h1, h2, h3, h4, t1, u, h5, h6, h7, h8⟩ := h
  have hk := known_target h1
  exact ⟨c, t, ns, x, U.target h1, (U.objs _ hk).trans h2, h3, h4, t1, u, U.covers hk h5, U.counts h6, h7, h8.imp_right U.roleBelow⟩

end Unseen

theorem onPR {w v : V2} {i : Nat} {f : PR → PR} (hi : some i ∉ w.userRoles) (h : V2Op.onPR w i f = .ok v) : Unseen w v := by
  obtain ⟨u, _, rfl⟩ := Out.map_eq_ok.1 h
  refine { Unseen.refl w with prs := fun j hj => ?_ }
  have : i ≠ j := by rintro rfl; exact hi hj
  simp [this]

theorem replaced {w v : V2} {c : Nat} {t' : T2} (hc : ¬ KnownT w c) (h : V2.Replaced w v c t') : Unseen w v := by
  obtain ⟨_, h2, h3⟩ := h
  have e : v = { w with tobjs := v.tobjs } := by rw [← h3]
  refine ⟨by rw [e], by rw [e], by rw [e], fun k a _ => by rw [e], by rw [e], fun i _ => by rw [e], by rw [e], by rw [e], fun i hi => ?_⟩
  rw [h2, if_neg]
  rintro rfl; exact hc hi

theorem robj {w : V2} {a : Nat} {o : R2} (ha : ∀ k, (k, a) ∉ w.dag.roles) :
    Unseen w { w with dag := { w.dag with objs := w.dag.objs.set a o } } := by
  refine ⟨rfl, rfl, rfl, fun k b hb => ?_, rfl, fun _ _ => rfl, rfl, rfl, fun _ _ => rfl⟩
  have : a ≠ b := by rintro rfl; exact ha k hb
  simp [this]

theorem known_defined {w : V2} (inv : Inv w) {c : Nat} (h : KnownT w c) : c < w.tobjs.length := by
  cases h with
  | registered h => obtain ⟨t, h, _⟩ := inv.tenants _ _ h; exact (List.getElem?_eq_some_iff.1 h).1
  | child _ h2 h3 => obtain ⟨t, h, _⟩ := inv.children _ (List.mem_of_getElem? h2) _ _ h3; exact (List.getElem?_eq_some_iff.1 h).1

theorem unseen {w v : V2} (inv : Inv w) {op : V2Op} (ha : Aside w op) (h : op.apply w = .ok v) : Unseen w v := by
  cases op with
  | newRole n =>
    cases h
    refine ⟨rfl, rfl, rfl, fun k a hk => ?_, rfl, fun _ _ => rfl, rfl, rfl, fun _ _ => rfl⟩
    obtain ⟨o, ho, _⟩ := inv.dag.keyed k a hk
    exact List.getElem?_append_left (List.getElem?_eq_some_iff.1 ho).1
  | newTenant id ns =>
    cases h
    refine ⟨rfl, rfl, rfl, fun _ _ _ => rfl, rfl, fun _ _ => rfl, rfl, rfl, fun c hc => ?_⟩
    exact List.getElem?_append_left (known_defined inv hc)
  | newPrincipalRole u =>
    cases h
    refine ⟨rfl, rfl, rfl, fun _ _ _ => rfl, rfl, fun i hi => ?_, rfl, rfl, fun _ _ => rfl⟩
    obtain ⟨u, hu⟩ := inv.users i hi
    exact List.getElem?_append_left (List.getElem?_eq_some_iff.1 hu).1
  | addPermission a ps =>
    obtain ⟨d, h1, rfl⟩ := Out.map_eq_ok.1 h
    obtain ⟨o, _, rfl⟩ := Dag.addPermission_eq h1
    exact robj ha
  | removePermission a ps =>
    obtain ⟨d, h1, rfl⟩ := Out.map_eq_ok.1 h
    obtain ⟨o, _, rfl⟩ := Dag.removePermission_eq h1
    exact robj ha
  | addNamespace c n d =>
    obtain ⟨t, hc, _⟩ := withT_eq_ok.1 h
    obtain ⟨v1, t', g1, g2, _⟩ := C73_addNamespace hc n d
    cases g1.symm.trans h
    exact replaced ha g2
  | addScopes c n scs =>
    obtain ⟨⟨b, x⟩, h1, rfl⟩ := Out.map_eq_ok.1 h
    obtain ⟨t, hc, h2⟩ := withT_eq_ok.1 h1
    split at h2
    · cases h2; exact .refl _
    · cases h2; exact replaced ha (replaced_setT hc _)
  | addChildTenant c ds =>
    obtain ⟨h1, rfl | ⟨t, hc⟩⟩ := Link2.defined h
    · cases h; exact .refl _
    · obtain ⟨v1, t', g1, g2, _⟩ := C73_addChildTenant hc h1
      cases g1.symm.trans h
      exact replaced ha g2
  | setStatus c s =>
    obtain ⟨t, hc, h2⟩ := withT_eq_ok.1 h
    cases h2
    exact replaced ha (replaced_setT hc _)
  | setExpiry i n e => exact onPR ha h
  | setExpiryDuration i p n a => exact onPR ha h
  | clearExpiry i => exact onPR ha h
  | _ => exact absurd ha (by simp [Aside])

theorem run {ops : List V2Op} : ∀ {w v : V2}, Inv w → (∀ op ∈ ops, Aside w op) → V2Op.run w ops = .ok v → Unseen w v ∧ Inv v := by
  induction ops with
  | nil => intro w v inv _ h; cases h; exact ⟨.refl _, inv⟩
  | cons op ops ih =>
    intro w v inv ha h
    obtain ⟨w1, h1, h2⟩ := Out.bind_eq_ok.1 h
    have U := unseen inv (ha op (List.mem_cons_self ..)) h1
    obtain ⟨U', inv'⟩ := ih (inv_apply inv h1) (fun o ho => U.aside (ha o (List.mem_cons_of_mem _ ho))) h2
    exact ⟨U.trans U', inv'⟩

end Aside2

namespace V2
open Aside2

/-- C156. Calls on objects that are not registered, at the time of the first one, change no answer. -/
theorem C156_aside {w v : V2} (inv : Inv w) {ops : List V2Op} (ha : ∀ op ∈ ops, Aside w op) (h : V2Op.run w ops = .ok v) {e : Env}
    {now : Int} (st : Steady w e now) {r : Req2} (tw : ∀ c, Target w r c → NoTwins w r.principal c) {fuel fuel' : Nat}
    {site site' : List Val} {b b' : Bool} {x y : V2} :
    (w.authorize e fuel site r = .ok (b, x) → v.authorize e fuel' site' r = .ok (b', y) → b = b') ∧
    ∀ roles, w.can e fuel site r roles = .ok (b, x) → v.can e fuel' site' r roles = .ok (b', y) → b = b' := by
  obtain ⟨U, invv⟩ := run inv ha h
  have st' : Steady v e now := fun u hu => st u (U.symm.asg hu)
  have tw' : ∀ c, Target v r c → NoTwins v r.principal c := fun c hc =>
    U.symm.noTwins (Unseen.known_target hc) (tw c (U.symm.target hc))
  refine ⟨fun h1 h2 => ?_, fun roles h1 h2 => ?_⟩
  · rw [Bool.eq_iff_iff, V2.authorize_exact inv st tw h1, V2.authorize_exact invv st' tw' h2]
    exact ⟨U.grants, U.symm.grants⟩
  · rw [Bool.eq_iff_iff, V2.can_exact inv st tw h1, V2.can_exact invv st' tw' h2]
    exact ⟨U.can, U.symm.can⟩

/-- C156. The calls return afterwards, given enough stack, if no nil entry is in the list of assignments, unless the matcher hangs on a permission of the
principal. -/
theorem C156_returns {w v : V2} (inv : Inv w) (hnil : none ∉ w.userRoles) {ops : List V2Op} (ha : ∀ op ∈ ops, Aside w op)
    (h : V2Op.run w ops = .ok v) {e : Env} {fuel : Nat} (hf : v.needs ≤ fuel) {site : List Val} {r : Req2} :
    ((∀ u x, Assigned w u → u.principal = r.principal → RolePerm w.dag u.role x → ¬ Hangs x (r.resource ++ [32] ++ r.action)) →
      ∃ b y, v.authorize e fuel site r = .ok (b, y)) ∧ ∀ roles, ∃ b y, v.can e fuel site r roles = .ok (b, y) := by
  obtain ⟨U, invv⟩ := run inv ha h
  have hn : none ∉ v.userRoles := by rw [U.users]; exact hnil
  exact ⟨fun hx => authorize_total invv hn hf fun c tid u x _ _ h3 h4 _ h6 => hx u x (U.symm.asg h3) h4 (U.symm.rolePerm h6),
    fun roles => can_total invv hn hf⟩

/-- C156. Nothing registered is changed by such calls: what is assigned, what the roles grant and the tenants known are as before. -/
theorem C156_state {w v : V2} (inv : Inv w) {ops : List V2Op} (ha : ∀ op ∈ ops, Aside w op) (h : V2Op.run w ops = .ok v) :
    v.userRoles = w.userRoles ∧ v.tenants = w.tenants ∧ v.defTenant = w.defTenant ∧ v.dag.roles = w.dag.roles ∧
    v.dag.edges = w.dag.edges ∧ v.dag.resolved = w.dag.resolved ∧ (∀ u, Assigned v u ↔ Assigned w u) ∧
    (∀ k a, (k, a) ∈ w.dag.roles → v.dag.objs[a]? = w.dag.objs[a]?) ∧ ∀ c, (KnownT v c ↔ KnownT w c) ∧ (KnownT w c → v.tobjs[c]? = w.tobjs[c]?) := by
  have U := (run inv ha h).1
  exact ⟨U.users, U.tenants, U.default, U.roles, U.edges, U.cache, fun u => ⟨U.symm.asg, U.asg⟩, U.robjs, fun c => ⟨U.known, U.objs c⟩⟩

/-- A second role "r" with a permission, a second tenant "t" with the child "t", and an assignment of them to `q`. -/
def exAside : List V2Op := [.newRole (str "r"), .addPermission 2 [⟨str "x", str "read", []⟩], .newTenant (str "t") (some (str "n")),
  .addScopes 1 (str "n") [str "z"], .addChildTenant 1 [0], .setStatus 1 1,
  .newPrincipalRole { principal := str "q", tenant := str "t", role := str "r" }, .setExpiry 1 0 200, .clearExpiry 1]

/-- C156 is not about nothing: nobody gets access by these objects, until they are registered. -/
theorem C156_example : ∃ w v v', V2Op.run {} (exRoles ++ exTenant ++ exUser) = .ok w ∧ (∀ op ∈ exAside, Aside w op) ∧
    none ∉ w.userRoles ∧ v.needs ≤ 30 ∧ V2Op.run w exAside = .ok v ∧ V2Op.run v [.addRoles [2], .addTenant 1, .addPrincipalRole [1]] = .ok v' ∧
    (w.authorize exEnv 9 [] exReq).map (·.1) = .ok true ∧ (v.authorize exEnv 9 [] exReq).map (·.1) = .ok true ∧
    (v.authorize exEnv 9 [] { exReq with principal := str "q", scope := str "z" }).map (·.1) = .ok false ∧
    (v'.authorize exEnv 9 [] { exReq with principal := str "q", scope := str "z" }).map (·.1) = .ok true := by
  obtain ⟨w, h, h1, h2, h3, h4, h5, h6⟩ := Out.chk_ok (x := V2Op.run {} (exRoles ++ exTenant ++ exUser)) (P := fun w =>
    (w.authorize exEnv 9 [] exReq).map (·.1) = .ok true ∧ w.tenants = [(str "t", 0)] ∧ (∀ t ∈ w.tobjs, t.children = []) ∧
    w.userRoles = [some 0] ∧ w.dag.roles = [(str "r", 0), (str "q", 1)] ∧
    (V2Op.run w exAside).bind (fun v => (V2Op.run v [.addRoles [2], .addTenant 1, .addPrincipalRole [1]]).map fun v' =>
      decide (v.needs ≤ 30 ∧ (v.authorize exEnv 9 [] exReq).map (·.1) = .ok true ∧
        (v.authorize exEnv 9 [] { exReq with principal := str "q", scope := str "z" }).map (·.1) = .ok false ∧
        (v'.authorize exEnv 9 [] { exReq with principal := str "q", scope := str "z" }).map (·.1) = .ok true)) = .ok true) (by decide +kernel)
  obtain ⟨v, g1, g2⟩ := Out.bind_eq_ok.1 h6
  obtain ⟨v', g3, g4⟩ := Out.map_eq_ok.1 g2
  obtain ⟨g0, g5, g6, g7⟩ := of_decide_eq_true g4
  have hk : ¬ KnownT w 1 := by
    intro hk
    cases hk with
    | registered hk => rw [h2] at hk; simp at hk
    | child _ k2 k3 => rw [h3 _ (List.mem_of_getElem? k2)] at k3; cases k3
  refine ⟨w, v, v', h, fun op ho => ?_, by rw [h4]; simp, g0, g1, g3, h1, g5, g6, g7⟩
  simp only [exAside, List.mem_cons, List.not_mem_nil, or_false] at ho
  rcases ho with rfl | rfl | rfl | rfl | rfl | rfl | rfl | rfl | rfl
  · trivial
  · intro k; rw [h5]; simp
  · trivial
  · exact hk
  · exact hk
  · exact hk
  · trivial
  · show some 1 ∉ w.userRoles; rw [h4]; simp
  · show some 1 ∉ w.userRoles; rw [h4]; simp

end V2
end Verif
