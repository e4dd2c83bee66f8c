import Verif.Lemmas.V2Ops
import Verif.Props.Manager

/-!
# Package v2: the role graph (C44, C45, C46, C58)
-/

namespace Verif
open Spec
open Relation (ReflTransGen TransGen)

namespace Dag
variable {d d' : Dag}

/-! ## C45 -/

/-- C45. `checkCircularDependency` accepts (`false`) exactly when no route leads from the new children to the
parent and no role is reached by two routes.  So shared descendants are rejected too. -/
theorem C45_exact (wf : GoMap.WF d.edges) {fuel : Nat} {parent : Str} {cs : List Str} {b : Bool}
    (h : d.checkCircular fuel parent cs = .ok b) :
    b = false ↔ (∀ is, ¬ RouteFrom d cs is parent) ∧ ∀ is js x, RouteFrom d cs is x → RouteFrom d cs js x → is = js := by
  obtain ⟨⟨b', V⟩, h1, rfl⟩ := Out.map_eq_ok.1 h
  have s := dfsLoop_spec (d := d) (fun c V r h => dfs_spec wf h) h1
  cases b' with
  | false =>
    obtain ⟨_, s2, s3⟩ := s
    exact ⟨fun _ => ⟨fun is h => absurd (by simp) (s2 is parent h), s3⟩, fun _ => rfl⟩
  | true =>
    simp only [Bool.true_eq_false, false_iff, not_and]
    intro h2 h3
    rcases s with ⟨is, x, h4, h5⟩ | ⟨is, js, x, h4, h5, h6⟩
    · rw [List.mem_singleton] at h5; subst h5; exact h2 is h4
    · exact h4 (h3 is js x h5 h6)

/-- C45. The check returns on every graph, cyclic or not. -/
theorem C45_terminates (d : Dag) (parent : Str) (cs : List Str) :
    ∃ n, ∀ m ≥ n, ∃ b, d.checkCircular m parent cs = .ok b := checkCircular_total d parent cs

/-- C45. A chain below the child is accepted, a second route to one role is not, nor is a route to the parent. -/
example : let d : Dag := { edges := [(str "a", [str "b"]), (str "b", [str "c"])] }
    d.checkCircular 9 (str "x") [str "a"] = .ok false ∧
    d.checkCircular 9 (str "x") [str "a", str "c"] = .ok true ∧
    d.checkCircular 9 (str "c") [str "a"] = .ok true := by decide +kernel

/-! ## C44 -/

theorem route_of_reaches {a b : Str} (h : ReflTransGen (Edge d) a b) : ∃ is, Route d a is b := by
  induction h using Relation.ReflTransGen.head_induction_on with
  | refl => exact ⟨[], .here⟩
  | head h _ ih =>
    obtain ⟨is, hr⟩ := ih
    obtain ⟨cs, h1, h2⟩ := h
    obtain ⟨i, hi⟩ := List.mem_iff_getElem?.1 h2
    exact ⟨i :: is, .down h1 hi hr⟩

theorem routeFrom_of_reaches {c b : Str} {cs : List Str} (hc : c ∈ cs) (h : ReflTransGen (Edge d) c b) :
    ∃ is, RouteFrom d cs is b := by
  obtain ⟨is, hr⟩ := route_of_reaches h
  obtain ⟨i, hi⟩ := List.mem_iff_getElem?.1 hc
  exact ⟨i :: is, c, hi, hr⟩

/-- The child links after an accepted call. -/
theorem edge_add (wf : GoMap.WF d.edges) {p : Str} {cs : List Str} {a b : Str} :
    Edge { d with edges := d.edges.set p (d.children p ++ cs) } a b ↔ Edge d a b ∨ (a = p ∧ b ∈ cs) := by
  rw [edge_iff wf, edge_iff (GoMap.wf_set wf ..)]
  show b ∈ ((d.edges.set p (d.children p ++ cs)).get a).getD [] ↔ _
  rw [GoMap.get_set]
  by_cases h : a = p
  · subst h; simp
  · rw [if_neg (Ne.symm h)]; simp [h, children]

/-- C44. An accepted call keeps the graph acyclic. -/
theorem acyclic_add (wf : GoMap.WF d.edges) (ac : Acyclic d) {p : Str} {cs : List Str}
    (hno : ∀ is, ¬ RouteFrom d cs is p) : Acyclic { d with edges := d.edges.set p (d.children p ++ cs) } := by
  generalize hd : ({ d with edges := d.edges.set p (d.children p ++ cs) } : Dag) = d'
  have he : ∀ a b, Edge d' a b ↔ Edge d a b ∨ (a = p ∧ b ∈ cs) := fun a b => hd ▸ edge_add wf
  have toP : ∀ x, ReflTransGen (Edge d') x p → ReflTransGen (Edge d) x p := by
    intro x h
    induction h using Relation.ReflTransGen.head_induction_on with
    | refl => exact .refl
    | head h _ ih =>
      rcases (he _ _).1 h with h | ⟨rfl, _⟩
      · exact .head h ih
      · exact .refl
  have key : ∀ a b, TransGen (Edge d') a b →
      TransGen (Edge d) a b ∨ (ReflTransGen (Edge d') a p ∧ ∃ c ∈ cs, ReflTransGen (Edge d') c b) := by
    intro a b h
    induction h with
    | single h =>
      rcases (he _ _).1 h with h | ⟨rfl, h⟩
      · exact .inl (.single h)
      · exact .inr ⟨.refl, _, h, .refl⟩
    | tail h1 h2 ih =>
      rcases ih with ih | ⟨g1, c, g2, g3⟩
      · rcases (he _ _).1 h2 with h | ⟨rfl, h⟩
        · exact .inl (.tail ih h)
        · exact .inr ⟨h1.to_reflTransGen, _, h, .refl⟩
      · exact .inr ⟨g1, c, g2, g3.tail h2⟩
  intro r h
  rcases key r r h with h | ⟨g1, c, g2, g3⟩
  · exact ac r h
  · obtain ⟨is, hr⟩ := routeFrom_of_reaches g2 (toP c (g3.trans g1))
    exact hno is hr

theorem acyclic_of_edges (h : d'.edges = d.edges) (ac : Acyclic d) : Acyclic d' := by
  have : Edge d' = Edge d := by funext a b; unfold Edge; rw [h]
  unfold Acyclic; rw [this]; exact ac

theorem acyclic_addChildRole (wf : GoMap.WF d.edges) (ac : Acyclic d) {fuel : Nat} {p : Str} {cs : List Str} {b : Bool}
    (h : d.addChildRole fuel p cs = .ok (b, d')) : Acyclic d' := by
  obtain ⟨h1, h2⟩ := addChildRole_cases h
  rcases h2 with ⟨_, rfl⟩ | ⟨rfl, rfl⟩
  · exact ac
  · exact acyclic_add wf ac ((C45_exact wf h1).1 rfl).1

/-- C44. A rejected call changes nothing; an accepted one adds exactly the named links. -/
theorem C44_effect (wf : GoMap.WF d.edges) {fuel : Nat} {p : Str} {cs : List Str} {b : Bool}
    (h : d.addChildRole fuel p cs = .ok (b, d')) :
    (b = true → d' = d) ∧ (b = false → d'.objs = d.objs ∧ d'.roles = d.roles ∧ d'.resolved = d.resolved ∧
      ∀ x y, Edge d' x y ↔ Edge d x y ∨ (x = p ∧ y ∈ cs)) := by
  rcases (addChildRole_cases h).2 with ⟨rfl, rfl⟩ | ⟨rfl, rfl⟩
  · exact ⟨fun _ => rfl, fun h => by cases h⟩
  · exact ⟨(fun h => by cases h), fun _ => ⟨rfl, rfl, rfl, fun x y => edge_add wf⟩⟩

end Dag

/-- C44. The graph of a reachable authorizer is acyclic. -/
theorem acyclic_apply {w w' : V2} (inv : w.Inv) (ac : Acyclic w.dag) {op : V2Op} (h : op.apply w = .ok w') :
    Acyclic w'.dag := by
  have same : ∀ {f : PR → PR} {i}, V2Op.onPR w i f = .ok w' → w'.dag = w.dag := fun h => by
    obtain ⟨u, _, rfl⟩ := Out.map_eq_ok.1 h; rfl
  cases op with
  | newRole n => cases h; exact ac
  | addPermission a ps =>
    obtain ⟨d, h1, rfl⟩ := Out.map_eq_ok.1 h
    obtain ⟨o, _, rfl⟩ := Dag.addPermission_eq h1
    exact ac
  | removePermission a ps =>
    obtain ⟨d, h1, rfl⟩ := Out.map_eq_ok.1 h
    obtain ⟨o, _, rfl⟩ := Dag.removePermission_eq h1
    exact ac
  | addRoles as =>
    obtain ⟨d, h1, rfl⟩ := Out.map_eq_ok.1 h
    exact Dag.acyclic_of_edges (Dag.addRole_same h1).2.1 ac
  | addChildRole fuel p cs =>
    obtain ⟨⟨b, d⟩, h1, rfl⟩ := Out.map_eq_ok.1 h
    exact Dag.acyclic_addChildRole inv.dag.edgesWF ac h1
  | newTenant id ns => cases h; exact ac
  | addNamespace c n d => obtain ⟨t, _, h1⟩ := V2.withT_eq_ok.1 h; cases h1; exact ac
  | addScopes c n scs =>
    obtain ⟨⟨b, d⟩, h1, rfl⟩ := Out.map_eq_ok.1 h
    obtain ⟨t, _, h2⟩ := V2.withT_eq_ok.1 h1
    split at h2 <;> cases h2 <;> exact ac
  | addChildTenant c ds =>
    refine Out.loop_inv (P := fun x : V2 => Acyclic x.dag) (fun s s' d _ hs hf => ?_) ac h
    obtain ⟨t, _, h1⟩ := V2.withT_eq_ok.1 hf
    obtain ⟨dt, _, h2⟩ := V2.withT_eq_ok.1 h1
    cases h2; exact hs
  | setStatus c s => obtain ⟨t, _, h1⟩ := V2.withT_eq_ok.1 h; cases h1; exact ac
  | addTenant c => obtain ⟨t, ps, _, rfl⟩ := V2.addTenant_eq h; exact ac
  | setDefaultTenant t => cases h; exact ac
  | newPrincipalRole u => cases h; exact ac
  | setExpiry i now e => rw [same h]; exact ac
  | setExpiryDuration i parse now a => rw [same h]; exact ac
  | clearExpiry i => rw [same h]; exact ac
  | addPrincipalRole is =>
    refine Out.loop_inv (P := fun x : V2 => Acyclic x.dag) (fun s s' i _ hs hf => ?_) ac h
    obtain ⟨u, _, h1⟩ := Out.bind_eq_ok.1 hf
    cases h1; exact hs
  | removePrincipalRole target =>
    obtain ⟨⟨b, d⟩, h1, rfl⟩ := Out.map_eq_ok.1 h
    rcases (V2.remove_eq h1).2 with ⟨_, rfl, _⟩ | ⟨_, _, rfl⟩ <;> exact ac
  | authorize e fuel site r =>
    obtain ⟨⟨b, d⟩, h1, rfl⟩ := Out.map_eq_ok.1 h
    exact Dag.acyclic_of_edges (V2.authorize_run inv h1).dag.same.2.2 ac
  | can e fuel site r roles =>
    obtain ⟨⟨b, d⟩, h1, rfl⟩ := Out.map_eq_ok.1 h
    exact Dag.acyclic_of_edges (V2.can_run inv h1).dag.same.2.2 ac

/-- C44. After any history of calls no role reaches itself through child links. -/
theorem C44_acyclic {l : Bool} {ops : List V2Op} {w : V2} (h : V2Op.run { logger := l } ops = .ok w) : Acyclic w.dag :=
  (Out.loop_inv (P := fun w : V2 => w.Inv ∧ Acyclic w.dag)
    (fun _ _ _ _ hs hf => ⟨V2.inv_apply hs.1 hf, acyclic_apply hs.1 hs.2 hf⟩)
    ⟨V2.inv_init l, fun r h => by
      obtain ⟨_, ⟨cs, h1, _⟩, _⟩ := Relation.TransGen.head'_iff.1 h
      cases h1⟩ h).2

/-- C44. A history with links a → b → c; closing the cycle is rejected and nothing changes. -/
example : ∃ w, V2Op.run {} [.addChildRole 9 (str "b") [str "c"], .addChildRole 9 (str "a") [str "b"],
      .addChildRole 9 (str "c") [str "a"]] = .ok w ∧
    w.dag.edges = [(str "b", [str "c"]), (str "a", [str "b"])] ∧
    w.dag.addChildRole 9 (str "c") [str "a"] = .ok (true, w.dag) := Out.chk_ok (by decide +kernel)

/-- C45. Repeated links are accepted, and later make the check reject a harmless link: no cycle through `x` is
possible here. -/
theorem C45_rejects_diamond : ∃ w, V2Op.run {} [.addChildRole 9 (str "a") [str "b"], .addChildRole 9 (str "a") [str "b"]] = .ok w ∧
    w.dag.edges = [(str "a", [str "b", str "b"])] ∧
    w.dag.addChildRole 9 (str "x") [str "a"] = .ok (true, w.dag) := Out.chk_ok (by decide +kernel)

namespace Dag
variable {d d' : Dag}

/-! ## C46 -/

/-- C46. Without a cached set, `ResolvePermissions` returns exactly the permissions of the registered roles
below `r`, and caches them. -/
theorem C46_closure (inv : DInv d) {fuel : Nat} {r : Str} {s : List Str} (hno : ∀ s, (r, s) ∉ d.resolved)
    (h : d.resolvePermissions fuel r = .ok (s, d')) :
    (∀ x, x ∈ s ↔ PermClosure d r x) ∧ (r, s) ∈ d'.resolved ∧ d'.objs = d.objs ∧ d'.roles = d.roles ∧ d'.edges = d.edges := by
  have hget : d.resolved.get r = none := by
    cases hg : d.resolved.get r with
    | none => rfl
    | some s => exact absurd (GoMap.get_some_mem hg) (hno s)
  obtain ⟨h1, _, h3, _⟩ := resolve_spec inv h
  refine ⟨fun x => ?_, ?_, h3⟩
  · rw [h1]
    constructor
    · rintro (⟨s, h, _⟩ | ⟨_, h⟩)
      · exact absurd h (hno s)
      · exact h
    · exact fun h => .inr ⟨hno, h⟩
  · unfold resolvePermissions resolve at h
    rw [hget] at h
    obtain ⟨s', _, h5⟩ := Out.map_eq_ok.1 h
    cases h5
    exact (GoMap.mem_set_iff inv.resolvedWF).2 (.inl rfl)

/-- C46. Without a cached set, `ResolveChildRoles` returns exactly the registered roles below `r`. -/
theorem C46_children (inv : DInv d) {fuel : Nat} {r : Str} {s : List Str} (hno : ∀ s, (r, s) ∉ d.resolved)
    (h : d.resolveChildRoles fuel r = .ok (s, d')) : ∀ x, x ∈ s ↔ Below d r x := by
  intro x
  rw [(resolve_spec inv h).1 x, resolves_names inv]
  constructor
  · rintro (⟨s, h, _⟩ | ⟨_, h⟩)
    · exact absurd h (hno s)
    · exact h
  · exact fun h => .inr ⟨hno, h⟩

/-- C46. Both calls return on every graph, cyclic or not, with one bound for all roles. -/
theorem C46_terminates (inv : DInv d) : ∃ n, ∀ m ≥ n, ∀ r,
    (∃ y, d.resolvePermissions m r = .ok y) ∧ (∃ y, d.resolveChildRoles m r = .ok y) :=
  ⟨_, fun _ hm r => ⟨resolve_total inv _ hm r, resolve_total inv _ hm r⟩⟩

/-- C46. An unregistered role in between cuts off the roles below it. -/
example : ∃ w, V2Op.run {} [.newRole (str "a"), .newRole (str "b"), .newRole (str "c"), .addPermission 0 [⟨str "x", str "r", []⟩],
      .addPermission 1 [⟨str "y", str "r", []⟩], .addPermission 2 [⟨str "z", str "r", []⟩], .addRoles [0, 1, 2],
      .addChildRole 9 (str "b") [str "a"], .addChildRole 9 (str "n") [str "c"], .addChildRole 9 (str "b") [str "n"]] = .ok w ∧
    (w.dag.resolvePermissions 9 (str "b")).map (·.1) = .ok [str "y r", str "x r"] ∧
    (w.dag.resolveChildRoles 9 (str "b")).map (·.1) = .ok [str "b", str "a"] ∧
    (w.dag.resolvePermissions 9 (str "n")).map (·.1) = .ok [] := Out.chk_ok (by decide +kernel)

/-! ## C58 -/

/-- C58. `AddPermission` leaves the union, keyed by "resource action"; the name and other roles stay as they are. -/
theorem C58_add {a : Nat} {ps : List Perm2} (h : d.addPermission a ps = .ok d') :
    ∃ o o', d.objs[a]? = some o ∧ d'.objs[a]? = some o' ∧ o'.name = o.name ∧
      (∀ x, x ∈ o'.perms ↔ x ∈ o.perms ∨ ∃ p ∈ ps, x = p.resource ++ [32] ++ p.action) ∧
      (∀ b, b ≠ a → d'.objs[b]? = d.objs[b]?) ∧ d' = { d with objs := d'.objs } := by
  obtain ⟨o, ho, rfl⟩ := addPermission_eq h
  refine ⟨o, _, ho, List.getElem?_set_self (List.getElem?_eq_some_iff.1 ho).1, rfl, fun x => ?_,
    fun b hb => List.getElem?_set_ne (Ne.symm hb), rfl⟩
  rw [mem_addStrs, List.mem_map]
  refine or_congr_right ⟨?_, ?_⟩
  · rintro ⟨p, h1, rfl⟩; exact ⟨p, h1, rfl⟩
  · rintro ⟨p, h1, rfl⟩; exact ⟨p, h1, rfl⟩

/-- C58. `RemovePermission` leaves the difference. -/
theorem C58_remove {a : Nat} {ps : List Perm2} (h : d.removePermission a ps = .ok d') :
    ∃ o o', d.objs[a]? = some o ∧ d'.objs[a]? = some o' ∧ o'.name = o.name ∧
      (∀ x, x ∈ o'.perms ↔ x ∈ o.perms ∧ ¬ ∃ p ∈ ps, x = p.resource ++ [32] ++ p.action) ∧
      (∀ b, b ≠ a → d'.objs[b]? = d.objs[b]?) ∧ d' = { d with objs := d'.objs } := by
  obtain ⟨o, ho, rfl⟩ := removePermission_eq h
  refine ⟨o, _, ho, List.getElem?_set_self (List.getElem?_eq_some_iff.1 ho).1, rfl, fun x => ?_,
    fun b hb => List.getElem?_set_ne (Ne.symm hb), rfl⟩
  rw [mem_removeStrs, List.mem_map]
  refine and_congr_right fun _ => not_congr ⟨?_, ?_⟩
  · rintro ⟨p, h1, rfl⟩; exact ⟨p, h1, rfl⟩
  · rintro ⟨p, h1, rfl⟩; exact ⟨p, h1, rfl⟩

/-- One call on a role: `AddPermission` (`true`) or `RemovePermission` (`false`). -/
def permStep (a : Nat) (d : Dag) (op : Bool × List Perm2) : Out Dag :=
  if op.1 then d.addPermission a op.2 else d.removePermission a op.2

/-- The call names the permission key. -/
def Names (op : Bool × List Perm2) (x : Str) : Prop := ∃ p ∈ op.2, x = p.resource ++ [32] ++ p.action

/-- C58. After any sequence of calls the role has exactly the permissions whose last mention was an addition, and
those it had that were never mentioned. -/
theorem C58_sequence {a : Nat} {o : R2} (ho : d.objs[a]? = some o) {ops : List (Bool × List Perm2)} :
    ∃ d' o', Out.loop (permStep a) d ops = .ok d' ∧ d'.objs[a]? = some o' ∧ o'.name = o.name ∧ ∀ x, x ∈ o'.perms ↔
      (x ∈ o.perms ∧ ∀ op ∈ ops, ¬ Names op x) ∨
      ∃ pre op post, ops = pre ++ op :: post ∧ op.1 = true ∧ Names op x ∧ ∀ q ∈ post, ¬ Names q x := by
  induction ops generalizing d o with
  | nil => exact ⟨d, o, rfl, ho, rfl, by simp⟩
  | cons op ops ih =>
    have step : ∃ d1 o1, permStep a d op = .ok d1 ∧ d1.objs[a]? = some o1 ∧ o1.name = o.name ∧
        ∀ x, x ∈ o1.perms ↔ (Names op x ∧ op.1 = true) ∨ (x ∈ o.perms ∧ ¬ Names op x) := by
      obtain ⟨b, ps⟩ := op
      cases b with
      | true =>
        have h : d.addPermission a ps = .ok { d with objs := d.objs.set a { o with perms := (ps.map Perm2.string).foldl addStr o.perms } } := by
          unfold addPermission; rw [ho]
        obtain ⟨o0, o', g1, g2, g3, g4, _⟩ := C58_add h
        rw [ho] at g1; cases g1
        refine ⟨_, o', h, g2, g3, fun x => ?_⟩
        rw [g4]
        show _ ↔ ((∃ p ∈ ps, x = p.resource ++ [32] ++ p.action) ∧ true = true) ∨ (_ ∧ ¬ ∃ p ∈ ps, x = p.resource ++ [32] ++ p.action)
        generalize (∃ p ∈ ps, x = p.resource ++ [32] ++ p.action) = N
        by_cases hx : N <;> simp [hx]
      | false =>
        have h : d.removePermission a ps = .ok { d with objs := d.objs.set a { o with
            perms := (ps.map Perm2.string).foldl (fun s x => s.filter (· ≠ x)) o.perms } } := by
          unfold removePermission; rw [ho]
        obtain ⟨o0, o', g1, g2, g3, g4, _⟩ := C58_remove h
        rw [ho] at g1; cases g1
        refine ⟨_, o', h, g2, g3, fun x => ?_⟩
        rw [g4]
        show _ ↔ ((∃ p ∈ ps, x = p.resource ++ [32] ++ p.action) ∧ false = true) ∨ (_ ∧ ¬ ∃ p ∈ ps, x = p.resource ++ [32] ++ p.action)
        generalize (∃ p ∈ ps, x = p.resource ++ [32] ++ p.action) = N
        simp
    obtain ⟨d1, o1, h1, h2, h3, h4⟩ := step
    obtain ⟨d', o', k1, k2, k3, k4⟩ := ih h2
    refine ⟨d', o', by rw [Out.loop, h1]; exact k1, k2, k3.trans h3, fun x => ?_⟩
    rw [k4, h4]
    constructor
    · rintro (⟨⟨g1, g2⟩ | ⟨g1, g2⟩, g3⟩ | ⟨pre, q, post, rfl, g⟩)
      · exact .inr ⟨[], op, ops, rfl, g2, g1, g3⟩
      · exact .inl ⟨g1, by simpa [g2] using g3⟩
      · exact .inr ⟨op :: pre, q, post, rfl, g⟩
    · rintro (⟨g1, g2⟩ | ⟨pre, q, post, g1, g2, g3, g4⟩)
      · simp only [List.mem_cons, forall_eq_or_imp] at g2
        exact .inl ⟨.inr ⟨g1, g2.1⟩, g2.2⟩
      · cases pre with
        | nil =>
          simp only [List.nil_append, List.cons.injEq] at g1
          obtain ⟨rfl, rfl⟩ := g1
          exact .inl ⟨.inl ⟨g3, g2⟩, g4⟩
        | cons p pre =>
          simp only [List.cons_append, List.cons.injEq] at g1
          obtain ⟨rfl, rfl⟩ := g1
          exact .inr ⟨pre, q, post, rfl, g2, g3, g4⟩

/-- C58. Two different permissions can share a key: removing ("a", "b c") takes away ("a b", "c"). -/
example : (Out.loop (permStep 0) { objs := [⟨str "r", []⟩] }
    [(true, [⟨str "a b", str "c", []⟩, ⟨str "x", str "y", []⟩]), (false, [⟨str "a", str "b c", []⟩])]).map (·.objs) =
    .ok [⟨str "r", [str "x y"]⟩] := by decide +kernel

end Dag
end Verif
