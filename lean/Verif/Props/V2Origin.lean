import Mathlib.Data.List.Induction
import Verif.Props.V2Isolation
import Verif.Props.V2RoleSetup

/-!
# Package v2: where access comes from, C95 (assignments) and C96 (permissions)

Both are about whole histories: a list of calls on a new authorizer, and a decision at its end.
-/

namespace Verif
open Spec

/-! ## Reading a history -/

/-- The assignment objects a history creates, in order. -/
def created (ops : List V2Op) : List PR := ops.filterMap fun
  | .newPrincipalRole u => some u
  | _ => none

/-- The history assigns object `i`, created as `u`, and removes nothing like it afterwards. -/
def Stands (ops : List V2Op) (i : Nat) (u : PR) : Prop :=
  (created ops)[i]? = some u ∧ ∃ pre is post, ops = pre ++ V2Op.addPrincipalRole is :: post ∧ i ∈ is ∧
    ∀ target, V2Op.removePrincipalRole target ∈ post → ¬ V2.Selects target u

/-- The history gives some role a permission with the text `x`. -/
def Given (ops : List V2Op) (x : Str) : Prop :=
  ∃ a ps p, V2Op.addPermission a ps ∈ ops ∧ p ∈ ps ∧ x = p.resource ++ [32] ++ p.action

namespace V2
variable {w w' v : V2} {l : Bool} {ops : List V2Op}

theorem run_snoc {op : V2Op} : V2Op.run w (ops ++ [op]) = .ok w' ↔ ∃ v, V2Op.run w ops = .ok v ∧ op.apply v = .ok w' := by
  unfold V2Op.run
  rw [Out.loop_append, Out.bind_eq_ok]
  simp only [Out.loop]
  constructor
  · rintro ⟨v, h1, h2⟩
    obtain ⟨v', h3, h4⟩ := Out.bind_eq_ok.1 h2
    cases h4; exact ⟨v, h1, h3⟩
  · rintro ⟨v, h1, h2⟩; exact ⟨v, h1, by rw [h2]; rfl⟩

theorem run_ind {P : List V2Op → V2 → Prop} (h0 : P [] w)
    (hs : ∀ ops op v v', V2Op.run w ops = .ok v → P ops v → op.apply v = .ok v' → P (ops ++ [op]) v')
    (h : V2Op.run w ops = .ok w') : P ops w' := by
  induction ops using List.reverseRecOn generalizing w' with
  | nil => cases h; exact h0
  | append_singleton ops op ih =>
    obtain ⟨v, h1, h2⟩ := run_snoc.1 h
    exact hs ops op v w' h1 (ih h1) h2

/-! ## C95 -/

/-- An assignment without its expiry, the only part that changes. -/
def core (u : PR) : PR := { u with expiry := none }

theorem selects_core {t u u' : PR} (h : core u = core u') : Selects t u ↔ Selects t u' := by
  have h1 : u.principal = u'.principal := by have := congrArg PR.principal h; exact this
  have h2 : u.tenant = u'.tenant := by have := congrArg PR.tenant h; exact this
  have h3 : u.scope = u'.scope := by have := congrArg PR.scope h; exact this
  have h4 : u.namespace_ = u'.namespace_ := by have := congrArg PR.namespace_ h; exact this
  have h5 : u.role = u'.role := by have := congrArg PR.role h; exact this
  unfold Selects; rw [h1, h2, h3, h4, h5]

theorem onPR_core {i : Nat} {f : PR → PR} (hf : ∀ u, core (f u) = core u) (h : V2Op.onPR w i f = .ok w') :
    w'.userRoles = w.userRoles ∧ w'.prs.map core = w.prs.map core := by
  obtain ⟨u, hu, rfl⟩ := Out.map_eq_ok.1 h
  obtain ⟨j, hj, hu⟩ := prAt_eq_ok.1 hu
  cases hj
  refine ⟨rfl, ?_⟩
  apply List.ext_getElem?
  intro k
  simp only [List.getElem?_map, List.getElem?_set]
  by_cases hik : i = k
  · subst hik
    obtain ⟨hl, rfl⟩ := List.getElem?_eq_some_iff.1 hu
    simp [hl, hf]
  · simp [hik]

theorem users_apply {op : V2Op} (inv : Inv w) (h : op.apply w = .ok w') :
    w'.prs.map core = w.prs.map core ++ (created [op]).map core ∧
    ∀ i, some i ∈ w'.userRoles →
      (some i ∈ w.userRoles ∧ ∀ target, op = .removePrincipalRole target → ∀ u, w.prs[i]? = some u → ¬ Selects target u) ∨
      ∃ is, op = .addPrincipalRole is ∧ i ∈ is := by
  have keep : ∀ {v : V2}, (∀ t, op ≠ .removePrincipalRole t) → created [op] = [] → v.prs = w.prs → v.userRoles = w.userRoles →
      v.prs.map core = w.prs.map core ++ (created [op]).map core ∧ ∀ i, some i ∈ v.userRoles →
      (some i ∈ w.userRoles ∧ ∀ target, op = .removePrincipalRole target → ∀ u, w.prs[i]? = some u → ¬ Selects target u) ∨
      ∃ is, op = .addPrincipalRole is ∧ i ∈ is :=
    fun h1 h2 h3 h4 => ⟨by simp [h2, h3], fun i hi => .inl ⟨h4 ▸ hi, fun t e => absurd e (h1 t)⟩⟩
  have onPR : ∀ {i : Nat} {f : PR → PR}, (∀ t, op ≠ .removePrincipalRole t) → created [op] = [] → (∀ u, core (f u) = core u) →
      V2Op.onPR w i f = .ok w' → w'.prs.map core = w.prs.map core ++ (created [op]).map core ∧ ∀ i, some i ∈ w'.userRoles →
      (some i ∈ w.userRoles ∧ ∀ target, op = .removePrincipalRole target → ∀ u, w.prs[i]? = some u → ¬ Selects target u) ∨
      ∃ is, op = .addPrincipalRole is ∧ i ∈ is := fun h1 h2 hf g => by
    obtain ⟨g1, g2⟩ := onPR_core hf g
    exact ⟨by simp [h2, g2], fun i hi => .inl ⟨g1 ▸ hi, fun t e => absurd e (h1 t)⟩⟩
  cases op with
  | newRole n => cases h; exact keep (by simp) rfl rfl rfl
  | addPermission a ps => obtain ⟨d, _, rfl⟩ := Out.map_eq_ok.1 h; exact keep (by simp) rfl rfl rfl
  | removePermission a ps => obtain ⟨d, _, rfl⟩ := Out.map_eq_ok.1 h; exact keep (by simp) rfl rfl rfl
  | addRoles as => obtain ⟨d, _, rfl⟩ := Out.map_eq_ok.1 h; exact keep (by simp) rfl rfl rfl
  | addChildRole fuel p cs => obtain ⟨d, _, rfl⟩ := Out.map_eq_ok.1 h; exact keep (by simp) rfl rfl rfl
  | newTenant id ns => cases h; exact keep (by simp) rfl rfl rfl
  | addNamespace c n d => obtain ⟨t, _, h1⟩ := withT_eq_ok.1 h; cases h1; exact keep (by simp) rfl rfl rfl
  | addScopes c n scs =>
    obtain ⟨⟨b, d⟩, h0, rfl⟩ := Out.map_eq_ok.1 h
    obtain ⟨t, _, h1⟩ := withT_eq_ok.1 h0
    split at h1 <;> (cases h1; exact keep (by simp) rfl rfl rfl)
  | addChildTenant c ds =>
    have : w'.userRoles = w.userRoles ∧ w'.prs = w.prs :=
      Out.loop_inv (P := fun v : V2 => v.userRoles = w.userRoles ∧ v.prs = w.prs) (fun s s' d _ hs hf => by
        obtain ⟨t, _, h1⟩ := withT_eq_ok.1 hf
        obtain ⟨dt, _, h2⟩ := withT_eq_ok.1 h1
        cases h2; exact hs) ⟨rfl, rfl⟩ h
    exact keep (by simp) rfl this.2 this.1
  | setStatus c s => obtain ⟨t, _, h1⟩ := withT_eq_ok.1 h; cases h1; exact keep (by simp) rfl rfl rfl
  | addTenant c => obtain ⟨t, ps, _, rfl⟩ := addTenant_eq h; exact keep (by simp) rfl rfl rfl
  | setDefaultTenant t => cases h; exact keep (by simp) rfl rfl rfl
  | newPrincipalRole u =>
    cases h
    exact ⟨by simp [created], fun i hi => .inl ⟨hi, by simp⟩⟩
  | setExpiry i now e =>
    refine onPR (by simp) rfl (fun u => ?_) h
    unfold PR.setExpiry; split <;> rfl
  | setExpiryDuration i parse now a =>
    refine onPR (by simp) rfl (fun u => ?_) h
    cases a with
    | str s => cases hp : parse s <;> simp [PR.setExpiryDuration, hp, core]
    | dur d => rfl
    | other => rfl
  | clearExpiry i => exact onPR (f := PR.clearExpiry) (by simp) rfl (fun u => rfl) h
  | addPrincipalRole is =>
    obtain ⟨h1, h2⟩ := addPrincipalRole_frame h
    have h3 : w'.prs = w.prs := by have := congrArg V2.prs h2; exact this
    refine ⟨by simp [created, h3], fun i hi => ?_⟩
    rw [h1, List.mem_append] at hi
    rcases hi with hi | hi
    · exact .inl ⟨hi, by simp⟩
    · exact .inr ⟨is, rfl, by simpa using hi⟩
  | removePrincipalRole target =>
    obtain ⟨⟨b, d⟩, g, rfl⟩ := Out.map_eq_ok.1 h
    have frame := C48_frame g
    refine ⟨by dsimp only; rw [frame]; simp [created], fun i hi => .inl ?_⟩
    have key : ∀ i, some i ∈ w.userRoles → w.sel target (some i) = false → ∀ u, w.prs[i]? = some u → ¬ Selects target u := by
      intro i hi hs u hu hsel
      rw [sel_eq (matchesAt_some hu), (matchesPR_iff ..).2 hsel] at hs
      cases hs
    rcases (remove_eq g).2 with ⟨_, hd, h1⟩ | ⟨_, _, hd⟩
    · subst hd
      refine ⟨hi, ?_⟩
      rintro _ ⟨⟩
      exact key i hi (h1 _ hi)
    · have hi : some i ∈ (w.blank target w.userRoles).take (w.kept target w.userRoles).length := by
        have := congrArg V2.userRoles hd
        dsimp only at this hi
        rw [this] at hi; exact hi
      have hi := List.mem_of_mem_take hi
      unfold blank at hi
      obtain ⟨x, hx, hi⟩ := List.mem_map.1 hi
      split at hi
      · cases hi
      · rename_i hs
        subst hi
        refine ⟨hx, ?_⟩
        rintro _ ⟨⟩
        exact key i hx (by simpa using hs)
  | authorize e fuel site r =>
    obtain ⟨⟨b, d⟩, h1, rfl⟩ := Out.map_eq_ok.1 h
    have f := (authorize_run inv h1).frame
    exact keep (by simp) rfl (by rw [f]) (by rw [f])
  | can e fuel site r roles =>
    obtain ⟨⟨b, d⟩, h1, rfl⟩ := Out.map_eq_ok.1 h
    have f := (can_run inv h1).frame
    exact keep (by simp) rfl (by rw [f]) (by rw [f])

theorem prs_created (h : V2Op.run (newAuthorizer l) ops = .ok w) : w.prs.map core = (created ops).map core := by
  refine run_ind (P := fun ops w => w.prs.map core = (created ops).map core) rfl (fun ops op v v' h1 h2 h3 => ?_) h
  rw [(users_apply (reachable_inv h1) h3).1, h2, ← List.map_append]
  simp [created]

/-- C95. Every current assignment is one that the history made and did not remove afterwards. -/
theorem C95_standing (h : V2Op.run (newAuthorizer l) ops = .ok w) {u : PR} (hu : Assigned w u) :
    ∃ i u0, Stands ops i u0 ∧ w.prs[i]? = some u ∧ u = { u0 with expiry := u.expiry } := by
  obtain ⟨i, hi, hw⟩ := hu
  have pc := prs_created h
  have hc : ((created ops)[i]?).map core = some (core u) := by
    have := congrArg (fun l => l[i]?) pc
    simp only [List.getElem?_map, hw, Option.map_some] at this
    exact this.symm
  obtain ⟨u0, h0, he⟩ := Option.map_eq_some_iff.1 hc
  refine ⟨i, u0, ⟨h0, ?_⟩, hw, ?_⟩
  · refine run_ind (w := newAuthorizer l) (P := fun ops w => some i ∈ w.userRoles →
      (∀ u1, (created ops)[i]? = some u1 → core u1 = core u) → ∃ pre is post,
      ops = pre ++ V2Op.addPrincipalRole is :: post ∧ i ∈ is ∧ ∀ target, V2Op.removePrincipalRole target ∈ post → ¬ Selects target u0)
      (fun g => by cases g) (fun ops op v v' h1 ih h3 g gc => ?_) h hi fun u1 h1 => by rw [h0] at h1; cases h1; exact he
    rcases (users_apply (reachable_inv h1) h3).2 i g with ⟨g1, g2⟩ | ⟨is, rfl, g1⟩
    · obtain ⟨u2, hu2⟩ := (reachable_inv h1).users i g1
      have ec : ∀ u1, (created ops)[i]? = some u1 → core u1 = core u := fun u1 h => gc u1 (by
        have : created (ops ++ [op]) = created ops ++ created [op] := by simp [created]
        rw [this, List.getElem?_append_left (List.getElem?_eq_some_iff.1 h).1]; exact h)
      have e2 : core u2 = core u := by
        have := congrArg (fun l => l[i]?) (prs_created h1)
        simp only [List.getElem?_map, hu2, Option.map_some] at this
        obtain ⟨u1, k1, k2⟩ := Option.map_eq_some_iff.1 this.symm
        rw [← k2]; exact ec u1 k1
      obtain ⟨pre, is, post, rfl, k2, k3⟩ := ih g1 ec
      refine ⟨pre, is, post ++ [op], by simp, k2, fun t ht => ?_⟩
      rcases List.mem_append.1 ht with ht | ht
      · exact k3 t ht
      · have : op = .removePrincipalRole t := (List.mem_singleton.1 ht).symm
        exact fun hs => g2 t this u2 hu2 ((selects_core (e2.trans he.symm)).2 hs)
    · exact ⟨ops, is, [], rfl, g1, by simp⟩
  · have := congrArg (fun x : PR => { x with expiry := u.expiry }) he
    exact this.symm

/-- C95. A granted request rests on an assignment of the requesting principal that the history made and did not remove
afterwards and that has not expired, for a target tenant or one below it whose parents the principal manages, for the
namespace in question and for the requested scope or none. -/
theorem C95_authorize (h : V2Op.run (newAuthorizer l) ops = .ok w) {e : Env} {fuel : Nat} {site : List Val} {r : Req2}
    (ha : w.authorize e fuel site r = .ok (true, w')) :
    ∃ i u ex c t ns s, Stands ops i u ∧ w.prs[i]? = some { u with expiry := ex } ∧ (∀ z, ex = some z → e.now s ≤ z) ∧
      u.principal = r.principal ∧ Target w r c ∧ w.tobjs[c]? = some t ∧ Place t r ns ∧
      Covers w r.principal c u.tenant ∧ (u.namespace_ = [] ∨ u.namespace_ = ns) ∧ (u.scope = r.scope ∨ u.scope = []) := by
  obtain ⟨c, t, ns, tid, u, x, s, h1, h2, h3, h4, ⟨k1, k2, k3, k4, k5⟩, h6, h7, h8⟩ := C49_sound (reachable_inv h) ha
  obtain ⟨i, u0, g1, g2, g3⟩ := C95_standing h k1
  have g2' := g2
  rw [g3] at k2 k3 k5 h6 g2'
  exact ⟨i, u0, u.expiry, c, t, ns, s, g1, g2', k4, k2, h1, h2, h3, k3 ▸ h4, k5, h6⟩

/-- C95. The same for `Can`, with an assignment that names a role. -/
theorem C95_can (h : V2Op.run (newAuthorizer l) ops = .ok w) {e : Env} {fuel : Nat} {site : List Val} {r : Req2} {roles : List Str}
    (ha : w.can e fuel site r roles = .ok (true, w')) :
    ∃ i u ex c t ns s, Stands ops i u ∧ w.prs[i]? = some { u with expiry := ex } ∧ (∀ z, ex = some z → e.now s ≤ z) ∧
      u.principal = r.principal ∧ Target w r c ∧ w.tobjs[c]? = some t ∧ Place t r ns ∧
      Covers w r.principal c u.tenant ∧ (u.namespace_ = [] ∨ u.namespace_ = ns) ∧ u.role ≠ [] := by
  obtain ⟨c, t, ns, tid, u, s, h1, h2, h3, h4, ⟨k1, k2, k3, k4, k5⟩, h6, h7⟩ := C54_sound (reachable_inv h) ha
  obtain ⟨i, u0, g1, g2, g3⟩ := C95_standing h k1
  have g2' := g2
  rw [g3] at k2 k3 k5 h6 g2'
  exact ⟨i, u0, u.expiry, c, t, ns, s, g1, g2', k4, k2, h1, h2, h3, k3 ▸ h4, k5, h6⟩

/-- C95. Once everything of a principal has been removed, it is granted nothing until something is assigned to it again,
whatever else happens. -/
theorem C95_revoked {target : PR} {pre post : List V2Op} (ht : ∀ u : PR, u.principal = p → Selects target u)
    (h : V2Op.run (newAuthorizer l) (pre ++ V2Op.removePrincipalRole target :: post) = .ok w)
    (hp : ∀ is i u, V2Op.addPrincipalRole is ∈ post → i ∈ is → w.prs[i]? = some u → u.principal ≠ p)
    {e : Env} {fuel : Nat} {site : List Val} {r : Req2} (hr : r.principal = p) :
    (∀ w', w.authorize e fuel site r ≠ .ok (true, w')) ∧ ∀ roles w', w.can e fuel site r roles ≠ .ok (true, w') := by
  have key : ∀ i u, Stands (pre ++ V2Op.removePrincipalRole target :: post) i u → u.principal ≠ p := by
    rintro i u ⟨hc, a, is, b, e, hi, hn⟩ hu
    have hprs : ∃ u', w.prs[i]? = some u' ∧ u'.principal = p := by
      have := congrArg (fun l => l[i]?) (prs_created h)
      simp only [List.getElem?_map, hc, Option.map_some] at this
      obtain ⟨u', k1, k2⟩ := Option.map_eq_some_iff.1 this
      exact ⟨u', k1, by rw [← hu]; have := congrArg PR.principal k2; exact this⟩
    obtain ⟨u', k1, k2⟩ := hprs
    rcases List.append_eq_append_iff.1 e with ⟨m, e1, e2⟩ | ⟨m, e1, e2⟩
    · cases m with
      | nil => simp at e2
      | cons y m =>
        simp only [List.cons_append, List.cons.injEq] at e2
        exact hp is i u' (by rw [e2.2]; simp) hi k1 k2
    · cases m with
      | nil => simp at e2
      | cons y m =>
        simp only [List.cons_append, List.cons.injEq] at e2
        exact hn target (by rw [e2.2]; simp) (ht u hu)
  refine ⟨fun w' ha => ?_, fun roles w' ha => ?_⟩
  · obtain ⟨i, u, _, _, _, _, _, g1, _, _, g2, _⟩ := C95_authorize h ha
    exact key i u g1 (g2.trans hr)
  · obtain ⟨i, u, _, _, _, _, _, g1, _, _, g2, _⟩ := C95_can h ha
    exact key i u g1 (g2.trans hr)

/-- C95. A principal to which the history assigns nothing is granted nothing. -/
theorem C95_unassigned (h : V2Op.run (newAuthorizer l) ops = .ok w)
    (hp : ∀ is i u, V2Op.addPrincipalRole is ∈ ops → i ∈ is → (created ops)[i]? = some u → u.principal ≠ p)
    {e : Env} {fuel : Nat} {site : List Val} {r : Req2} (hr : r.principal = p) :
    (∀ w', w.authorize e fuel site r ≠ .ok (true, w')) ∧ ∀ roles w', w.can e fuel site r roles ≠ .ok (true, w') := by
  have key : ∀ i u, Stands ops i u → u.principal ≠ p := by
    rintro i u ⟨hc, a, is, b, rfl, hi, _⟩
    exact hp is i u (by simp) hi hc
  refine ⟨fun w' ha => ?_, fun roles w' ha => ?_⟩
  · obtain ⟨i, u, _, _, _, _, _, g1, _, _, g2, _⟩ := C95_authorize h ha
    exact key i u g1 (g2.trans hr)
  · obtain ⟨i, u, _, _, _, _, _, g1, _, _, g2, _⟩ := C95_can h ha
    exact key i u g1 (g2.trans hr)

/-- Example: granted after the assignment, denied after its removal, granted again once it is assigned again. -/
theorem C95_example :
    (∃ w, V2Op.run (newAuthorizer false) (exRoles ++ exTenant ++ exUser) = .ok w ∧
      (w.authorize exEnv 9 [] exReq).map (·.1) = .ok true) ∧
    (∃ w, V2Op.run (newAuthorizer false) (exRoles ++ exTenant ++ exUser ++ [.removePrincipalRole { principal := str "p" }]) = .ok w ∧
      (w.authorize exEnv 9 [] exReq).map (·.1) = .ok false) ∧
    ∃ w, V2Op.run (newAuthorizer false) (exRoles ++ exTenant ++ exUser ++ [.removePrincipalRole { principal := str "p" }, .addPrincipalRole [0]]) = .ok w ∧
      (w.authorize exEnv 9 [] exReq).map (·.1) = .ok true :=
  ⟨Out.chk_ok (by decide +kernel), Out.chk_ok (by decide +kernel), Out.chk_ok (by decide +kernel)⟩

/-- The target `{principal := "p"}` selects every assignment of `p`, as `C95_revoked` asks. -/
example (u : PR) (h : u.principal = str "p") : Selects { principal := str "p" } u :=
  ⟨.inr h, .inl rfl, .inl rfl, .inl rfl, .inl rfl⟩

/-! ## C96 -/

/-- Role `r` had `x` after some beginning of the history: as a permission of itself or of a role below it, or, if `Can`
was called later, as the name of a role below it. -/
def Past (l : Bool) (ops : List V2Op) (r x : Str) : Prop :=
  ∃ pre post v, ops = pre ++ post ∧ V2Op.run (newAuthorizer l) pre = .ok v ∧
    (PermClosure v.dag r x ∨ (∃ op ∈ post, op.isCan = true) ∧ Below v.dag r x)

theorem Past.more {r x : Str} (h : Past l ops r x) (op : V2Op) : Past l (ops ++ [op]) r x := by
  obtain ⟨pre, post, v, rfl, h2, h3⟩ := h
  refine ⟨pre, post ++ [op], v, by simp, h2, h3.imp id (fun ⟨⟨o, h4, h5⟩, h6⟩ => ⟨⟨o, by simp [h4], h5⟩, h6⟩)⟩

theorem cached_past (h : V2Op.run (newAuthorizer l) ops = .ok w) {r x : Str} {s : List Str} (hs : (r, s) ∈ w.dag.resolved) (hx : x ∈ s) :
    Past l ops r x := by
  refine run_ind (w := newAuthorizer l) (P := fun ops w => ∀ r s x, (r, s) ∈ w.dag.resolved → x ∈ s → Past l ops r x)
    (fun _ _ _ g => by cases g) (fun ops op v v' h1 ih h3 r s x hs hx => ?_) h r s x hs hx
  cases hd : op.decides with
  | false => rw [resolved_apply hd h3] at hs; exact (ih r s x hs hx).more op
  | true =>
    have inv := reachable_inv h1
    cases op with
    | authorize e fuel site q =>
      obtain ⟨⟨b, d⟩, g1, rfl⟩ := Out.map_eq_ok.1 h3
      rcases (authorize_run inv g1).dag.res r x |>.1 (.inl ⟨s, hs, hx⟩) with ⟨s2, k1, k2⟩ | ⟨_, k⟩
      · exact (ih r s2 x k1 k2).more _
      · exact ⟨ops, [_], v, rfl, h1, .inl k⟩
    | can e fuel site q roles =>
      obtain ⟨⟨b, d⟩, g1, rfl⟩ := Out.map_eq_ok.1 h3
      rcases (Dag.resolves_names inv.dag).1 ((can_run inv g1).dag.res r x |>.1 (.inl ⟨s, hs, hx⟩)) with ⟨s2, k1, k2⟩ | ⟨_, k⟩
      · exact (ih r s2 x k1 k2).more _
      · exact ⟨ops, [_], v, rfl, h1, .inr ⟨⟨_, List.mem_singleton.2 rfl, rfl⟩, k⟩⟩
    | _ => cases hd

theorem objs_given (h : V2Op.run (newAuthorizer l) ops = .ok w) : ∀ (a : Nat) (o : R2), w.dag.objs[a]? = some o →
    V2Op.newRole o.name ∈ ops ∧ ∀ x ∈ o.perms, Given ops x := by
  refine run_ind (w := newAuthorizer l) (P := fun ops w => ∀ (a : Nat) (o : R2), w.dag.objs[a]? = some o →
    V2Op.newRole o.name ∈ ops ∧ ∀ x ∈ o.perms, Given ops x) (fun a o g => by simp [newAuthorizer] at g)
    (fun ops op v v' h1 ih h3 a o g => ?_) h
  have up : ∀ {x}, Given ops x → Given (ops ++ [op]) x := fun ⟨a, ps, p, k1, k2, k3⟩ => ⟨a, ps, p, by simp [k1], k2, k3⟩
  have same : v.dag.objs[a]? = some o → V2Op.newRole o.name ∈ ops ++ [op] ∧ ∀ x ∈ o.perms, Given (ops ++ [op]) x := fun g =>
    ⟨by simp [(ih a o g).1], fun x hx => up ((ih a o g).2 x hx)⟩
  cases hc : op.changesRoles with
  | false =>
    cases hd : op.decides with
    | false => rw [dag_apply hc hd h3] at g; exact same g
    | true =>
      have inv := reachable_inv h1
      cases op with
      | authorize e fuel site q =>
        obtain ⟨⟨b, d⟩, g1, rfl⟩ := Out.map_eq_ok.1 h3
        exact same ((authorize_run inv g1).dag.same.1 ▸ g)
      | can e fuel site q roles =>
        obtain ⟨⟨b, d⟩, g1, rfl⟩ := Out.map_eq_ok.1 h3
        exact same ((can_run inv g1).dag.same.1 ▸ g)
      | _ => cases hd
  | true =>
    cases op with
    | newRole n =>
      cases h3
      obtain ⟨r, e1, e2, e3, _⟩ := Dag.C94_newRole v.dag n
      replace g : (v.dag.objs ++ [r])[a]? = some o := e1 ▸ g
      rcases List.mem_append.1 (List.mem_of_getElem? g) with k | k
      · obtain ⟨b, hb⟩ := List.mem_iff_getElem?.1 k
        exact ⟨by simp [(ih b o hb).1], fun x hx => up ((ih b o hb).2 x hx)⟩
      · obtain rfl := List.mem_singleton.1 k
        exact ⟨by simp [e2], fun x hx => by simp [e3] at hx⟩
    | addPermission b ps =>
      obtain ⟨d, g1, rfl⟩ := Out.map_eq_ok.1 h3
      obtain ⟨q, q', k1, k2, k3, k4, k5, _⟩ := Dag.C58_add g1
      by_cases hab : a = b
      · subst hab
        rw [k2] at g; cases g
        refine ⟨by simp [k3, (ih a q k1).1], fun x hx => ?_⟩
        rcases (k4 x).1 hx with hx | ⟨p, hp, hx⟩
        · exact up ((ih a q k1).2 x hx)
        · exact ⟨a, ps, p, by simp, hp, hx⟩
      · exact same (k5 a hab ▸ g)
    | removePermission b ps =>
      obtain ⟨d, g1, rfl⟩ := Out.map_eq_ok.1 h3
      obtain ⟨q, q', k1, k2, k3, k4, k5, _⟩ := Dag.C58_remove g1
      by_cases hab : a = b
      · subst hab
        rw [k2] at g; cases g
        exact ⟨by simp [k3, (ih a q k1).1], fun x hx => up ((ih a q k1).2 x ((k4 x).1 hx).1)⟩
      · exact same (k5 a hab ▸ g)
    | addRoles as =>
      obtain ⟨d, g1, rfl⟩ := Out.map_eq_ok.1 h3
      exact same ((Dag.addRole_same g1).1 ▸ g)
    | addChildRole fuel p cs =>
      obtain ⟨⟨b, d⟩, g1, rfl⟩ := Out.map_eq_ok.1 h3
      rcases (Dag.addChildRole_cases g1).2 with ⟨_, rfl⟩ | ⟨_, rfl⟩ <;> exact same g
    | _ => cases hc

theorem Past.origin {r x : Str} (h : Past l ops r x) :
    Given ops x ∨ (∃ op ∈ ops, op.isCan = true) ∧ V2Op.newRole x ∈ ops := by
  obtain ⟨pre, post, v, rfl, h2, ⟨b, _, a, o, _, k2, k3⟩ | ⟨⟨op, k1, k2⟩, k3⟩⟩ := h
  · obtain ⟨a', ps, p, g1, g2, g3⟩ := (objs_given h2 a o k2).2 x k3
    exact .inl ⟨a', ps, p, by simp [g1], g2, g3⟩
  · obtain ⟨a, ha⟩ := k3.registered
    obtain ⟨o, g1, g2⟩ := (reachable_inv h2).dag.keyed _ _ ha
    exact .inr ⟨⟨op, by simp [k1], k2⟩, by have := (objs_given h2 a o g1).1; rw [g2] at this; simp [this]⟩

/-- C96 as intended: what `Authorize` grants is covered by a permission that the history gave to some role. -/
def C96_full : Prop := ∀ (l : Bool) ops w e fuel site r w', V2Op.run (newAuthorizer l) ops = .ok w →
  w.authorize e fuel site r = .ok (true, w') → ∃ x, Given ops x ∧ Permits x r

/-- C96. Every grant rests on a standing assignment to the principal whose role had, after some beginning of the history,
the text that covers the request; it is a permission given to some role, or - only if `Can` was called - a role's name. -/
theorem C96_sound (h : V2Op.run (newAuthorizer l) ops = .ok w) {e : Env} {fuel : Nat} {site : List Val} {r : Req2}
    (ha : w.authorize e fuel site r = .ok (true, w')) :
    ∃ i u x, Stands ops i u ∧ u.principal = r.principal ∧ Past l ops u.role x ∧ Permits x r ∧
      (Given ops x ∨ (∃ op ∈ ops, op.isCan = true) ∧ V2Op.newRole x ∈ ops) := by
  obtain ⟨c, t, ns, tid, u, x, s, h1, h2, h3, h4, ⟨k1, k2, k3, k4, k5⟩, h6, h7, h8⟩ := C49_sound (reachable_inv h) ha
  obtain ⟨i, u0, g1, _, g3⟩ := C95_standing h k1
  have hp : Past l ops u.role x := by
    rcases h7 with ⟨s, m1, m2⟩ | ⟨_, m⟩
    · exact cached_past h m1 m2
    · exact ⟨ops, [], w, by simp, h, .inl m⟩
  have e1 : u.principal = u0.principal := by rw [g3]
  have e2 : u.role = u0.role := by rw [g3]
  exact ⟨i, u0, x, g1, e1 ▸ k2, e2 ▸ hp, h8, hp.origin⟩

/-- C96. Without `Can` in the history, the grant rests on a permission given to some role and held by the assigned role,
directly or through roles below it, after some beginning of the history.  Missing: histories with `Can`. -/
theorem C96_partial (h : V2Op.run (newAuthorizer l) ops = .ok w) (hc : ∀ op ∈ ops, op.isCan = false)
    {e : Env} {fuel : Nat} {site : List Val} {r : Req2} (ha : w.authorize e fuel site r = .ok (true, w')) :
    ∃ i u x pre post v, Stands ops i u ∧ u.principal = r.principal ∧ Permits x r ∧ Given ops x ∧
      ops = pre ++ post ∧ V2Op.run (newAuthorizer l) pre = .ok v ∧ PermClosure v.dag u.role x := by
  have no : ∀ {ops' : List V2Op}, (∀ op ∈ ops', op ∈ ops) → ¬ ∃ op ∈ ops', op.isCan = true := fun hs ⟨op, g1, g2⟩ => by
    rw [hc op (hs op g1)] at g2; cases g2
  obtain ⟨i, u, x, h1, h2, ⟨pre, post, v, e1, e2, e3⟩, h4, h5⟩ := C96_sound h ha
  refine ⟨i, u, x, pre, post, v, h1, h2, h4, h5.resolve_right fun g => no (fun _ h => h) g.1, e1, e2,
    e3.resolve_right fun g => no (fun op hop => by rw [e1]; simp [hop]) g.1⟩

/-- A role named "*" without permissions, assigned to `p` in tenant "t", and a call of `Can`. -/
def exNamed : List V2Op := [.newRole (str "*"), .addRoles [0]] ++ exTenant ++
  [.newPrincipalRole { principal := str "p", tenant := str "t", role := str "*" }, .addPrincipalRole [0]]

/-- C96. Nothing is ever given to the role named "*", and `Authorize` denies; after a call of `Can` it grants. -/
theorem C96_counterexample : ∃ w, V2Op.run (newAuthorizer false) (exNamed ++ [.can exEnv 9 [] exReq [str "q"]]) = .ok w ∧
    (w.authorize exEnv 9 [] exReq).map (·.1) = .ok true ∧
    ((V2Op.run (newAuthorizer false) exNamed).bind fun w => (w.authorize exEnv 9 [] exReq).map (·.1)) = .ok false :=
  Out.chk_ok (by decide +kernel)

theorem C96_full_false : ¬ C96_full := fun hf => by
  obtain ⟨w, h1, h2, _⟩ := C96_counterexample
  obtain ⟨⟨b, w'⟩, h3, h4⟩ := Out.map_eq_ok.1 h2
  obtain ⟨x, ⟨a, ps, p, g, _⟩, _⟩ := hf _ _ _ _ _ _ _ w' h1 (by rw [h3]; cases h4; rfl)
  simp [exNamed, exTenant] at g

end V2
end Verif
