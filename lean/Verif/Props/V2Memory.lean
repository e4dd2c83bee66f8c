import Verif.Props.Memory
import Verif.Props.V2

/-!
# C140 for v2: how much memory decisions keep

A decision keeps the set of every role it resolves (`resolvedPermissions`, v2/role.go:118-179).  However many decisions
are taken, there is at most one such set for each role of an assignment.
-/

namespace Verif
open Spec
namespace V2
variable {w w' : V2} {e : Env} {fuel : Nat} {site : List Val} {roles texts : List Str}

/-! ## Specification -/

/-- Every operation is a call of `Authorize` or `Can`. -/
def _root_.Verif.Spec.OnlyDecisions (ops : List V2Op) : Prop :=
  ∀ op ∈ ops, (∃ e fuel site r, op = .authorize e fuel site r) ∨ ∃ e fuel site r roles, op = .can e fuel site r roles

/-- `roles` contains the role of every assignment. -/
def _root_.Verif.Spec.AssignedRoles (w : V2) (roles : List Str) : Prop := ∀ u, Assigned w u → u.role ∈ roles

/-- `texts` contains the name and the permissions of every registered role. -/
def _root_.Verif.Spec.RoleTexts (d : Dag) (texts : List Str) : Prop :=
  ∀ r a o, (r, a) ∈ d.roles → d.objs[a]? = some o → o.name ∈ texts ∧ ∀ x ∈ o.perms, x ∈ texts

namespace Mem

/-! ## Resolving a role -/

theorem bfs_nodup {d : Dag} {emit : R2 → List Str} {n : Nat} {q V res s : List Str} (hr : res.Nodup)
    (h : d.bfs emit n q V res = .ok s) : s.Nodup := by
  induction n generalizing q V res with
  | zero =>
    cases q with
    | nil => rw [Dag.bfs] at h; cases h; exact hr
    | cons c q => rw [Dag.bfs] at h; cases h
  | succ n ih =>
    cases q with
    | nil => rw [Dag.bfs] at h; cases h; exact hr
    | cons c q =>
      rw [Dag.bfs] at h
      split at h
      · exact ih hr h
      · split at h
        · exact ih hr h
        · split at h
          · cases h
          · exact ih (nodup_addStrs hr) h

/-- The sets kept in `d'` are those of `d` and others, each for one of `roles`. -/
structure Kept (roles texts : List Str) (d d' : Dag) : Prop where
  inv : d'.DInv
  same : d.SameBut d'
  sets : ∀ r s, d'.resolved.get r = some s → d.resolved.get r = some s ∨ (r ∈ roles ∧ s.Nodup ∧ ∀ x ∈ s, x ∈ texts ∧
    ∃ b, Below d r b ∧ (x = b ∨ HasPerm d b x))
  room : Mgr.Mem.room roles texts.length d'.resolved ≤ Mgr.Mem.room roles texts.length d.resolved
  count : d'.resolved.length + (Mgr.Mem.missing roles d'.resolved).length ≤ d.resolved.length + (Mgr.Mem.missing roles d.resolved).length


theorem Kept.refl {d : Dag} (h : d.DInv) : Kept roles texts d d :=
  ⟨h, .refl _, fun _ _ h => .inl h, Nat.le_refl _, Nat.le_refl _⟩

/-- What a role contributes, in either kind of decision. -/
def Own (emit : R2 → List Str) : Prop := ∀ o : R2, ∀ x ∈ emit o, x = o.name ∨ x ∈ o.perms

theorem Kept.step {emit : R2 → List Str} (he : Own emit) {d d1 d' : Dag} (ht : RoleTexts d texts) (h : Kept roles texts d d1)
    {r : Str} (hr : r ∈ roles) {s : List Str} (hs : d1.resolve emit fuel r = .ok (s, d')) : Kept roles texts d d' := by
  obtain ⟨_, inv', same', _, _⟩ := Dag.resolve_spec h.inv hs
  unfold Dag.resolve at hs
  split at hs
  · cases hs; exact h
  · rename_i hn
    obtain ⟨s', h1, h2⟩ := Out.map_eq_ok.1 hs
    cases h2
    have nd := bfs_nodup List.nodup_nil h1
    have mem : ∀ x ∈ s, x ∈ texts ∧ ∃ b, Below d r b ∧ (x = b ∨ HasPerm d b x) := fun x hx => by
      obtain ⟨b, hb, a, o, k1, k2, k3⟩ := (Dag.bfs_spec h.inv (Dag.bfs_start _ _ _) h1 x).1 hx
      have k0 := (h.inv.keyed _ _ k1)
      rw [h.same.2.1] at k1
      rw [h.same.1] at k2
      obtain ⟨t1, t2⟩ := ht b a o k1 k2
      refine ⟨?_, b, h.same.under.1 hb, ?_⟩
      · rcases he o x k3 with rfl | hp
        · exact t1
        · exact t2 x hp
      · rcases he o x k3 with rfl | hp
        · obtain ⟨o', e1, e2⟩ := k0
          rw [h.same.1, k2] at e1
          cases e1
          exact .inl e2
        · exact .inr ⟨a, o, k1, k2, hp⟩
    have len : s.length ≤ texts.length := (List.subperm_of_subset nd fun x hx => (mem x hx).1).length_le
    refine ⟨inv', h.same.trans same', fun q S hq => ?_, Nat.le_trans (Mgr.Mem.room_set hr hn len) h.room, ?_⟩
    · rw [GoMap.get_set] at hq
      split at hq
      · rename_i e
        subst e
        cases hq
        exact .inr ⟨hr, nd, mem⟩
      · exact h.sets q S hq
    · have k := Mgr.Mem.missing_set (l := s) hr hn
      have l := Mgr.Mem.set_length (l := s) hn
      have c := h.count
      show (d1.resolved.set r s).length + (Mgr.Mem.missing roles (d1.resolved.set r s)).length ≤ _
      omega

/-! ## A decision -/

section
variable {p ns sc tid : Str}

theorem permRow_kept {d : Dag} (ht : RoleTexts d texts) (ha : AssignedRoles w roles) {s s' : PAcc} {xi : Option Nat × Nat}
    (hx : xi.1 ∈ w.userRoles) (hs : Kept roles texts d s.dag) (h : w.permRow e fuel site p ns sc tid s xi = .ok s') :
    Kept roles texts d s'.dag := by
  obtain ⟨u, hu, h⟩ := Out.bind_eq_ok.1 h
  have hr : u.role ∈ roles := by
    obtain ⟨j, e1, e2⟩ := prAt_eq_ok.1 hu
    exact ha u ⟨j, e1 ▸ hx, e2⟩
  split at h
  · cases h; exact hs
  · split at h
    · cases h; exact hs
    · split at h
      · obtain ⟨⟨x, d'⟩, h1, h2⟩ := Out.map_eq_ok.1 h
        have k := hs.step (fun o x hx => .inr hx) ht hr h1
        split at h2
        · subst h2; exact k
        · split at h2 <;> (subst h2; exact k)
      · cases h; exact hs

theorem roleRow_kept {d : Dag} (ht : RoleTexts d texts) (ha : AssignedRoles w roles) {s s' : RAcc} {xi : Option Nat × Nat}
    (hx : xi.1 ∈ w.userRoles) (hs : Kept roles texts d s.dag) (h : w.roleRow e fuel site p ns tid s xi = .ok s') :
    Kept roles texts d s'.dag := by
  obtain ⟨u, hu, h⟩ := Out.bind_eq_ok.1 h
  have hr : u.role ∈ roles := by
    obtain ⟨j, e1, e2⟩ := prAt_eq_ok.1 hu
    exact ha u ⟨j, e1 ▸ hx, e2⟩
  split at h
  · cases h; exact hs
  · split at h
    · cases h; exact hs
    · split at h
      · obtain ⟨⟨x, d'⟩, h1, h2⟩ := Out.map_eq_ok.1 h
        have k := hs.step (fun o x hx => .inl (List.mem_singleton.1 hx)) ht hr h1
        subst h2
        exact k
      · cases h; exact hs

theorem mem_users {xi : Option Nat × Nat} (h : xi ∈ w.userRoles.zipIdx) : xi.1 ∈ w.userRoles :=
  List.mem_of_getElem? (mem_zipIdx_iff.1 h)

/-- A traversal keeps what every visit keeps. -/
theorem traverse_keeps {σ : Type} {visit : Str → σ → Out σ} {P : σ → Prop} (hv : ∀ tid s s', P s → visit tid s = .ok s' → P s') {n c : Nat}
    {st st' : List Str × σ} (h0 : P st.2) (h : w.traverse e site p visit n c st = .ok st') : P st'.2 := by
  induction n generalizing c st st' with
  | zero => cases h
  | succ n ih =>
    unfold traverse at h
    obtain ⟨t, _, h⟩ := withT_eq_ok.1 h
    split at h
    · cases h; exact h0
    · obtain ⟨s1, h1, h2⟩ := Out.bind_eq_ok.1 h
      refine Out.loop_inv (P := fun st => P st.2) (fun a b xi _ ha hb => ?_) (hv _ _ _ h0 h1) h2
      obtain ⟨u, _, hb⟩ := Out.bind_eq_ok.1 hb
      split at hb
      · exact Out.loop_inv (P := fun st => P st.2) (fun a b kd _ ha hb => ih ha hb) ha hb
      · cases hb; exact ha

theorem resolvePerms_kept {d : Dag} (ht : RoleTexts d texts) (ha : AssignedRoles w roles) (hd : Kept roles texts d w.dag)
    {res : Option (List Str)} {d' : Dag} (h : w.resolvePerms e fuel site p tid ns sc = .ok (res, d')) : Kept roles texts d d' := by
  unfold resolvePerms at h
  split at h
  · cases h; exact hd
  · obtain ⟨st, h1, h2⟩ := Out.map_eq_ok.1 h
    cases h2
    refine traverse_keeps (P := fun s => Kept roles texts d s.dag) (fun tid s s' hs h => ?_) hd h1
    exact Out.loop_inv (P := fun s => Kept roles texts d s.dag) (fun a b xi hxi ha' hb => permRow_kept ht ha (mem_users hxi) ha' hb) hs h

theorem resolveRoles_kept {d : Dag} (ht : RoleTexts d texts) (ha : AssignedRoles w roles) (hd : Kept roles texts d w.dag)
    {res : Option (List Str)} {d' : Dag} (h : w.resolveRoles e fuel site p tid ns = .ok (res, d')) : Kept roles texts d d' := by
  unfold resolveRoles at h
  split at h
  · cases h; exact hd
  · obtain ⟨st, h1, h2⟩ := Out.map_eq_ok.1 h
    cases h2
    refine traverse_keeps (P := fun s => Kept roles texts d s.dag) (fun tid s s' hs h => ?_) hd h1
    exact Out.loop_inv (P := fun s => Kept roles texts d s.dag) (fun a b xi hxi ha' hb => roleRow_kept ht ha (mem_users hxi) ha' hb) hs h

end

/-- The state during decisions. -/
structure Decided (roles texts : List Str) (w w' : V2) : Prop where
  frame : Frame w w'
  kept : Kept roles texts w.dag w'.dag

theorem Decided.logMsg (h : Decided roles texts w w') (r : Req2) (m : Msg) : Decided roles texts w (w'.logMsg r m) :=
  ⟨h.frame.trans (.log w' r m), by rw [logMsg_dag]; exact h.kept⟩

theorem Decided.setDag (h : Decided roles texts w w') {d : Dag} (hd : Kept roles texts w.dag d) : Decided roles texts w { w' with dag := d } :=
  ⟨h.frame.trans (.dag w' d), hd⟩

theorem Decided.assigned (h : Decided roles texts w w') (ha : AssignedRoles w roles) : AssignedRoles w' roles := by
  intro u hu
  unfold Assigned at hu
  rw [h.frame.users, h.frame.prs] at hu
  exact ha u hu

theorem tenantLoop_keeps {r : Req2} {body : Nat → Str → Str → V2 → Out (Bool × V2)} {P : V2 → Prop}
    (hl : ∀ w m, P w → P (w.logMsg r m)) (hb : ∀ k tid ns w b w', P w → body k tid ns w = .ok (b, w') → P w')
    {k : Nat} {cs : List Nat} {b : Bool} (h0 : P w) (h : tenantLoop r body k cs w = .ok (b, w')) : P w' := by
  induction cs generalizing k w with
  | nil => rw [tenantLoop] at h; cases h; exact hl _ _ h0
  | cons c cs ih =>
    rw [tenantLoop] at h
    obtain ⟨t, _, h⟩ := withT_eq_ok.1 h
    split at h
    · exact ih h0 h
    · split at h
      · exact ih h0 h
      · split at h
        · exact ih h0 h
        · obtain ⟨⟨b1, w1⟩, h1, h2⟩ := Out.bind_eq_ok.1 h
          have := hb _ _ _ _ _ _ h0 h1
          split at h2
          · cases h2; exact this
          · exact ih this h2

theorem authorize_decided {v : V2} (ht : RoleTexts v.dag texts) (ha : AssignedRoles v roles) (hd : Decided roles texts v w) {r : Req2} {b : Bool}
    (h : w.authorize e fuel site r = .ok (b, w')) : Decided roles texts v w' := by
  obtain ⟨ts, _, h⟩ := Out.bind_eq_ok.1 h
  split at h
  · cases h; exact hd.logMsg ..
  · refine tenantLoop_keeps (fun w m hw => hw.logMsg r m) (fun k tid ns w b w' hw hb => ?_) hd h
    obtain ⟨⟨res, d⟩, h1, h2⟩ := Out.bind_eq_ok.1 hb
    have := hw.setDag (resolvePerms_kept ht (hw.assigned ha) hw.kept h1)
    split at h2
    · cases h2; exact this.logMsg ..
    · obtain ⟨c, _, h3⟩ := Out.map_eq_ok.1 h2
      cases h3
      dsimp only
      split
      · exact this.logMsg ..
      · exact this

theorem can_decided {v : V2} (ht : RoleTexts v.dag texts) (ha : AssignedRoles v roles) (hd : Decided roles texts v w) {r : Req2} {rs : List Str} {b : Bool}
    (h : w.can e fuel site r rs = .ok (b, w')) : Decided roles texts v w' := by
  obtain ⟨ts, _, h⟩ := Out.bind_eq_ok.1 h
  split at h
  · cases h; exact hd.logMsg ..
  · refine tenantLoop_keeps (fun w m hw => hw.logMsg r m) (fun k tid ns w b w' hw hb => ?_) hd h
    obtain ⟨⟨res, d⟩, h1, h2⟩ := Out.bind_eq_ok.1 hb
    have := hw.setDag (resolveRoles_kept ht (hw.assigned ha) hw.kept h1)
    split at h2
    · cases h2; exact this.logMsg ..
    · cases h2
      dsimp only
      split
      · exact this.logMsg ..
      · exact this

theorem run_decided {ops : List V2Op} (inv : Inv w) (ht : RoleTexts w.dag texts) (ha : AssignedRoles w roles) (ho : OnlyDecisions ops)
    (h : V2Op.run w ops = .ok w') : Decided roles texts w w' := by
  refine Out.loop_inv (P := Decided roles texts w) (fun a b op hop hd hb => ?_) ⟨.refl w, .refl inv.dag⟩ h
  rcases ho op hop with ⟨e, fuel, site, r, rfl⟩ | ⟨e, fuel, site, r, rs, rfl⟩
  · obtain ⟨⟨x, w1⟩, h1, rfl⟩ := Out.map_eq_ok.1 hb
    exact authorize_decided ht ha hd h1
  · obtain ⟨⟨x, w1⟩, h1, rfl⟩ := Out.map_eq_ok.1 hb
    exact can_decided ht ha hd h1

end Mem

/-! ## C140 -/

/-- C140, v2. After any number of decisions only the kept sets and the records have changed.  A kept set is an old one
or that of the role of an assignment: names or permissions of registered roles at or below it, none twice. -/
theorem C140_v2_entries (inv : Inv w) {ops : List V2Op} (ho : OnlyDecisions ops) (h : V2Op.run w ops = .ok w') :
    w' = { w with dag := { w.dag with resolved := w'.dag.resolved }, log := w'.log } ∧
    ∀ r s, w'.dag.resolved.get r = some s → w.dag.resolved.get r = some s ∨
      ((∃ u, Assigned w u ∧ u.role = r) ∧ s.Nodup ∧ ∀ x ∈ s, ∃ b, Below w.dag r b ∧ (x = b ∨ HasPerm w.dag b x)) := by
  have ha : AssignedRoles w (w.userRoles.filterMap fun x => match w.prAt x with | .ok u => some u.role | _ => none) := by
    rintro u ⟨i, h1, h2⟩
    exact List.mem_filterMap.2 ⟨some i, h1, by rw [prAt_eq_ok.2 ⟨i, rfl, h2⟩]⟩
  have ht : RoleTexts w.dag (w.dag.objs.flatMap fun o => o.name :: o.perms) := by
    intro r a o _ h2
    have hm := List.mem_of_getElem? h2
    exact ⟨List.mem_flatMap.2 ⟨o, hm, List.mem_cons_self ..⟩, fun x hx => List.mem_flatMap.2 ⟨o, hm, List.mem_cons_of_mem _ hx⟩⟩
  have g := Mem.run_decided inv ht ha ho h
  refine ⟨?_, fun r s hr => (g.kept.sets r s hr).imp id fun k => ⟨?_, k.2.1, fun x hx => (k.2.2 x hx).2⟩⟩
  · obtain ⟨h1, h2, h3⟩ := g.kept.same
    have e : ({ w.dag with resolved := w'.dag.resolved } : Dag) = w'.dag := by
      show Dag.mk w.dag.objs w.dag.roles w.dag.edges w'.dag.resolved = w'.dag
      rw [← h1, ← h2, ← h3]
    rw [e]
    exact g.frame
  · obtain ⟨x, hx, e⟩ := List.mem_filterMap.1 k.1
    split at e
    · rename_i u hu
      cases e
      obtain ⟨i, rfl, h2⟩ := prAt_eq_ok.1 hu
      exact ⟨u, ⟨i, hx, h2⟩, rfl⟩
    · cases e

/-- C140, v2. However many decisions are taken, at most one set is kept for each role of an assignment, and a set takes
at most one cell for the role and one for each name and permission of the registered roles. -/
theorem C140_v2_bounded (inv : Inv w) (ha : AssignedRoles w roles) (ht : RoleTexts w.dag texts) {ops : List V2Op} (ho : OnlyDecisions ops)
    (h : V2Op.run w ops = .ok w') :
    w'.dag.resolved.length ≤ w.dag.resolved.length + roles.length ∧
    cells w'.dag.resolved ≤ cells w.dag.resolved + roles.length * (1 + texts.length) := by
  have g := (Mem.run_decided inv ht ha ho h).kept
  constructor
  · have h1 := g.count
    have h2 : (Mgr.Mem.missing roles w.dag.resolved).length ≤ roles.length := List.length_filter_le ..
    omega
  · exact Nat.le_trans (Mgr.Mem.cells_le_room _ _ _) (Nat.le_trans g.room (Mgr.Mem.room_le _ _ _))

/-- C140, v2. Resolving roles directly has no such bound: `ResolvePermissions` keeps an empty set for every text it is
asked about that is neither kept nor registered. -/
theorem C140_v2_asked {d : Dag} (hf : 0 < fuel) {rs : List Str} (hd : rs.Nodup) (hnew : ∀ r ∈ rs, d.resolved.get r = none)
    (hreg : ∀ r ∈ rs, d.roles.get r = none) :
    ∃ d', Out.loop (fun d r => (d.resolvePermissions fuel r).map (·.2)) d rs = .ok d' ∧
      d' = { d with resolved := d'.resolved } ∧ d'.resolved.length = d.resolved.length + rs.length := by
  obtain ⟨n, rfl⟩ : ∃ n, fuel = n + 1 := ⟨fuel - 1, by omega⟩
  induction rs generalizing d with
  | nil => exact ⟨d, rfl, rfl, rfl⟩
  | cons r rs ih =>
    have e : d.resolvePermissions (n + 1) r = .ok ([], { d with resolved := d.resolved.set r [] }) := by
      unfold Dag.resolvePermissions Dag.resolve
      rw [hnew r (List.mem_cons_self ..)]
      dsimp only
      rw [Dag.bfs, if_neg List.not_mem_nil, hreg r (List.mem_cons_self ..)]
      dsimp only
      cases n <;> rfl
    obtain ⟨hp, hd'⟩ := List.nodup_cons.1 hd
    obtain ⟨d', h1, h2, h3⟩ := ih (d := { d with resolved := d.resolved.set r [] }) hd' (fun q hq => by
      have hne : ¬ r = q := fun e => hp (by rw [e]; exact hq)
      rw [GoMap.get_set, if_neg hne]
      exact hnew q (List.mem_cons_of_mem _ hq)) (fun q hq => hreg q (List.mem_cons_of_mem _ hq))
    refine ⟨d', ?_, h2, ?_⟩
    · rw [Out.loop, e]; exact h1
    · have := Mgr.Mem.set_length (l := ([] : List Str)) (hnew r (List.mem_cons_self ..))
      rw [h3, List.length_cons]
      show (d.resolved.set r []).length + _ = _
      omega

/-- Decisions of both kinds for the principal of an assignment and for one without. -/
def exMany : List V2Op := [.authorize exEnv 9 [] exReq, .can exEnv 9 [] { exReq with principal := str "z" } [str "r"],
  .authorize exEnv 9 [] { exReq with principal := str "y", resource := str "w" }, .can exEnv 9 [] exReq [str "q"], .authorize exEnv 9 [] exReq]

example : OnlyDecisions exMany := fun op h => by
  simp only [exMany, List.mem_cons, List.not_mem_nil, or_false] at h
  rcases h with h | h | h | h | h
  · exact .inl ⟨_, _, _, _, h⟩
  · exact .inr ⟨_, _, _, _, _, h⟩
  · exact .inl ⟨_, _, _, _, h⟩
  · exact .inr ⟨_, _, _, _, _, h⟩
  · exact .inl ⟨_, _, _, _, h⟩

/-- Five decisions leave one set, that of the role of the assignment. -/
example : ∃ w, V2Op.run {} (exRoles ++ exTenant ++ exUser) = .ok w ∧ w.dag.resolved = [] ∧ w.userRoles.length = 1 ∧
    (V2Op.run w exMany).Chk fun v => v.dag.resolved = [(str "r", [str "x read"])] :=
  Out.chk_ok (by decide +kernel)

/-- Three texts given to `ResolvePermissions` leave three sets. -/
example : (Out.loop (fun d r => (Dag.resolvePermissions d 9 r).map (·.2)) {} [str "x", str "y", str "z"]).Chk fun d =>
    d.resolved = [(str "x", []), (str "y", []), (str "z", [])] := by decide +kernel

end V2
end Verif
