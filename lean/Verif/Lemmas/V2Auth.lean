import Verif.Lemmas.V2
import Verif.Props.Match

namespace Verif
open Spec

theorem Dag.resolves_perms {d : Dag} {r x : Str} : d.Resolves (·.perms) r x ↔ RolePerm d r x := Iff.rfl

theorem Dag.resolves_names {d : Dag} (inv : d.DInv) {r x : Str} : d.Resolves (fun o => [o.name]) r x ↔ RoleBelow d r x := by
  unfold Dag.Resolves RoleBelow
  refine or_congr_right (and_congr_right fun _ => ?_)
  constructor
  · rintro ⟨b, h1, a, o, h2, h3, h4⟩
    rw [List.mem_singleton] at h4
    obtain ⟨o', h5, h6⟩ := inv.keyed _ _ h2
    rw [h3] at h5; cases h5
    rw [h4, h6]; exact h1
  · intro h
    obtain ⟨a, ha⟩ := h.registered
    obtain ⟨o, h5, h6⟩ := inv.keyed _ _ ha
    exact ⟨x, h, a, o, ha, h5, by simp [h6]⟩

namespace V2
variable {w w' : V2}

/-- Only the role cache and the log differ. -/
def Frame (w w' : V2) : Prop := w' = { w with dag := w'.dag, log := w'.log }

theorem Frame.refl (w : V2) : Frame w w := rfl

theorem Frame.dag (w : V2) (d : Dag) : Frame w { w with dag := d } := rfl

theorem Frame.log (w : V2) (r : Req2) (m : Msg) : Frame w (w.logMsg r m) := by
  unfold logMsg; split <;> rfl

theorem Frame.trans {w w' w'' : V2} (h : Frame w w') (h' : Frame w' w'') : Frame w w'' := by
  unfold Frame at *
  rw [h'] ; simp only
  rw [h]

@[simp] theorem logMsg_dag (w : V2) (r : Req2) (m : Msg) : (w.logMsg r m).dag = w.dag := by unfold logMsg; split <;> rfl

section frame
variable (h : Frame w w')
include h

theorem Frame.tobjs : w'.tobjs = w.tobjs := by rw [h]
theorem Frame.tenants : w'.tenants = w.tenants := by rw [h]
theorem Frame.users : w'.userRoles = w.userRoles := by rw [h]
theorem Frame.prs : w'.prs = w.prs := by rw [h]
theorem Frame.logger : w'.logger = w.logger := by rw [h]

theorem Frame.assigned {u : PR} : Assigned w' u ↔ Assigned w u := by unfold Assigned; rw [h.users, h.prs]

theorem Frame.manages {p t : Str} : ManagesChildren w' p t ↔ ManagesChildren w p t := by
  unfold ManagesChildren; simp only [h.assigned]

theorem Frame.managed {p : Str} {c c' : Nat} : Managed w' p c c' ↔ Managed w p c c' := by
  constructor <;> intro g
  · induction g with
    | self => exact .self
    | child _ h2 h3 h4 ih => exact .child ih (h.tobjs ▸ h2) (h.manages.1 h3) h4
  · induction g with
    | self => exact .self
    | child _ h2 h3 h4 ih => exact .child ih (h.tobjs.symm ▸ h2) (h.manages.2 h3) h4

theorem Frame.covers {p : Str} {c : Nat} {t : Str} : Covers w' p c t ↔ Covers w p c t := by
  unfold Covers; simp only [h.managed, h.tobjs]

theorem Frame.noTwins {p : Str} {c : Nat} : NoTwins w' p c ↔ NoTwins w p c := by
  unfold NoTwins; simp only [h.managed, h.tobjs]

theorem Frame.rowAt {i : Nat} {u : PR} : RowAt w' i u ↔ RowAt w i u := by unfold RowAt; rw [h.users, h.prs]

theorem Frame.inv (hd : w'.dag.DInv) (inv : Inv w) : Inv w' := by
  rw [h]
  exact ⟨hd, inv.tenantsWF, inv.tenants, inv.nsWF, inv.childrenWF, inv.children, inv.users, inv.indexWF, inv.indexWF2, inv.indexed⟩

end frame

/-- The state of a running decision: `w` is the state at the start of the call. -/
structure Run (emit : R2 → List Str) (w w' : V2) : Prop where
  frame : Frame w w'
  dag : DagOK w emit w'.dag

theorem Run.refl (inv : Inv w) (emit : R2 → List Str) : Run emit w w := ⟨.refl w, .refl inv emit⟩

theorem Run.inv {emit : R2 → List Str} (h : Run emit w w') (inv : Inv w) : Inv w' := h.frame.inv h.dag.inv inv

theorem Run.setDag {emit : R2 → List Str} (h : Run emit w w') {d : Dag} (hd : DagOK w' emit d) :
    Run emit w { w' with dag := d } :=
  ⟨h.frame.trans (.dag w' d), ⟨hd.inv, h.dag.same.trans hd.same, fun r x => (hd.res r x).trans (h.dag.res r x),
    fun e he => hd.mono e (h.dag.mono e he)⟩⟩

theorem Run.logMsg {emit : R2 → List Str} (h : Run emit w w') (r : Req2) (m : Msg) : Run emit w (w'.logMsg r m) :=
  ⟨h.frame.trans (.log w' r m), by rw [logMsg_dag]; exact h.dag⟩

section
variable {e : Env} {fuel : Nat} {site : List Val}

/-- Permissions for the scope found in the visited tenants. -/
def ScopedAt (w : V2) (e : Env) (site : List Val) (p ns sc : Str) (T : Str → Prop) (x : Str) : Prop :=
  ∃ tid, T tid ∧ ∃ i u, RowAt w i u ∧ Usable e site p ns tid i u ∧ u.scope = sc ∧ RolePerm w.dag u.role x

/-- Unscoped permissions found in the visited tenants. -/
def UnscopedAt (w : V2) (e : Env) (site : List Val) (p ns : Str) (T : Str → Prop) (x : Str) : Prop :=
  ∃ tid, T tid ∧ ∃ i u, RowAt w i u ∧ Usable e site p ns tid i u ∧ u.scope = [] ∧ RolePerm w.dag u.role x

/-- Roles found in the visited tenants. -/
def HeldAt (w : V2) (e : Env) (site : List Val) (p ns : Str) (T : Str → Prop) (x : Str) : Prop :=
  ∃ tid, T tid ∧ ∃ i u, RowAt w i u ∧ Usable e site p ns tid i u ∧ u.role ≠ [] ∧ (x = u.role ∨ RoleBelow w.dag u.role x)

/-- The tenants visited by a traversal from `c`. -/
structure Visits (w : V2) (p : Str) (c : Nat) (T : Str → Prop) : Prop where
  sound : ∀ x, T x → Covers w p c x
  self : ∀ t, w.tobjs[c]? = some t → T t.id
  all : NoTwins w p c → ∀ x, Covers w p c x → T x

theorem resolvePerms_spec (inv : Inv w) {p tid ns sc : Str} {c : Nat} (hc : (tid, c) ∈ w.tenants)
    {res : Option (List Str)} {d : Dag} (h : w.resolvePerms e fuel site p tid ns sc = .ok (res, d)) :
    DagOK w (·.perms) d ∧ ∃ T, Visits w p c T ∧ ∀ x, (∃ l, res = some l ∧ x ∈ l) ↔
      ScopedAt w e site p ns sc T x ∨ ((∀ y, ¬ ScopedAt w e site p ns sc T y) ∧ UnscopedAt w e site p ns T x) := by
  unfold resolvePerms at h
  rw [(GoMap.mem_iff_get inv.tenantsWF).1 hc] at h
  obtain ⟨st, h1, h2⟩ := Out.map_eq_ok.1 h
  obtain ⟨k1, k2, k3⟩ := traverse_sound inv h1
  obtain ⟨m1, m2, m3⟩ := permVisits_spec (DagOK.refl inv _) k1
  obtain ⟨rfl, rfl⟩ := Prod.mk.inj h2
  refine ⟨m1, (· ∈ st.1), ⟨k2, k3, fun tw x hx => ((traverse_visits inv tw h1).2 x).2 hx⟩, fun x => ?_⟩
  have hs : ∀ y, y ∈ st.2.scopedP ↔ ScopedAt w e site p ns sc (· ∈ st.1) y := fun y => by rw [m2]; simp [ScopedAt, Dag.resolves_perms]
  have hg : ∀ y, y ∈ st.2.globalP ↔ ∃ tid, tid ∈ st.1 ∧ ∃ i u, RowAt w i u ∧ Usable e site p ns tid i u ∧
      u.scope ≠ sc ∧ u.scope = [] ∧ RolePerm w.dag u.role y := fun y => by rw [m3]; simp [Dag.resolves_perms]
  by_cases hne : st.2.scopedP.length > 0
  · rw [if_pos hne]
    obtain ⟨y, hy⟩ := List.exists_mem_of_length_pos hne
    have : ¬ ∀ y, ¬ ScopedAt w e site p ns sc (· ∈ st.1) y := fun hn => hn y ((hs y).1 hy)
    simp [this, hs]
  · rw [if_neg hne]
    have he : st.2.scopedP = [] := List.length_eq_zero_iff.1 (by omega)
    have hno : ∀ y, ¬ ScopedAt w e site p ns sc (· ∈ st.1) y := fun y hy => by
      have := (hs y).2 hy; rw [he] at this; simp at this
    have hu : UnscopedAt w e site p ns (· ∈ st.1) x ↔ x ∈ st.2.globalP := by
      rw [hg]
      constructor
      · rintro ⟨tid, a1, i, u, a2, a3, a4, a5⟩
        exact ⟨tid, a1, i, u, a2, a3, fun hsc => hno x ⟨tid, a1, i, u, a2, a3, hsc, a5⟩, a4, a5⟩
      · rintro ⟨tid, a1, i, u, a2, a3, _, a4, a5⟩
        exact ⟨tid, a1, i, u, a2, a3, a4, a5⟩
    simp only [hno, false_or, not_false_eq_true, implies_true, true_and, hu]
    by_cases hg0 : st.2.globalP.length > 0
    · rw [if_pos hg0]; simp
    · rw [if_neg hg0]
      have : st.2.globalP = [] := List.length_eq_zero_iff.1 (by omega)
      simp [this]

theorem resolveRoles_spec (inv : Inv w) {p tid ns : Str} {c : Nat} (hc : (tid, c) ∈ w.tenants)
    {res : Option (List Str)} {d : Dag} (h : w.resolveRoles e fuel site p tid ns = .ok (res, d)) :
    DagOK w (fun o => [o.name]) d ∧ ∃ T, Visits w p c T ∧ ∀ x, (∃ l, res = some l ∧ x ∈ l) ↔ HeldAt w e site p ns T x := by
  unfold resolveRoles at h
  rw [(GoMap.mem_iff_get inv.tenantsWF).1 hc] at h
  obtain ⟨st, h1, h2⟩ := Out.map_eq_ok.1 h
  obtain ⟨k1, k2, k3⟩ := traverse_sound inv h1
  obtain ⟨m1, m2⟩ := roleVisits_spec (DagOK.refl inv _) k1
  obtain ⟨rfl, rfl⟩ := Prod.mk.inj h2
  refine ⟨m1, (· ∈ st.1), ⟨k2, k3, fun tw x hx => ((traverse_visits inv tw h1).2 x).2 hx⟩, fun x => ?_⟩
  have hs : x ∈ st.2.roles ↔ HeldAt w e site p ns (· ∈ st.1) x := by
    rw [m2]; simp [HeldAt, Dag.resolves_names inv.dag]
  by_cases hne : st.2.roles.length > 0
  · rw [if_pos hne, ← hs]; simp
  · rw [if_neg hne, ← hs]
    have : st.2.roles = [] := List.length_eq_zero_iff.1 (by omega)
    simp [this]

theorem resolvePerms_total (inv : Inv w) (hnil : none ∉ w.userRoles) (hf : w.roleFuel ≤ fuel)
    (hf2 : w.tobjs.length < fuel) (p tid ns sc : Str) : ∃ y, w.resolvePerms e fuel site p tid ns sc = .ok y := by
  unfold resolvePerms
  split
  · exact ⟨_, rfl⟩
  · rename_i c hc
    obtain ⟨t, ht, _⟩ := inv.tenants _ _ (GoMap.get_some_mem hc)
    obtain ⟨st, h1, _⟩ := traverse_total (e := e) (site := site) (p := p) inv hnil (P := fun s => DagOK w (·.perms) s.dag)
      (visit := fun tid s => Out.loop (w.permRow e fuel site p ns sc tid) s w.userRoles.zipIdx)
      (fun x s hs => Out.loop_total (fun s xi hxi hs => by
        obtain ⟨y, i⟩ := xi
        have hy := List.mem_of_getElem? (mem_zipIdx_iff.1 hxi)
        exact permRow_total inv hf hy (fun hn => hnil (hn ▸ hy)) hs) hs)
      ⟨t, ht⟩ (st := ([], { dag := w.dag })) (DagOK.refl inv _) (Nat.lt_of_le_of_lt (unchecked_le _) hf2)
    rw [h1]; exact ⟨_, rfl⟩

theorem resolveRoles_total (inv : Inv w) (hnil : none ∉ w.userRoles) (hf : w.roleFuel ≤ fuel)
    (hf2 : w.tobjs.length < fuel) (p tid ns : Str) : ∃ y, w.resolveRoles e fuel site p tid ns = .ok y := by
  unfold resolveRoles
  split
  · exact ⟨_, rfl⟩
  · rename_i c hc
    obtain ⟨t, ht, _⟩ := inv.tenants _ _ (GoMap.get_some_mem hc)
    obtain ⟨st, h1, _⟩ := traverse_total (e := e) (site := site) (p := p) inv hnil (P := fun s => DagOK w (fun o => [o.name]) s.dag)
      (visit := fun tid s => Out.loop (w.roleRow e fuel site p ns tid) s w.userRoles.zipIdx)
      (fun x s hs => Out.loop_total (fun s xi hxi hs => by
        obtain ⟨y, i⟩ := xi
        have hy := List.mem_of_getElem? (mem_zipIdx_iff.1 hxi)
        exact roleRow_total inv hf hy (fun hn => hnil (hn ▸ hy)) hs) hs)
      ⟨t, ht⟩ (st := ([], { dag := w.dag })) (DagOK.refl inv _) (Nat.lt_of_le_of_lt (unchecked_le _) hf2)
    rw [h1]; exact ⟨_, rfl⟩

theorem loop_rows_panic {σ : Type} {P : σ → Prop} {f : σ → Option Nat × Nat → Out σ} (hnil : none ∈ w.userRoles)
    (hp : ∀ s i, f s (none, i) = .panic) (ht : ∀ s x i, P s → x ∈ w.userRoles → x ≠ none → ∃ s', f s (x, i) = .ok s' ∧ P s')
    {s : σ} (h0 : P s) : Out.loop f s w.userRoles.zipIdx = .panic := by
  obtain ⟨i, hi⟩ := List.mem_iff_getElem?.1 hnil
  refine Out.loop_panic (P := P) ?_ h0 (a := (none, i)) (mem_zipIdx_iff.2 hi) (fun s _ => hp s i)
  rintro s ⟨x, j⟩ hx hs
  cases x with
  | none => exact .inr (hp s j)
  | some y => exact .inl (ht s (some y) j hs (List.mem_of_getElem? (mem_zipIdx_iff.1 hx)) (by simp))

theorem resolvePerms_panic (inv : Inv w) (hnil : none ∈ w.userRoles) (hf : w.roleFuel ≤ fuel)
    {tid : Str} (ht : ∃ c, (tid, c) ∈ w.tenants) (p ns sc : Str) : w.resolvePerms e fuel site p tid ns sc = .panic := by
  obtain ⟨c, hc⟩ := ht
  unfold resolvePerms
  rw [(GoMap.mem_iff_get inv.tenantsWF).1 hc]
  obtain ⟨t, ht, rfl⟩ := inv.tenants _ _ hc
  obtain ⟨n, rfl⟩ : ∃ n, fuel = n + 1 := ⟨fuel - 1, by unfold roleFuel at hf; omega⟩
  simp only
  rw [traverse_panic ht]
  · rfl
  · exact loop_rows_panic (P := fun s => DagOK w (·.perms) s.dag) hnil (fun s i => rfl)
      (fun s x i hs hx hn => permRow_total inv hf hx hn hs) (DagOK.refl inv _)

theorem resolveRoles_panic (inv : Inv w) (hnil : none ∈ w.userRoles) (hf : w.roleFuel ≤ fuel)
    {tid : Str} (ht : ∃ c, (tid, c) ∈ w.tenants) (p ns : Str) : w.resolveRoles e fuel site p tid ns = .panic := by
  obtain ⟨c, hc⟩ := ht
  unfold resolveRoles
  rw [(GoMap.mem_iff_get inv.tenantsWF).1 hc]
  obtain ⟨t, ht, rfl⟩ := inv.tenants _ _ hc
  obtain ⟨n, rfl⟩ : ∃ n, fuel = n + 1 := ⟨fuel - 1, by unfold roleFuel at hf; omega⟩
  simp only
  rw [traverse_panic ht]
  · rfl
  · exact loop_rows_panic (P := fun s => DagOK w (fun o => [o.name]) s.dag) hnil (fun s i => rfl)
      (fun s x i hs hx hn => roleRow_total inv hf hx hn hs) (DagOK.refl inv _)

/-! ### Targets -/

theorem ptLoop_spec (inv : Inv w) {p : Str} {L : List (Option Nat)} {s s' : GoMap Str Nat} (wf : GoMap.WF s)
    (hs : ∀ e ∈ s, e ∈ w.tenants) (h : Out.loop (w.ptStep p) s L = .ok s') :
    GoMap.WF s' ∧ (∀ e ∈ s', e ∈ w.tenants) ∧ ∀ e, e ∈ s' ↔ e ∈ s ∨ ∃ x ∈ L, ∃ u t, w.prAt x = .ok u ∧ u.principal = p ∧
      u.tenant ≠ [] ∧ e.1 = u.tenant ∧ e ∈ w.tenants ∧ w.tobjs[e.2]? = some t ∧ t.status = 0 := by
  induction L generalizing s with
  | nil => cases h; exact ⟨wf, hs, by simp⟩
  | cons x L ih =>
    obtain ⟨s1, h1, h2⟩ := Out.bind_eq_ok.1 h
    obtain ⟨u, hu, h3⟩ := Out.bind_eq_ok.1 h1
    have step : GoMap.WF s1 ∧ (∀ e ∈ s1, e ∈ w.tenants) ∧ ∀ e, e ∈ s1 ↔ e ∈ s ∨ ∃ u t, w.prAt x = .ok u ∧ u.principal = p ∧
        u.tenant ≠ [] ∧ e.1 = u.tenant ∧ e ∈ w.tenants ∧ w.tobjs[e.2]? = some t ∧ t.status = 0 := by
      split at h3
      · rename_i hc
        split at h3
        · rename_i hg
          cases h3
          refine ⟨wf, hs, fun e => ⟨.inl, fun h => h.elim id ?_⟩⟩
          rintro ⟨u', t, g1, _, _, g2, g3, _⟩
          rw [hu] at g1; cases g1
          have := (GoMap.mem_iff_get inv.tenantsWF (k := e.1) (v := e.2)).1 g3
          rw [g2, hg] at this; cases this
        · rename_i c hg
          obtain ⟨t, ht, h3⟩ := withT_eq_ok.1 h3
          have hm := GoMap.get_some_mem hg
          split at h3
          · rename_i ha
            cases h3
            have hin : ∀ e, e ∈ s.set u.tenant c ↔ e ∈ s ∨ e = (u.tenant, c) := by
              intro e
              rw [GoMap.mem_set_iff wf]
              constructor
              · rintro (h | h)
                · exact .inr h
                · exact .inl h.2
              · rintro (h | h)
                · by_cases he : e.1 = u.tenant
                  · left
                    have := (GoMap.mem_iff_get inv.tenantsWF (k := e.1) (v := e.2)).1 (hs e h)
                    rw [he, hg] at this; cases this
                    exact Prod.ext he rfl
                  · exact .inr ⟨he, h⟩
                · exact .inl h
            refine ⟨GoMap.wf_set wf .., fun e he => ?_, fun e => ?_⟩
            · rcases (hin e).1 he with h | h
              · exact hs e h
              · exact h ▸ hm
            · rw [hin]
              refine or_congr_right ⟨?_, ?_⟩
              · rintro rfl
                exact ⟨u, t, hu, hc.1, hc.2, rfl, hm, ht, ha⟩
              · rintro ⟨u', t', g1, _, _, g2, g3, _⟩
                rw [hu] at g1; cases g1
                have := (GoMap.mem_iff_get inv.tenantsWF (k := e.1) (v := e.2)).1 g3
                rw [g2, hg] at this; cases this
                exact Prod.ext g2 rfl
          · rename_i ha
            cases h3
            refine ⟨wf, hs, fun e => ⟨.inl, fun h => h.elim id ?_⟩⟩
            rintro ⟨u', t', g1, _, _, g2, g3, g4, g5⟩
            rw [hu] at g1; cases g1
            have := (GoMap.mem_iff_get inv.tenantsWF (k := e.1) (v := e.2)).1 g3
            rw [g2, hg] at this; cases this
            rw [ht] at g4; cases g4
            exact absurd g5 ha
      · rename_i hc
        cases h3
        refine ⟨wf, hs, fun e => ⟨.inl, fun h => h.elim id ?_⟩⟩
        rintro ⟨u', t', g1, g2, g3, _⟩
        rw [hu] at g1; cases g1
        exact absurd ⟨g2, g3⟩ hc
    obtain ⟨a1, a2, a3⟩ := step
    obtain ⟨b1, b2, b3⟩ := ih a1 a2 h2
    refine ⟨b1, b2, fun e => ?_⟩
    rw [b3, a3, or_assoc, exists_mem_cons]

theorem ptLoop_total (inv : Inv w) (hnil : none ∉ w.userRoles) (p : Str) (s : GoMap Str Nat) :
    ∃ s', Out.loop (w.ptStep p) s w.userRoles = .ok s' := by
  obtain ⟨s', h, _⟩ := Out.loop_total (P := fun _ => True) (f := w.ptStep p) (xs := w.userRoles) (s := s) (fun s x hx _ => by
    cases x with
    | none => exact absurd hx hnil
    | some j =>
      obtain ⟨u, hu⟩ := inv.users j hx
      unfold ptStep
      simp only [prAt_eq_ok.2 ⟨j, rfl, hu⟩, Out.bind_ok]
      split
      · split
        · exact ⟨_, rfl, trivial⟩
        · rename_i c hc
          obtain ⟨t, ht, _⟩ := inv.tenants _ _ (GoMap.get_some_mem hc)
          unfold withT
          rw [ht]
          dsimp only
          split <;> exact ⟨_, rfl, trivial⟩
      · exact ⟨_, rfl, trivial⟩) trivial
  exact ⟨s', h⟩

theorem findPrincipalTenants_spec (inv : Inv w) {o : Ord} {p : Str} {cs : List Nat}
    (h : w.findPrincipalTenants o site p = .ok cs) :
    cs.Nodup ∧ ∀ c, c ∈ cs ↔ ∃ u t, Assigned w u ∧ u.principal = p ∧ u.tenant ≠ [] ∧ (u.tenant, c) ∈ w.tenants ∧
      w.tobjs[c]? = some t ∧ t.status = 0 := by
  obtain ⟨s, h1, rfl⟩ := Out.map_eq_ok.1 h
  obtain ⟨a1, a2, a3⟩ := ptLoop_spec inv GoMap.wf_nil (by simp) h1
  have key : ∀ (l : List (Str × Nat)), (l.map (·.1)).Nodup → (∀ e ∈ l, e ∈ w.tenants) → (l.map (·.2)).Nodup := by
    intro l
    induction l with
    | nil => simp
    | cons e l ih =>
      intro h1 h2
      rw [List.map_cons, List.nodup_cons] at *
      refine ⟨fun hm => ?_, ih h1.2 fun e he => h2 e (List.mem_cons_of_mem _ he)⟩
      obtain ⟨e', h3, h4⟩ := List.mem_map.1 hm
      obtain ⟨t, g1, g2⟩ := inv.tenants _ _ (h2 e (List.mem_cons_self ..))
      obtain ⟨t', g3, g4⟩ := inv.tenants _ _ (h2 e' (List.mem_cons_of_mem _ h3))
      rw [h4, g1] at g3; cases g3
      exact h1.1 (List.mem_map.2 ⟨e', h3, g4.symm.trans g2⟩)
  refine ⟨key _ ?_ fun e he => a2 e (Ord.mem_ord.1 he), fun c => ?_⟩
  · exact (List.Perm.nodup_iff ((o.perm site _ s).map _)).2 a1
  · rw [List.mem_map]
    simp only [Ord.mem_ord, a3, List.not_mem_nil, false_or]
    constructor
    · rintro ⟨⟨k, c'⟩, ⟨x, hx, u, t, g1, g2, g3, g4, g5, g6, g7⟩, rfl⟩
      obtain ⟨j, rfl, hj⟩ := prAt_eq_ok.1 g1
      simp only at g4; subst g4
      exact ⟨u, t, ⟨j, hx, hj⟩, g2, g3, g5, g6, g7⟩
    · rintro ⟨u, t, ⟨j, hj1, hj2⟩, g2, g3, g5, g6, g7⟩
      exact ⟨(u.tenant, c), ⟨some j, hj1, u, t, prAt_eq_ok.2 ⟨j, rfl, hj2⟩, g2, g3, rfl, g5, g6, g7⟩, rfl⟩

theorem named_eq (w : V2) (r : Req2) : (if r.tenant = [] ∧ w.defTenant ≠ [] then w.defTenant else r.tenant) = named w r := by
  unfold named
  by_cases h1 : r.tenant = [] <;> by_cases h2 : w.defTenant = [] <;> simp [h1, h2]

theorem findTargets_spec (inv : Inv w) {o : Ord} {r : Req2} {ts : Option (List Nat)} (h : w.findTargets o site r = .ok ts) :
    (∀ cs, ts = some cs → cs.Nodup ∧ ∀ c, c ∈ cs ↔ Target w r c) ∧
    (ts = none ↔ named w r ≠ [] ∧ ∀ c, (named w r, c) ∉ w.tenants) := by
  unfold findTargets at h
  rw [named_eq] at h
  by_cases hn : named w r = []
  · simp only [if_pos hn] at h
    obtain ⟨l, h1, h2⟩ := Out.map_eq_ok.1 h
    have hl : ts = some l := by
      rw [← h2]
      split
      · rename_i hlen
        rw [List.take_of_length_le hlen, List.take_length]
      · rfl
    subst hl
    obtain ⟨k1, k2⟩ := findPrincipalTenants_spec inv h1
    refine ⟨fun cs hcs => ?_, by simp [hn]⟩
    cases hcs
    exact ⟨k1, fun c => by rw [k2]; unfold Target; simp [hn]⟩
  · simp only [if_neg hn] at h
    split at h
    · rename_i hg
      cases h
      refine ⟨by simp, iff_of_true rfl ⟨hn, fun c hc => ?_⟩⟩
      rw [(GoMap.mem_iff_get inv.tenantsWF).1 hc] at hg; cases hg
    · rename_i c hg
      cases h
      have hm := GoMap.get_some_mem hg
      refine ⟨fun cs hcs => ?_, iff_of_false (by simp) fun h => h.2 c hm⟩
      cases hcs
      refine ⟨by simp, fun c' => ?_⟩
      rw [List.mem_singleton]
      unfold Target
      simp only [hn, ne_eq, not_false_eq_true, true_and, false_and, or_false]
      constructor
      · rintro rfl; exact hm
      · intro h
        rw [(GoMap.mem_iff_get inv.tenantsWF).1 h] at hg; cases hg; rfl

theorem findTargets_total (inv : Inv w) (hnil : none ∉ w.userRoles) (o : Ord) (r : Req2) :
    ∃ ts, w.findTargets o site r = .ok ts := by
  unfold findTargets
  simp only
  generalize (if r.tenant = [] ∧ w.defTenant ≠ [] then w.defTenant else r.tenant) = t
  split
  · obtain ⟨s, hs⟩ := ptLoop_total inv hnil r.principal []
    unfold findPrincipalTenants
    rw [hs]; exact ⟨_, rfl⟩
  · split <;> exact ⟨_, rfl⟩

theorem target_registered (inv : Inv w) {r : Req2} {c : Nat} (h : Target w r c) :
    ∃ t, w.tobjs[c]? = some t ∧ (t.id, c) ∈ w.tenants := by
  rcases h with ⟨_, h⟩ | ⟨_, u, t, _, _, _, h, _⟩
  · obtain ⟨t, h1, h2⟩ := inv.tenants _ _ h; exact ⟨t, h1, h2.symm ▸ h⟩
  · obtain ⟨t, h1, h2⟩ := inv.tenants _ _ h; exact ⟨t, h1, h2.symm ▸ h⟩

/-! ### The loop over the targets -/

theorem nsOf_iff {t : T2} {r : Req2} {ns : Str} : nsOf t r = some ns ↔ InNs t r ns := by
  unfold nsOf InNs
  by_cases h1 : r.namespace_ = []
  · by_cases h2 : t.defNs = []
    · rw [if_pos h1, if_neg (by simp [h2])]
      simp only [h1, h2, ne_eq, not_true, false_and, true_and, false_or]
      split
      · rename_i x hx
        obtain ⟨k, scs⟩ := x
        rw [hx]; simp
      · rename_i hx
        simp only [reduceCtorEq, false_iff, not_exists]
        exact fun scs h => hx _ h
    · rw [if_pos h1, if_pos h2]
      simp only [h1, h2, ne_eq, not_true, not_false_eq_true, false_and, true_and, false_or, or_false]
      rw [Option.some.injEq, eq_comm]
  · rw [if_neg h1]
    simp only [h1, ne_eq, not_false_eq_true, true_and, false_and, or_false]
    rw [Option.some.injEq, eq_comm]

/-- The steps of the loop before `body` is called. -/
theorem place_iff {t : T2} (wf : GoMap.WF t.namespaces) {r : Req2} {ns : Str} :
    Place t r ns ↔ nsOf t r = some ns ∧ ∃ scs, t.namespaces.get ns = some scs ∧ ¬ (r.scope ≠ [] ∧ r.scope ∉ scs) := by
  unfold Place
  rw [nsOf_iff]
  refine and_congr_right fun _ => exists_congr fun scs => ?_
  rw [GoMap.mem_iff_get wf]
  refine and_congr_right fun _ => ?_
  by_cases h1 : r.scope = [] <;> by_cases h2 : r.scope ∈ scs <;> simp [h1, h2]

theorem place_unique {t : T2} (wf : GoMap.WF t.namespaces) {r : Req2} {ns ns' : Str} (h : Place t r ns) (h' : Place t r ns') :
    ns = ns' := by
  have h1 := ((place_iff wf).1 h).1
  rw [((place_iff wf).1 h').1] at h1
  cases h1; rfl

/-- One step of the loop. -/
theorem tenantLoop_cons {r : Req2} {body : Nat → Str → Str → V2 → Out (Bool × V2)} {k c : Nat} {cs : List Nat} {t : T2}
    (ht : w.tobjs[c]? = some t) (wf : GoMap.WF t.namespaces) :
    ((∀ ns, ¬ Place t r ns) ∧ tenantLoop r body k (c :: cs) w = tenantLoop r body (k + 1) cs w) ∨
    (∃ ns, Place t r ns ∧ tenantLoop r body k (c :: cs) w = (body k t.id ns w).bind fun bw =>
      if bw.1 then .ok bw else tenantLoop r body (k + 1) cs bw.2) := by
  rw [tenantLoop]
  unfold withT
  rw [ht]
  simp only [place_iff wf]
  cases h1 : nsOf t r with
  | none => exact .inl ⟨by simp, rfl⟩
  | some ns =>
    simp only
    cases h2 : t.namespaces.get ns with
    | none => exact .inl ⟨fun ns' h => by obtain ⟨g, scs, h', _⟩ := h; cases g; rw [h2] at h'; simp at h', rfl⟩
    | some scs =>
      simp only
      have es : (r.scope ≠ [] ∧ (!scopeValid scs r.scope) = true) = (r.scope ≠ [] ∧ r.scope ∉ scs) := by simp [scopeValid]
      simp only [es]
      by_cases h3 : r.scope ≠ [] ∧ r.scope ∉ scs
      · rw [if_pos h3]
        exact .inl ⟨by rintro _ ⟨h, scs', h', h4⟩; cases h; rw [h2] at h'; cases h'; exact h4 h3, rfl⟩
      · rw [if_neg h3]
        exact .inr ⟨ns, ⟨rfl, scs, h2, h3⟩, rfl⟩

theorem tenantLoop_spec (inv : Inv w) {r : Req2} {body : Nat → Str → Str → V2 → Out (Bool × V2)} {J : V2 → Prop}
    (hJ : ∀ w', J w' → Frame w w' ∧ J (w'.logMsg r .failed)) {G : Nat → Nat → Str → Prop} {cs : List Nat}
    (hb : ∀ k, ∀ c ∈ cs, ∀ t ns w1 b w2, w.tobjs[c]? = some t → J w1 → body k t.id ns w1 = .ok (b, w2) →
      J w2 ∧ (b = true ↔ G k c ns))
    (hcs : ∀ c ∈ cs, ∃ t, w.tobjs[c]? = some t) {k : Nat} {w1 w2 : V2} {b : Bool} (h0 : J w1)
    (h : tenantLoop r body k cs w1 = .ok (b, w2)) :
    J w2 ∧ (b = true ↔ ∃ j c t ns, cs[j]? = some c ∧ w.tobjs[c]? = some t ∧ Place t r ns ∧ G (k + j) c ns) := by
  induction cs generalizing k w1 with
  | nil =>
    cases h
    exact ⟨(hJ w1 h0).2, by simp⟩
  | cons c cs ih =>
    have ih := fun {k w1} => ih (k := k) (w1 := w1) (fun k c hc => hb k c (List.mem_cons_of_mem _ hc))
      (fun c hc => hcs c (List.mem_cons_of_mem _ hc))
    obtain ⟨t, ht⟩ := hcs c (List.mem_cons_self ..)
    have wf := inv.nsWF t (List.mem_of_getElem? ht)
    have hex : ∀ {P : Nat → Nat → Prop}, (∃ j c', (c :: cs)[j]? = some c' ∧ P (k + j) c') ↔
        P k c ∨ ∃ j c', cs[j]? = some c' ∧ P (k + 1 + j) c' := by
      intro P
      constructor
      · rintro ⟨j, c', h1, h2⟩
        cases j with
        | zero => simp at h1; subst h1; exact .inl h2
        | succ j => exact .inr ⟨j, c', by simpa using h1, by rw [show k + 1 + j = k + (j + 1) by omega]; exact h2⟩
      · rintro (h1 | ⟨j, c', h1, h2⟩)
        · exact ⟨0, c, by simp, h1⟩
        · exact ⟨j + 1, c', by simpa using h1, by rw [show k + (j + 1) = k + 1 + j by omega]; exact h2⟩
    have hex' : (∃ j c' t ns, (c :: cs)[j]? = some c' ∧ w.tobjs[c']? = some t ∧ Place t r ns ∧ G (k + j) c' ns) ↔
        (∃ ns, Place t r ns ∧ G k c ns) ∨
        ∃ j c' t ns, cs[j]? = some c' ∧ w.tobjs[c']? = some t ∧ Place t r ns ∧ G (k + 1 + j) c' ns := by
      have := hex (P := fun j c' => ∃ t ns, w.tobjs[c']? = some t ∧ Place t r ns ∧ G j c' ns)
      simp only [exists_and_left] at this ⊢
      rw [this]
      refine or_congr_left ?_
      simp [ht]
    rw [hex']
    rcases tenantLoop_cons (body := body) (k := k) (cs := cs) (r := r) (w := w1) ((hJ w1 h0).1.tobjs.symm ▸ ht) wf with
      ⟨hn, e⟩ | ⟨ns, hn, e⟩
    · rw [e] at h
      obtain ⟨a1, a2⟩ := ih h0 h
      refine ⟨a1, a2.trans ?_⟩
      simp [hn]
    · rw [e] at h
      obtain ⟨⟨b1, w3⟩, h1, h2⟩ := Out.bind_eq_ok.1 h
      obtain ⟨c1, c2⟩ := hb k c (List.mem_cons_self ..) t ns w1 b1 w3 ht h0 h1
      have huniq : (∃ ns, Place t r ns ∧ G k c ns) ↔ G k c ns :=
        ⟨fun ⟨ns', g1, g2⟩ => place_unique wf g1 hn ▸ g2, fun h => ⟨ns, hn, h⟩⟩
      rw [huniq]
      cases b1 with
      | true =>
        cases h2
        exact ⟨c1, by simp [c2.1 rfl]⟩
      | false =>
        obtain ⟨a1, a2⟩ := ih c1 h2
        refine ⟨a1, a2.trans ?_⟩
        have : ¬ G k c ns := fun g => by simpa using c2.2 g
        simp [this]

theorem tenantLoop_total (inv : Inv w) {r : Req2} {body : Nat → Str → Str → V2 → Out (Bool × V2)} {J : V2 → Prop}
    (hJ : ∀ w', J w' → Frame w w') {cs : List Nat}
    (hb : ∀ k, ∀ c ∈ cs, ∀ t ns w1, w.tobjs[c]? = some t → J w1 → ∃ b w2, body k t.id ns w1 = .ok (b, w2) ∧ J w2)
    (hcs : ∀ c ∈ cs, ∃ t, w.tobjs[c]? = some t) {k : Nat} {w1 : V2} (h0 : J w1) :
    ∃ y, tenantLoop r body k cs w1 = .ok y := by
  induction cs generalizing k w1 with
  | nil => exact ⟨_, rfl⟩
  | cons c cs ih =>
    have ih := fun {k w1} => ih (k := k) (w1 := w1) (fun k c hc => hb k c (List.mem_cons_of_mem _ hc))
      (fun c hc => hcs c (List.mem_cons_of_mem _ hc))
    obtain ⟨t, ht⟩ := hcs c (List.mem_cons_self ..)
    have wf := inv.nsWF t (List.mem_of_getElem? ht)
    rcases tenantLoop_cons (body := body) (k := k) (cs := cs) (r := r) (w := w1) ((hJ w1 h0).tobjs.symm ▸ ht) wf with
      ⟨hn, e⟩ | ⟨ns, hn, e⟩
    · rw [e]; exact ih h0
    · rw [e]
      obtain ⟨b, w2, h1, h2⟩ := hb k c (List.mem_cons_self ..) t ns w1 ht h0
      rw [h1, Out.bind_ok]
      cases b with
      | true => exact ⟨_, rfl⟩
      | false => exact ih h2

theorem matchPermission_spec {x : Str} {r : Req2} {b : Bool} (h : matchPermission x r = .ok b) :
    b = true ↔ Permits x r := by
  unfold matchPermission Req2.string at h
  unfold Permits
  split at h
  · rename_i hc; cases h; simp [hc]
  · rename_i hc
    constructor
    · rintro rfl; exact ⟨hc, (matchResource_true_iff _ _).1 h⟩
    · intro hp
      have := (matchResource_true_iff _ _).2 hp.2
      rw [h] at this; cases this; rfl

theorem authBody_spec (inv : Inv w) {r : Req2} {k c : Nat} {t : T2} {ns : Str} {w1 w2 : V2} {b : Bool}
    (hc : (t.id, c) ∈ w.tenants) (h0 : Run (·.perms) w w1)
    (h : authBody e fuel site r k t.id ns w1 = .ok (b, w2)) :
    Run (·.perms) w w2 ∧ ∃ T, Visits w r.principal c T ∧ (b = true ↔ ∃ x, Permits x r ∧
      (ScopedAt w e (site ++ [.int k]) r.principal ns r.scope T x ∨
       ((∀ y, ¬ ScopedAt w e (site ++ [.int k]) r.principal ns r.scope T y) ∧
        UnscopedAt w e (site ++ [.int k]) r.principal ns T x))) := by
  unfold authBody at h
  obtain ⟨⟨res, d⟩, h1, h2⟩ := Out.bind_eq_ok.1 h
  obtain ⟨a1, T, a2, a3⟩ := resolvePerms_spec (h0.inv inv) (h0.frame.tenants.symm ▸ hc) h1
  have hrun := h0.setDag a1
  have hres : ∀ r x, RolePerm w1.dag r x ↔ RolePerm w.dag r x := h0.dag.res
  have hS : ∀ x, ScopedAt w1 e (site ++ [.int k]) r.principal ns r.scope T x ↔
      ScopedAt w e (site ++ [.int k]) r.principal ns r.scope T x := fun x => by
    unfold ScopedAt; simp only [h0.frame.rowAt, hres]
  have hU : ∀ x, UnscopedAt w1 e (site ++ [.int k]) r.principal ns T x ↔
      UnscopedAt w e (site ++ [.int k]) r.principal ns T x := fun x => by
    unfold UnscopedAt; simp only [h0.frame.rowAt, hres]
  simp only [hS, hU] at a3
  have hT : Visits w r.principal c T := ⟨fun x hx => h0.frame.covers.1 (a2.sound x hx),
    fun t ht => a2.self t (h0.frame.tobjs.symm ▸ ht), fun tw x hx => a2.all (h0.frame.noTwins.2 tw) x (h0.frame.covers.2 hx)⟩
  cases res with
  | none =>
    cases h2
    exact ⟨hrun.logMsg .., T, hT, by simp [← a3]⟩
  | some l =>
    obtain ⟨b', h3, h4⟩ := Out.map_eq_ok.1 h2
    obtain ⟨rfl, rfl⟩ := Prod.mk.inj h4
    refine ⟨?_, T, hT, ?_⟩
    · cases b'
      · exact hrun
      · exact hrun.logMsg ..
    · simp only [← a3]
      rw [Out.anyI_spec (P := fun x => Permits x r) (fun j x _ c hx => matchPermission_spec hx) h3]
      simp only [Ord.mem_ord, Option.some.injEq, exists_eq_left']
      exact ⟨fun ⟨x, h1, h2⟩ => ⟨x, h2, h1⟩, fun ⟨x, h1, h2⟩ => ⟨x, h2, h1⟩⟩

theorem canBody_spec (inv : Inv w) {r : Req2} {roles : List Str} {k c : Nat} {t : T2} {ns : Str} {w1 w2 : V2} {b : Bool}
    (hc : (t.id, c) ∈ w.tenants) (h0 : Run (fun o => [o.name]) w w1)
    (h : canBody e fuel site r roles k t.id ns w1 = .ok (b, w2)) :
    Run (fun o => [o.name]) w w2 ∧ ∃ T, Visits w r.principal c T ∧ (b = true ↔ ∃ x ∈ roles,
      HeldAt w e (site ++ [.int k]) r.principal ns T x) := by
  unfold canBody at h
  obtain ⟨⟨res, d⟩, h1, h2⟩ := Out.bind_eq_ok.1 h
  obtain ⟨a1, T, a2, a3⟩ := resolveRoles_spec (h0.inv inv) (h0.frame.tenants.symm ▸ hc) h1
  have hrun := h0.setDag a1
  have hres : ∀ r x, RoleBelow w1.dag r x ↔ RoleBelow w.dag r x := fun r x => by
    rw [← Dag.resolves_names h0.dag.inv, ← Dag.resolves_names inv.dag]; exact h0.dag.res r x
  have hS : ∀ x, HeldAt w1 e (site ++ [.int k]) r.principal ns T x ↔
      HeldAt w e (site ++ [.int k]) r.principal ns T x := fun x => by
    unfold HeldAt; simp only [h0.frame.rowAt, hres]
  simp only [hS] at a3
  have hT : Visits w r.principal c T := ⟨fun x hx => h0.frame.covers.1 (a2.sound x hx),
    fun t ht => a2.self t (h0.frame.tobjs.symm ▸ ht), fun tw x hx => a2.all (h0.frame.noTwins.2 tw) x (h0.frame.covers.2 hx)⟩
  cases res with
  | none =>
    cases h2
    exact ⟨hrun.logMsg .., T, hT, by simp [← a3]⟩
  | some l =>
    simp only at h2
    cases h2
    refine ⟨?_, T, hT, ?_⟩
    · cases h3 : (e.o.ord (site ++ [.int k]) _ l).any fun x => decide (x ∈ roles)
      · exact hrun
      · exact hrun.logMsg ..
    · simp only [← a3]
      rw [List.any_eq_true]
      simp only [Ord.mem_ord, decide_eq_true_eq, Option.some.injEq, exists_eq_left']
      exact ⟨fun ⟨x, h1, h2⟩ => ⟨x, h2, h1⟩, fun ⟨x, h1, h2⟩ => ⟨x, h2, h1⟩⟩

end
end V2
end Verif
