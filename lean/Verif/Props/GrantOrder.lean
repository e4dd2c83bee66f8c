import Verif.Props.Asking

/-!
# The order of grants (root package)
-/

namespace Verif
open Spec
namespace Spec

/-- The calls that store rows and change nothing else. -/
def isGrant : MOp → Bool
  | .addData .. | .tAddNamespace .. | .tAddScopesToNamespace .. | .tAddPrincipalInNamespace .. | .tAddRole .. | .tAddScope ..
  | .tAddPrincipalWithRole .. | .tAddPrincipal .. | .tAddScopeToPrincipal .. | .tAssignScopes .. => true
  | _ => false

/-- Rows that take each other's place are equal. -/
def NoRowClash (rows : List Data) : Prop := ∀ a ∈ rows, ∀ b ∈ rows, rowKey dataKeys a = rowKey dataKeys b → a = b

/-- The answer to the request does not depend on the order of maps: the tenants of `p` are kept, or those that depend on
the order make no difference. -/
def SettledAnswer (w : Mgr) (p : Str) (r : Request) : Prop :=
  (∃ I, w.pcache.get p = some I) ∨
  (LinksRegistered w ∧ Mgr.HierFresh w ∧ (AllowedIn w p r (MayInclude w p) → AllowedIn w p r (MustInclude w p)))

end Spec

namespace GrantOrder

/-- The same but for the rows. -/
def Rows (w u : Mgr) : Prop := u = { w with trie := u.trie, log := u.log }

theorem Rows.refl (w : Mgr) : Rows w w := rfl

theorem Rows.trans {a b c : Mgr} (h1 : Rows a b) (h2 : Rows b c) : Rows a c := by
  unfold Rows at *
  rw [h2, h1]

theorem Rows.symm {a b : Mgr} (h : Rows a b) : Rows b a := by
  unfold Rows at *
  rw [h]

theorem rows_inserted {w u : Mgr} {rows : List Data} (h : Inserted w u rows) : Rows w u := by
  unfold Inserted at h
  unfold Rows
  rw [h]

/-- Whatever rows there are, the call stores `rows`. -/
def Gives (w : Mgr) (op : MOp) (rows : List Data) : Prop :=
  ∀ u, u.Inv → Rows w u → ∃ u', op.apply u = .ok u' ∧ Inserted u u' rows

/-- The same for a call with an error result. -/
def GivesE (w : Mgr) (f : Mgr → Out (Option Err × Mgr)) (e : Option Err) (rows : List Data) : Prop :=
  ∀ u, u.Inv → Rows w u → ∃ u', f u = .ok (e, u') ∧ Inserted u u' rows ∧ u'.Inv

section
variable {w v : Mgr}

theorem gives_addData (d : Data) : Gives w (.addData d) [d] := fun _ inv _ => Inserted.one inv d

theorem gives_row {op : MOp} {c : Nat} {row : TenantObj → Data} (hop : ∀ u : Mgr, op.apply u = u.withTenant c fun t => u.addData (row t))
    (h : op.apply w = .ok v) : ∃ rows, Gives w op rows := by
  rw [hop] at h
  obtain ⟨t, ht, hm, _⟩ := Mgr.withTenant_ok h
  refine ⟨[row t], fun u inv hu => ?_⟩
  obtain ⟨u', h1, h2⟩ := Inserted.one inv (row t)
  refine ⟨u', ?_, h2⟩
  have : u.tobjs[c]? = some t := by rw [hu]; exact ht
  rw [hop, Mgr.withTenant, this]
  simp only [hm, if_true]
  exact h1

theorem known_rows {u : Mgr} (h : Rows w u) : u.principals = w.principals ∧ u.roles = w.roles ∧ u.scopes = w.scopes ∧ u.tobjs = w.tobjs := by
  rw [h]; exact ⟨rfl, rfl, rfl, rfl⟩

theorem gives_withRole {c : Nat} {t : TenantObj} (hc : w.tobjs[c]? = some t) (hm : t.managed = true) (p r : Str) (m : Bool) :
    ∃ e rows, GivesE w (fun u => u.tAddPrincipalWithRole c p r m) e rows := by
  have key : ∀ u, u.Inv → Rows w u → ∃ e u', u.tAddPrincipalWithRole c p r m = .ok (e, u') ∧ u'.Inv ∧
      (e = some .noPrincipal ↔ ¬ IsKnown w.principals p) ∧ (e = some .noRole ↔ IsKnown w.principals p ∧ ¬ IsKnown w.roles r) ∧
      (e = none ↔ IsKnown w.principals p ∧ IsKnown w.roles r) ∧ (e ≠ none → u' = u) ∧ (e = none → Inserted u u' (roleRows t p m r)) := by
    intro u inv hu
    obtain ⟨k1, k2, _, k4⟩ := known_rows hu
    obtain ⟨e, u', h1, h2⟩ := C35_addPrincipalWithRole inv (c := c) (t := t) (by rw [k4]; exact hc) hm p r m
    rw [k1, k2] at h2
    exact ⟨e, u', h1, MOp.apply_inv (op := .tAddPrincipalWithRole c p r m) inv (by simp [MOp.apply, h1]), h2⟩
  by_cases hp : IsKnown w.principals p
  · by_cases hr : IsKnown w.roles r
    · refine ⟨none, roleRows t p m r, fun u inv hu => ?_⟩
      obtain ⟨e, u', h1, h2, _, _, h3, _, h4⟩ := key u inv hu
      have := h3.2 ⟨hp, hr⟩
      subst this
      exact ⟨u', h1, h4 rfl, h2⟩
    · refine ⟨some .noRole, [], fun u inv hu => ?_⟩
      obtain ⟨e, u', h1, h2, _, h3, _, h4, _⟩ := key u inv hu
      have := h3.2 ⟨hp, hr⟩
      subst this
      have := h4 (by simp)
      subst this
      exact ⟨u', h1, Inserted.nil _, h2⟩
  · refine ⟨some .noPrincipal, [], fun u inv hu => ?_⟩
    obtain ⟨e, u', h1, h2, h3, _, _, h4, _⟩ := key u inv hu
    have := h3.2 hp
    subst this
    have := h4 (by simp)
    subst this
    exact ⟨u', h1, Inserted.nil _, h2⟩

theorem gives_withScope {c : Nat} {t : TenantObj} (hc : w.tobjs[c]? = some t) (hm : t.managed = true) (p r : Str) (m : Bool) :
    ∃ e rows, GivesE w (fun u => u.tAddScopeToPrincipal c p r m) e rows := by
  have key : ∀ u, u.Inv → Rows w u → ∃ e u', u.tAddScopeToPrincipal c p r m = .ok (e, u') ∧ u'.Inv ∧
      (e = some .noPrincipal ↔ ¬ IsKnown w.principals p) ∧ (e = some .noScope ↔ IsKnown w.principals p ∧ ¬ IsKnown w.scopes r) ∧
      (e = none ↔ IsKnown w.principals p ∧ IsKnown w.scopes r) ∧ (e ≠ none → u' = u) ∧ (e = none → Inserted u u' (scopeRows t p m r)) := by
    intro u inv hu
    obtain ⟨k1, _, k2, k4⟩ := known_rows hu
    obtain ⟨e, u', h1, h2⟩ := C35_addScopeToPrincipal inv (c := c) (t := t) (by rw [k4]; exact hc) hm p r m
    rw [k1, k2] at h2
    exact ⟨e, u', h1, MOp.apply_inv (op := .tAddScopeToPrincipal c p r m) inv (by simp [MOp.apply, h1]), h2⟩
  by_cases hp : IsKnown w.principals p
  · by_cases hr : IsKnown w.scopes r
    · refine ⟨none, scopeRows t p m r, fun u inv hu => ?_⟩
      obtain ⟨e, u', h1, h2, _, _, h3, _, h4⟩ := key u inv hu
      have := h3.2 ⟨hp, hr⟩
      subst this
      exact ⟨u', h1, h4 rfl, h2⟩
    · refine ⟨some .noScope, [], fun u inv hu => ?_⟩
      obtain ⟨e, u', h1, h2, _, h3, _, h4, _⟩ := key u inv hu
      have := h3.2 ⟨hp, hr⟩
      subst this
      have := h4 (by simp)
      subst this
      exact ⟨u', h1, Inserted.nil _, h2⟩
  · refine ⟨some .noPrincipal, [], fun u inv hu => ?_⟩
    obtain ⟨e, u', h1, h2, h3, _, _, h4, _⟩ := key u inv hu
    have := h3.2 hp
    subst this
    have := h4 (by simp)
    subst this
    exact ⟨u', h1, Inserted.nil _, h2⟩

theorem gives_each {f : Mgr → Str → Out (Option Err × Mgr)} (hf : ∀ r, ∃ e rows, GivesE w (fun u => f u r) e rows) (rs : List Str) :
    ∃ e rows, GivesE w (fun u => Rep.each f u rs) e rows := by
  induction rs with
  | nil => exact ⟨none, [], fun u inv _ => ⟨u, rfl, Inserted.nil u, inv⟩⟩
  | cons r rs ih =>
    obtain ⟨e1, r1, h1⟩ := hf r
    cases e1 with
    | some e =>
      refine ⟨some e, r1, fun u inv hu => ?_⟩
      obtain ⟨u', g1, g2⟩ := h1 u inv hu
      refine ⟨u', ?_, g2⟩
      simp only at g1
      simp only [Rep.each, g1, Out.bind_ok]
    | none =>
      obtain ⟨e2, r2, h2⟩ := ih
      refine ⟨e2, r1 ++ r2, fun u inv hu => ?_⟩
      obtain ⟨u1, g1, g2, g3⟩ := h1 u inv hu
      obtain ⟨u2, g4, g5, g6⟩ := h2 u1 g3 (hu.trans (rows_inserted g2))
      refine ⟨u2, ?_, g2.trans g5, g6⟩
      simp only at g1 g4
      simp only [Rep.each, g1, Out.bind_ok]
      exact g4

theorem gives_snd {op : MOp} {f : Mgr → Out (Option Err × Mgr)} (hop : ∀ u, op.apply u = (f u).map (·.2))
    (h : ∃ e rows, GivesE w f e rows) : ∃ rows, Gives w op rows := by
  obtain ⟨e, rows, h⟩ := h
  refine ⟨rows, fun u inv hu => ?_⟩
  obtain ⟨u', g1, g2, _⟩ := h u inv hu
  exact ⟨u', by rw [hop, g1]; rfl, g2⟩

theorem each_tenant {f : Mgr → Str → Out (Option Err × Mgr)} {c : Nat}
    (hf : ∀ (u : Mgr) r x, f u r = .ok x → ∃ t, u.tobjs[c]? = some t ∧ t.managed = true) {r : Str} {rs : List Str} {x : Option Err × Mgr}
    (h : Rep.each f w (r :: rs) = .ok x) : ∃ t, w.tobjs[c]? = some t ∧ t.managed = true := by
  obtain ⟨y, h1, _⟩ := Out.bind_eq_ok.1 h
  exact hf _ _ _ h1

/-- A grant that goes through stores the same rows whatever rows there are. -/
theorem grant_gives {op : MOp} (hg : isGrant op = true) (h : op.apply w = .ok v) : ∃ rows, Gives w op rows := by
  cases op with
  | addData d => exact ⟨_, gives_addData d⟩
  | tAddNamespace c n => exact gives_row (fun u => rfl) h
  | tAddScopesToNamespace c n s => exact gives_row (fun u => rfl) h
  | tAddPrincipalInNamespace c p n r => exact gives_row (fun u => rfl) h
  | tAddRole c r => exact gives_row (fun u => rfl) h
  | tAddScope c s => exact gives_row (fun u => rfl) h
  | tAddPrincipalWithRole c p r m =>
    obtain ⟨x, h1, _⟩ := Out.map_eq_ok.1 h
    obtain ⟨t, ht, hm, _⟩ := Mgr.withTenant_ok h1
    exact gives_snd (fun u => rfl) (gives_withRole ht hm p r m)
  | tAddScopeToPrincipal c p s m =>
    obtain ⟨x, h1, _⟩ := Out.map_eq_ok.1 h
    obtain ⟨t, ht, hm, _⟩ := Mgr.withTenant_ok h1
    exact gives_snd (fun u => rfl) (gives_withScope ht hm p s m)
  | tAddPrincipal c p m rs =>
    obtain ⟨x, h1, _⟩ := Out.map_eq_ok.1 h
    refine gives_snd (f := fun u => Rep.each (fun w r => w.tAddPrincipalWithRole c p r m) u rs)
      (fun u => by simp only [MOp.apply, Rep.principal_each]) ?_
    rw [Rep.principal_each] at h1
    cases rs with
    | nil => exact ⟨none, [], fun u inv _ => ⟨u, rfl, Inserted.nil u, inv⟩⟩
    | cons r rs =>
      obtain ⟨t, ht, hm⟩ := each_tenant (c := c) (fun u r x hx => by obtain ⟨t, a, b, _⟩ := Mgr.withTenant_ok hx; exact ⟨t, a, b⟩) h1
      exact gives_each (fun r => gives_withRole ht hm p r m) _
  | tAssignScopes c p m ss =>
    obtain ⟨x, h1, _⟩ := Out.map_eq_ok.1 h
    refine gives_snd (f := fun u => Rep.each (fun w r => w.tAddScopeToPrincipal c p r m) u ss)
      (fun u => by simp only [MOp.apply, Rep.assign_each]) ?_
    rw [Rep.assign_each] at h1
    cases ss with
    | nil => exact ⟨none, [], fun u inv _ => ⟨u, rfl, Inserted.nil u, inv⟩⟩
    | cons r rs =>
      obtain ⟨t, ht, hm⟩ := each_tenant (c := c) (fun u r x hx => by obtain ⟨t, a, b, _⟩ := Mgr.withTenant_ok hx; exact ⟨t, a, b⟩) h1
      exact gives_each (fun r => gives_withScope ht hm p r m) _
  | _ => cases hg

theorem all_give (gs : List MOp) : ∀ {u : Mgr}, u.Inv → Rows w u → (∀ g ∈ gs, isGrant g = true) → MOp.run u gs = .ok v →
    ∀ g ∈ gs, ∃ rows, Gives w g rows := by
  induction gs with
  | nil => intro u _ _ _ _ g hg; cases hg
  | cons op gs ih =>
    intro u inv hu hg h
    obtain ⟨u1, h1, h2⟩ := Out.bind_eq_ok.1 h
    obtain ⟨rows, hr⟩ := grant_gives (hg op (by simp)) h1
    have inv1 := MOp.apply_inv inv h1
    obtain ⟨u1', h3, h4⟩ := hr u inv (Rows.refl u)
    rw [h1] at h3; cases h3
    intro g hm
    rcases List.mem_cons.1 hm with rfl | hm
    · exact ⟨rows, fun x ix hx => hr x ix (hu.symm.trans hx)⟩
    · exact ih inv1 (hu.trans (rows_inserted h4)) (fun g hm => hg g (by simp [hm])) h2 g hm

theorem run_gives {R : MOp → List Data} (gs : List MOp) : ∀ {u : Mgr}, u.Inv → Rows w u → (∀ g ∈ gs, Gives w g (R g)) →
    ∃ u', MOp.run u gs = .ok u' ∧ Inserted u u' (gs.flatMap R) := by
  induction gs with
  | nil => intro u _ _ _; exact ⟨u, rfl, Inserted.nil u⟩
  | cons op gs ih =>
    intro u inv hu hg
    obtain ⟨u1, h1, h2⟩ := hg op (by simp) u inv hu
    obtain ⟨u2, h3, h4⟩ := ih (MOp.apply_inv inv h1) (hu.trans (rows_inserted h2)) fun g hm => hg g (by simp [hm])
    exact ⟨u2, Out.bind_eq_ok.2 ⟨u1, h1, h3⟩, h2.trans h4⟩

end

theorem stored_perm {w v v' : Mgr} {rows rows' : List Data} (h : Inserted w v rows) (h' : Inserted w v' rows') (hp : rows.Perm rows')
    (hn : NoRowClash rows) (d : Data) : Stored v' d ↔ Stored v d := by
  have e : v.log = w.log ++ rows := by rw [h]
  have e' : v'.log = w.log ++ rows' := by rw [h']
  unfold Stored
  rw [survivors_mem, survivors_mem, e, e', List.filter_append, List.filter_append]
  have hpf := hp.filter (fun e => decide (rowKey dataKeys e = rowKey dataKeys d))
  generalize hA : rows.filter (fun e => decide (rowKey dataKeys e = rowKey dataKeys d)) = A at hpf ⊢
  generalize hB : rows'.filter (fun e => decide (rowKey dataKeys e = rowKey dataKeys d)) = B at hpf ⊢
  cases A with
  | nil => rw [List.nil_perm.1 hpf]
  | cons a A =>
    have mem : ∀ x ∈ B, x = a := fun x hx => by
      have h1 : x ∈ a :: A := hpf.mem_iff.2 hx
      have h2 : a ∈ a :: A := List.mem_cons_self
      rw [← hA] at h1 h2
      simp only [List.mem_filter, decide_eq_true_eq] at h1 h2
      exact hn x h1.1 a h2.1 (h1.2.trans h2.2.symm)
    have mem' : ∀ x ∈ a :: A, x = a := fun x hx => mem x (hpf.mem_iff.1 hx)
    have last : ∀ {l l' : List Data}, l' ≠ [] → (∀ x ∈ l', x = a) → (l ++ l').getLast? = some a := by
      intro l l' hne hall
      rw [List.getLast?_append]
      have : l'.getLast? = some (l'.getLast hne) := List.getLast?_eq_some_getLast hne
      rw [this, hall _ (List.getLast_mem hne)]
      rfl
    have hB0 : B ≠ [] := by rintro rfl; exact absurd hpf.symm.nil_eq (by simp)
    rw [last hB0 mem, last (by simp) mem']

section
variable {w v : Mgr} (hr : Rows w v) (hs : ∀ d, Stored v d ↔ Stored w d)
include hr hs

theorem decides_rows {p : Str} {c : Val} {r : Request} : Decides v p c r ↔ Decides w p c r := by
  have e1 : v.roles = w.roles := (known_rows hr).2.1
  have e2 : v.heap = w.heap := by rw [hr]
  unfold Decides Grants ActGrants RoleRow
  simp only [hs, e1, e2]

omit hs in
theorem resources_rows {r : Request} : Resources v r ↔ Resources w r := by
  rw [hr]; exact Iff.rfl

theorem allowedIn_rows {p : Str} {r : Request} {S : Str → Prop} : AllowedIn v p r S ↔ AllowedIn w p r S := by
  unfold AllowedIn
  simp only [decides_rows hr hs, resources_rows hr, (known_rows hr).1]

omit hs in
theorem under_rows {a x : Str} : Under v a x ↔ Under w a x := by rw [hr]; exact Iff.rfl

theorem may_rows {p x : Str} : MayInclude v p x ↔ MayInclude w p x := by
  unfold MayInclude MayComeFirst Member
  simp only [hs, under_rows hr]

theorem must_rows {p x : Str} : MustInclude v p x ↔ MustInclude w p x := by
  unfold MustInclude MayComeFirst Member
  simp only [hs, under_rows hr]

theorem settled_rows {p : Str} {r : Request} : SettledAnswer v p r ↔ SettledAnswer w p r := by
  have e1 : v.pcache = w.pcache := by rw [hr]
  have e2 : LinksRegistered v ↔ LinksRegistered w := by rw [hr]; exact Iff.rfl
  have e3 : Mgr.HierFresh v ↔ Mgr.HierFresh w := by
    unfold Mgr.HierFresh
    simp only [under_rows hr]
    rw [hr]
  have e4 : MayInclude v p = MayInclude w p := funext fun x => propext (may_rows hr hs)
  have e5 : MustInclude v p = MustInclude w p := funext fun x => propext (must_rows hr hs)
  unfold SettledAnswer
  rw [e1, e2, e3, e4, e5, allowedIn_rows hr hs, allowedIn_rows hr hs]

end

/-- Two states with the same stored rows, equal in all else, answer alike. -/
theorem same_answer {w v w' v' : Mgr} (invw : w.Inv) (invv : v.Inv) (hr : Rows w v) (hs : ∀ d, Stored v d ↔ Stored w d) {p : Str} {opts : List Opt}
    (st : SettledAnswer w p (requestOf opts)) {o o' : Ord} {fuel fuel' : Nat} {site site' : List Val} {b b' : Bool}
    (hb : w.authorize o fuel site p opts = .ok (b, w')) (hb' : v.authorize o' fuel' site' p opts = .ok (b', v')) : b = b' := by
  by_cases hp : ∃ x, (p, x) ∈ w.principals
  · have hp' : ∃ x, (p, x) ∈ v.principals := by rw [(known_rows hr).1]; exact hp
    obtain ⟨I, h1, h2⟩ := authorize_allowed invw hp hb
    obtain ⟨J, h3, h4⟩ := authorize_allowed invv hp' hb'
    rw [allowedIn_iff fun x => Iff.rfl] at h2 h4
    rw [allowedIn_rows hr hs] at h4
    have e1 : v.pcache = w.pcache := by rw [hr]
    cases hc : w.pcache.get p with
    | some K =>
      have k1 := ((Mgr.implicitTenants_inv invw h1).2.2.2.2 K hc).1
      have k2 := ((Mgr.implicitTenants_inv invv h3).2.2.2.2 K (by rw [e1]; exact hc)).1
      subst k1; subst k2
      rw [Bool.eq_iff_iff, h2, h4]
    | none =>
      have st' := (settled_rows hr hs).2 st
      rcases st with ⟨I', hI⟩ | ⟨a1, a2, a3⟩
      · rw [hc] at hI; cases hI
      rcases st' with ⟨I', hI⟩ | ⟨c1, c2, c3⟩
      · rw [e1, hc] at hI; cases hI
      have hcv : v.pcache.get p = none := by rw [e1]; exact hc
      rw [Bool.eq_iff_iff, h2, h4]
      constructor
      · intro g
        have := a3 (g.mono fun x hx => include_may invw a1 a2 hc h1 hx)
        exact this.mono fun x hx => must_include invv c1 c2 hcv h3 ((must_rows hr hs).2 hx)
      · intro g
        have := a3 (g.mono fun x hx => (may_rows hr hs).1 (include_may invv c1 c2 hcv h3 hx))
        exact this.mono fun x hx => must_include invw a1 a2 hc h1 hx
  · have hp' : ¬ ∃ x, (p, x) ∈ v.principals := by rw [(known_rows hr).1]; exact hp
    have key : ∀ {u u' : Mgr} {o : Ord} {fuel : Nat} {site : List Val} {b : Bool}, u.Inv → (¬ ∃ x, (p, x) ∈ u.principals) →
        u.authorize o fuel site p opts = .ok (b, u') → b = false := by
      intro u u' o fuel site b inv hn h
      cases b with
      | false => rfl
      | true =>
        rcases Mgr.authorize_inv h with ⟨_, e, _⟩ | ⟨hx, _⟩
        · exact e
        · cases hg : u.principals.get p with
          | none => exact absurd hg hx
          | some x => exact absurd ⟨x, (GoMap.mem_iff_get inv.regP).2 hg⟩ hn
    rw [key invw hp hb, key invv hp' hb']

end GrantOrder

open GrantOrder

/-- C149. A block of grants made in another order goes through if the block does, and stores the same rows in another
order; nothing else differs. -/
theorem C149_state {w v : Mgr} (inv : w.Inv) {gs gs' : List MOp} (hg : ∀ g ∈ gs, isGrant g = true) (hp : gs.Perm gs')
    (h : MOp.run w gs = .ok v) :
    ∃ v' rows rows', MOp.run w gs' = .ok v' ∧ Inserted w v rows ∧ Inserted w v' rows' ∧ rows.Perm rows' := by
  classical
  have key := all_give gs inv (Rows.refl w) hg h
  let R : MOp → List Data := fun g => if hx : ∃ rows, Gives w g rows then Classical.choose hx else []
  have hR : ∀ g ∈ gs, Gives w g (R g) := fun g hm => by
    have hx := key g hm
    simp only [R, dif_pos hx]
    exact Classical.choose_spec hx
  obtain ⟨u, h1, h2⟩ := run_gives (R := R) gs inv (Rows.refl w) hR
  obtain ⟨u', h3, h4⟩ := run_gives (R := R) gs' inv (Rows.refl w) fun g hm => hR g (hp.mem_iff.2 hm)
  rw [h] at h1; cases h1
  exact ⟨u', _, _, h3, h2, h4, hp.flatMap_right R⟩

/-- C149 as intended: the order of a block of grants does not change any answer. -/
def C149_full : Prop := ∀ (ops gs gs' : List MOp) (w v v' v1 v1' : Mgr) (p : Str) (opts : List Opt) (o o' : Ord) (fuel fuel' : Nat)
    (site site' : List Val) (b b' : Bool), MOp.run {} ops = .ok w → (∀ g ∈ gs, isGrant g = true) → gs.Perm gs' →
  MOp.run w gs = .ok v → MOp.run w gs' = .ok v' → SettledAnswer v p (requestOf opts) → SettledAnswer v' p (requestOf opts) →
  v.authorize o fuel site p opts = .ok (b, v1) → v'.authorize o' fuel' site' p opts = .ok (b', v1') → b = b'

/-- C149, partial: it does not if no two rows of the block take each other's place.  Missing: blocks with such rows (see
the counterexample). -/
theorem C149_partial {w v v' v1 v1' : Mgr} (inv : w.Inv) {gs gs' : List MOp} (hg : ∀ g ∈ gs, isGrant g = true) (hp : gs.Perm gs')
    (h : MOp.run w gs = .ok v) (h' : MOp.run w gs' = .ok v') {rows : List Data} (hr : Inserted w v rows) (hn : NoRowClash rows)
    {p : Str} {opts : List Opt} (st : SettledAnswer v p (requestOf opts)) {o o' : Ord} {fuel fuel' : Nat} {site site' : List Val} {b b' : Bool}
    (hb : v.authorize o fuel site p opts = .ok (b, v1)) (hb' : v'.authorize o' fuel' site' p opts = .ok (b', v1')) :
    b = b' ∧ ∀ d, Stored v' d ↔ Stored v d := by
  obtain ⟨v2, rows2, rows', h1, h2, h3, h4⟩ := C149_state inv hg hp h
  rw [h'] at h1; cases h1
  have : rows2 = rows := by
    have e1 : v.log = w.log ++ rows2 := by rw [h2]
    have e2 : v.log = w.log ++ rows := by rw [hr]
    exact List.append_cancel_left (e1.symm.trans e2)
  subst this
  have hs := stored_perm h2 h3 h4 hn
  exact ⟨same_answer (MOp.run_inv inv h) (MOp.run_inv inv h') ((rows_inserted h2).symm.trans (rows_inserted h3)) hs st hb hb', hs⟩

/-- C149. Rows with texts in the same fields do not take each other's place unless they are equal: a block clashes only
if two of its rows have one id in different fields. -/
theorem C149_same_fields {a b : Data} (ht : a.tenant = .nil ↔ b.tenant = .nil) (hn : a.namespace_ = .nil ↔ b.namespace_ = .nil)
    (hs : a.scope = .nil ↔ b.scope = .nil) (hp : a.principal = .nil ↔ b.principal = .nil) (hr : a.role = .nil ↔ b.role = .nil)
    (hm : a.manage = .nil ↔ b.manage = .nil) (h : rowKey dataKeys a = rowKey dataKeys b) : a = b := by
  cases a with
  | mk a1 a2 a3 a4 a5 a6 =>
  cases b with
  | mk b1 b2 b3 b4 b5 b6 =>
  simp only at ht hn hs hp hr hm
  have step : ∀ {x y : Val} {l m : List Val}, (x = .nil ↔ y = .nil) →
      (x :: l).filter (fun k => decide (k ≠ Val.nil)) = (y :: m).filter (fun k => decide (k ≠ Val.nil)) →
      x = y ∧ l.filter (fun k => decide (k ≠ Val.nil)) = m.filter (fun k => decide (k ≠ Val.nil)) := by
    intro x y l m hxy e
    by_cases hx : x = .nil
    · have hy := hxy.1 hx
      subst hx; subst hy
      exact ⟨rfl, by simpa using e⟩
    · have hy : y ≠ .nil := fun hy => hx (hxy.2 hy)
      rw [List.filter_cons_of_pos (by simpa using hx), List.filter_cons_of_pos (by simpa using hy)] at e
      exact List.cons.inj e
  obtain ⟨rfl, h⟩ := step ht h
  obtain ⟨rfl, h⟩ := step hn h
  obtain ⟨rfl, h⟩ := step hs h
  obtain ⟨rfl, h⟩ := step hp h
  obtain ⟨rfl, h⟩ := step hr h
  obtain ⟨rfl, _⟩ := step hm h
  rfl

/-- Principal p of tenant a has been asked about; n is the id of a namespace and of a scope. -/
def exTwoKinds : List MOp := exSingle ++ [.addNamespace (str "n") 0, .addScope (str "n") 0, .authorize .fwd 9 [] (str "p") [.tenant (.str (str "a"))]]

/-- C149. Whether tenant a has namespace n or scope n depends on which was added last. -/
theorem C149_counterexample : ∃ w v v', MOp.run {} exTwoKinds = .ok w ∧
    MOp.run w [.tAddNamespace 0 (str "n"), .tAddScope 0 (str "n")] = .ok v ∧
    MOp.run w [.tAddScope 0 (str "n"), .tAddNamespace 0 (str "n")] = .ok v' ∧
    v.pcache.get (str "p") = some [str "a"] ∧ v'.pcache.get (str "p") = some [str "a"] ∧
    (v.authorize .fwd 9 [] (str "p") [.tenant (.str (str "a")), .namespace_ (.str (str "n"))]).map (·.1) = .ok false ∧
    (v'.authorize .fwd 9 [] (str "p") [.tenant (.str (str "a")), .namespace_ (.str (str "n"))]).map (·.1) = .ok true := by
  obtain ⟨w, h, h1, h2⟩ := Out.chk_ok (x := MOp.run {} exTwoKinds) (P := fun w =>
    (MOp.run w [.tAddNamespace 0 (str "n"), .tAddScope 0 (str "n")]).bind (fun v => (v.authorize .fwd 9 [] (str "p")
      [.tenant (.str (str "a")), .namespace_ (.str (str "n"))]).map fun x => (x.1, v.pcache.get (str "p"))) = .ok (false, some [str "a"]) ∧
    (MOp.run w [.tAddScope 0 (str "n"), .tAddNamespace 0 (str "n")]).bind (fun v => (v.authorize .fwd 9 [] (str "p")
      [.tenant (.str (str "a")), .namespace_ (.str (str "n"))]).map fun x => (x.1, v.pcache.get (str "p"))) = .ok (true, some [str "a"])) (by decide +kernel)
  obtain ⟨v, g1, g2⟩ := Out.bind_eq_ok.1 h1
  obtain ⟨v', g3, g4⟩ := Out.bind_eq_ok.1 h2
  obtain ⟨x, g5, g6⟩ := Out.map_eq_ok.1 g2
  obtain ⟨y, g7, g8⟩ := Out.map_eq_ok.1 g4
  obtain ⟨i1, i2⟩ := Prod.mk.inj g6
  obtain ⟨j1, j2⟩ := Prod.mk.inj g8
  exact ⟨w, v, v', h, g1, g3, i2, j2, by rw [g5]; exact congrArg _ i1, by rw [g7]; exact congrArg _ j1⟩

/-- C149. So the intended property fails. -/
theorem C149_full_false : ¬ C149_full := by
  intro hf
  obtain ⟨w, v, v', h1, h2, h3, h4, h5, h6, h7⟩ := C149_counterexample
  obtain ⟨⟨b, x⟩, h8, h9⟩ := Out.map_eq_ok.1 h6
  obtain ⟨⟨b', y⟩, h10, h11⟩ := Out.map_eq_ok.1 h7
  simp only at h9 h11
  subst h9; subst h11
  cases hf _ _ _ _ _ _ _ _ _ _ .fwd .fwd 9 9 [] [] _ _ h1 (fun g hg => by
    simp only [List.mem_cons, List.not_mem_nil, or_false] at hg
    rcases hg with rfl | rfl <;> rfl) (List.Perm.swap _ _ _) h2 h3 (.inl ⟨_, h4⟩) (.inl ⟨_, h5⟩) h8 h10

/-- C149. The default namespace is another matter: set before the grant it is granted too, set after it is not. -/
theorem C149_default : ∃ w w', 
    MOp.run {} (exSingle.take 5 ++ [.addNamespace (str "n") 0, .tSetDefaultNamespace 0 (str "n"), .tAddPrincipalWithRole 0 (str "p") (str "r") false]) = .ok w ∧
    MOp.run {} (exSingle.take 5 ++ [.addNamespace (str "n") 0, .tAddPrincipalWithRole 0 (str "p") (str "r") false, .tSetDefaultNamespace 0 (str "n")]) = .ok w' ∧
    (w.authorize .fwd 9 [] (str "p") [.tenant (.str (str "a")), .namespace_ (.str (str "n"))]).map (·.1) = .ok true ∧
    (w'.authorize .fwd 9 [] (str "p") [.tenant (.str (str "a")), .namespace_ (.str (str "n"))]).map (·.1) = .ok false := by
  obtain ⟨w, h1, h2⟩ : ∃ w, MOp.run {} (exSingle.take 5 ++ [.addNamespace (str "n") 0, .tSetDefaultNamespace 0 (str "n"),
      .tAddPrincipalWithRole 0 (str "p") (str "r") false]) = .ok w ∧
    (w.authorize .fwd 9 [] (str "p") [.tenant (.str (str "a")), .namespace_ (.str (str "n"))]).map (·.1) = .ok true := Out.chk_ok (by decide +kernel)
  obtain ⟨w', h3, h4⟩ : ∃ w, MOp.run {} (exSingle.take 5 ++ [.addNamespace (str "n") 0, .tAddPrincipalWithRole 0 (str "p") (str "r") false,
      .tSetDefaultNamespace 0 (str "n")]) = .ok w ∧
    (w.authorize .fwd 9 [] (str "p") [.tenant (.str (str "a")), .namespace_ (.str (str "n"))]).map (·.1) = .ok false := Out.chk_ok (by decide +kernel)
  exact ⟨w, w', h1, h3, h2, h4⟩

set_option synthInstance.maxHeartbeats 400000 in
set_option synthInstance.maxSize 2000 in
/-- A block as in `C149_partial`: the rows do not clash, the answer in the new namespace is yes in both orders. -/
example : ∃ w v v', MOp.run {} exTwoKinds = .ok w ∧
    MOp.run w [.tAddNamespace 0 (str "n"), .tAddPrincipal 0 (str "p") true [str "r", str "x"], .tAddScope 0 (str "s")] = .ok v ∧
    MOp.run w [.tAddScope 0 (str "s"), .tAddPrincipal 0 (str "p") true [str "r", str "x"], .tAddNamespace 0 (str "n")] = .ok v' ∧
    Inserted w v [{ tenant := .str (str "a"), namespace_ := .str (str "n") },
      { tenant := .str (str "a"), principal := .str (str "p"), role := .str (str "r"), manage := .bool true },
      { tenant := .str (str "a"), scope := .str (str "s") }] ∧
    NoRowClash [{ tenant := .str (str "a"), namespace_ := .str (str "n") },
      { tenant := .str (str "a"), principal := .str (str "p"), role := .str (str "r"), manage := .bool true },
      { tenant := .str (str "a"), scope := .str (str "s") }] ∧
    SettledAnswer v (str "p") (requestOf [.tenant (.str (str "a")), .namespace_ (.str (str "n"))]) ∧
    (v.authorize .fwd 9 [] (str "p") [.tenant (.str (str "a")), .namespace_ (.str (str "n"))]).map (·.1) = .ok true ∧
    (v'.authorize .fwd 9 [] (str "p") [.tenant (.str (str "a")), .namespace_ (.str (str "n"))]).map (·.1) = .ok true := by
  obtain ⟨w, h, h1, h2⟩ := Out.chk_ok (x := MOp.run {} exTwoKinds) (P := fun w =>
    (MOp.run w [.tAddNamespace 0 (str "n"), .tAddPrincipal 0 (str "p") true [str "r", str "x"], .tAddScope 0 (str "s")]).bind (fun v =>
      (v.authorize .fwd 9 [] (str "p") [.tenant (.str (str "a")), .namespace_ (.str (str "n"))]).map fun x => (x.1, v.pcache.get (str "p"),
      decide (v.log = w.log ++ [{ tenant := .str (str "a"), namespace_ := .str (str "n") },
        { tenant := .str (str "a"), principal := .str (str "p"), role := .str (str "r"), manage := .bool true },
        { tenant := .str (str "a"), scope := .str (str "s") }]))) = .ok (true, some [str "a"], true) ∧
    (MOp.run w [.tAddScope 0 (str "s"), .tAddPrincipal 0 (str "p") true [str "r", str "x"], .tAddNamespace 0 (str "n")]).bind (fun v =>
      (v.authorize .fwd 9 [] (str "p") [.tenant (.str (str "a")), .namespace_ (.str (str "n"))]).map (·.1)) = .ok true) (by decide +kernel)
  obtain ⟨v, g1, g2⟩ := Out.bind_eq_ok.1 h1
  obtain ⟨v', g3, g4⟩ := Out.bind_eq_ok.1 h2
  obtain ⟨x, g5, g6⟩ := Out.map_eq_ok.1 g2
  obtain ⟨i1, i2⟩ := Prod.mk.inj g6
  obtain ⟨i2, i3⟩ := Prod.mk.inj i2
  obtain ⟨_, rows, _, _, k1, _⟩ := C149_state (MOp.reachable_inv h) (fun g hg => by
    simp only [List.mem_cons, List.not_mem_nil, or_false] at hg
    rcases hg with rfl | rfl | rfl <;> rfl) (List.Perm.refl _) g1
  have : v.log = w.log ++ rows := by rw [k1]
  have := List.append_cancel_left (this.symm.trans (of_decide_eq_true i3))
  subst this
  refine ⟨w, v, v', h, g1, g3, k1, ?_, .inl ⟨_, i2⟩, by rw [g5]; exact congrArg _ i1, g4⟩
  unfold NoRowClash
  decide

end Verif
