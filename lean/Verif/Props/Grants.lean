import Verif.Props.Authorize

/-!
# Root manager: effect of the grant calls, C32, C35
-/

namespace Verif
open Spec

/-! ## C35 -/

/-- An id is registered. -/
def IsKnown (m : GoMap Str Nat) (id : Str) : Prop := ∃ x, (id, x) ∈ m

theorem isKnown_iff {m : GoMap Str Nat} {id : Str} : IsKnown m id ↔ (m.get id).isSome := by
  rw [GoMap.get_isSome_iff, IsKnown, List.mem_map]
  constructor
  · rintro ⟨x, hx⟩; exact ⟨_, hx, rfl⟩
  · rintro ⟨⟨k, x⟩, hx, rfl⟩; exact ⟨x, hx⟩

/-- The rows one role grant adds: one for the tenant, one more for its default namespace. -/
def roleRows (t : TenantObj) (p : Str) (manage : Bool) (r : Str) : List Data :=
  { tenant := .str t.id, principal := .str p, role := .str r, manage := .bool manage } ::
  (match t.defNs with
   | none => []
   | some n => [{ tenant := .str t.id, namespace_ := .str n, principal := .str p, role := .str r, manage := .bool manage }])

/-- The rows one scope grant adds. -/
def scopeRows (t : TenantObj) (p : Str) (manage : Bool) (s : Str) : List Data :=
  { tenant := .str t.id, scope := .str s, principal := .str p, manage := .bool manage } ::
  (match t.defNs with
   | none => []
   | some n => [{ tenant := .str t.id, namespace_ := .str n, scope := .str s, principal := .str p, manage := .bool manage }])

/-- `w'` is `w` with `rows` inserted and nothing else changed. -/
def Inserted (w w' : Mgr) (rows : List Data) : Prop :=
  w' = { w with trie := w'.trie, log := w.log ++ rows }

theorem Inserted.nil (w : Mgr) : Inserted w w [] := by simp [Inserted]

theorem Inserted.trans {a b c : Mgr} {l1 l2 : List Data} (h1 : Inserted a b l1) (h2 : Inserted b c l2) :
    Inserted a c (l1 ++ l2) := by
  unfold Inserted at *
  rw [h2, h1]; simp

theorem Inserted.one {w : Mgr} (inv : w.Inv) (d : Data) : ∃ w', w.addData d = .ok w' ∧ Inserted w w' [d] := by
  obtain ⟨t, h, _⟩ := Mgr.addData_eq inv d
  exact ⟨_, h, rfl⟩

/-- C35. `AddPrincipalWithRole` on a registered tenant always returns. It fails without any effect for an
unknown principal or role, otherwise it adds exactly its one or two rows. -/
theorem C35_addPrincipalWithRole {w : Mgr} (inv : w.Inv) {c : Nat} {t : TenantObj} (hc : w.tobjs[c]? = some t)
    (hm : t.managed = true) (p r : Str) (m : Bool) :
    ∃ e w', w.tAddPrincipalWithRole c p r m = .ok (e, w') ∧
      (e = some .noPrincipal ↔ ¬ IsKnown w.principals p) ∧
      (e = some .noRole ↔ IsKnown w.principals p ∧ ¬ IsKnown w.roles r) ∧
      (e = none ↔ IsKnown w.principals p ∧ IsKnown w.roles r) ∧
      (e ≠ none → w' = w) ∧
      (e = none → Inserted w w' (roleRows t p m r)) := by
  rw [Mgr.tAddPrincipalWithRole, Mgr.withTenant, hc]
  simp only [hm, if_true, isKnown_iff]
  cases hp : w.principals.get p with
  | none => exact ⟨_, _, rfl, by simp, by simp, by simp, by simp, by simp⟩
  | some x =>
    cases hr : w.roles.get r with
    | none => exact ⟨_, _, rfl, by simp, by simp, by simp, by simp, by simp⟩
    | some y =>
      simp only [Option.isNone_some, Bool.false_eq_true, if_false]
      obtain ⟨w1, h1, i1⟩ := Inserted.one inv { tenant := .str t.id, principal := .str p, role := .str r, manage := .bool m }
      rw [h1, Out.bind_ok]
      cases hd : t.defNs with
      | none =>
        refine ⟨_, _, rfl, by simp, by simp, by simp, by simp, fun _ => ?_⟩
        simp only [roleRows, hd]; exact i1
      | some n =>
        obtain ⟨w2, h2, i2⟩ := Inserted.one (inv.addData h1) { tenant := .str t.id, namespace_ := .str n, principal := .str p, role := .str r, manage := .bool m }
        simp only
        rw [h2]
        refine ⟨_, _, rfl, by simp, by simp, by simp, by simp, fun _ => ?_⟩
        simp only [roleRows, hd]; exact i1.trans i2

/-- C35. The same for `AddScopeToPrincipal`. -/
theorem C35_addScopeToPrincipal {w : Mgr} (inv : w.Inv) {c : Nat} {t : TenantObj} (hc : w.tobjs[c]? = some t)
    (hm : t.managed = true) (p s : Str) (m : Bool) :
    ∃ e w', w.tAddScopeToPrincipal c p s m = .ok (e, w') ∧
      (e = some .noPrincipal ↔ ¬ IsKnown w.principals p) ∧
      (e = some .noScope ↔ IsKnown w.principals p ∧ ¬ IsKnown w.scopes s) ∧
      (e = none ↔ IsKnown w.principals p ∧ IsKnown w.scopes s) ∧
      (e ≠ none → w' = w) ∧
      (e = none → Inserted w w' (scopeRows t p m s)) := by
  rw [Mgr.tAddScopeToPrincipal, Mgr.withTenant, hc]
  simp only [hm, if_true, isKnown_iff]
  cases hp : w.principals.get p with
  | none => exact ⟨_, _, rfl, by simp, by simp, by simp, by simp, by simp⟩
  | some x =>
    cases hr : w.scopes.get s with
    | none => exact ⟨_, _, rfl, by simp, by simp, by simp, by simp, by simp⟩
    | some y =>
      simp only [Option.isNone_some, Bool.false_eq_true, if_false]
      obtain ⟨w1, h1, i1⟩ := Inserted.one inv { tenant := .str t.id, scope := .str s, principal := .str p, manage := .bool m }
      rw [h1, Out.bind_ok]
      cases hd : t.defNs with
      | none =>
        refine ⟨_, _, rfl, by simp, by simp, by simp, by simp, fun _ => ?_⟩
        simp only [scopeRows, hd]; exact i1
      | some n =>
        obtain ⟨w2, h2, i2⟩ := Inserted.one (inv.addData h1) { tenant := .str t.id, namespace_ := .str n, scope := .str s, principal := .str p, manage := .bool m }
        simp only
        rw [h2]
        refine ⟨_, _, rfl, by simp, by simp, by simp, by simp, fun _ => ?_⟩
        simp only [scopeRows, hd]; exact i1.trans i2

/-- C35. `AddPrincipal(p, manage, rs...)` on a registered tenant always returns; it applies exactly the
grants before the first failing one and reports that one's error. -/
theorem C35_addPrincipal {w : Mgr} (inv : w.Inv) {c : Nat} {t : TenantObj} (hc : w.tobjs[c]? = some t)
    (hm : t.managed = true) (p : Str) (m : Bool) (rs : List Str) :
    ∃ e w' pre post, w.tAddPrincipal c p m rs = .ok (e, w') ∧ rs = pre ++ post ∧
      (∀ r ∈ pre, IsKnown w.principals p ∧ IsKnown w.roles r) ∧
      (∀ r, post.head? = some r → ¬ (IsKnown w.principals p ∧ IsKnown w.roles r)) ∧
      (e = none ↔ post = []) ∧
      (e = some .noPrincipal ↔ post ≠ [] ∧ ¬ IsKnown w.principals p) ∧
      (e = some .noRole ↔ post ≠ [] ∧ IsKnown w.principals p) ∧
      Inserted w w' (pre.flatMap (roleRows t p m)) := by
  induction rs generalizing w with
  | nil => exact ⟨none, w, [], [], rfl, rfl, by simp, by simp, by simp, by simp, by simp, Inserted.nil w⟩
  | cons r rs ih =>
    obtain ⟨e1, w1, h1, a1, a2, a3, a4, a5⟩ := C35_addPrincipalWithRole inv hc hm p r m
    rw [Mgr.tAddPrincipal, h1, Out.bind_ok]
    cases e1 with
    | some e =>
      refine ⟨some e, w1, [], r :: rs, rfl, rfl, by simp, ?_, by simp, ?_, ?_, ?_⟩
      · intro x hx hk
        simp only [List.head?_cons, Option.some.injEq] at hx; subst hx
        exact absurd (a3.2 hk) (by simp)
      · rw [a1]; simp
      · rw [a2]; simp only [ne_eq, reduceCtorEq, not_false_eq_true, true_and]
        exact ⟨fun h => h.1, fun h => ⟨h, fun h' => absurd (a3.2 ⟨h, h'⟩) (by simp)⟩⟩
      · rw [a4 (by simp)]; exact Inserted.nil w
    | none =>
      have i1 := a5 rfl
      have inv1 : w1.Inv := inv.tAddPrincipalWithRole h1
      have ep : w1.principals = w.principals := by rw [i1]
      have er : w1.roles = w.roles := by rw [i1]
      have et : w1.tobjs = w.tobjs := by rw [i1]
      obtain ⟨e, w', pre, post, b0, b1, b2, b3, b4, b5, b6, b7⟩ := ih inv1 (by rw [et]; exact hc)
      rw [ep, er] at b2 b3
      rw [ep] at b5 b6
      refine ⟨e, w', r :: pre, post, b0, by rw [b1]; rfl, ?_, b3, b4, b5, b6, ?_⟩
      · intro x hx
        rcases List.mem_cons.1 hx with rfl | hx
        · exact a3.1 rfl
        · exact b2 x hx
      · rw [List.flatMap_cons]; exact i1.trans b7

/-- C35. The same for `AssignScopesToPrincipal`. -/
theorem C35_assignScopes {w : Mgr} (inv : w.Inv) {c : Nat} {t : TenantObj} (hc : w.tobjs[c]? = some t)
    (hm : t.managed = true) (p : Str) (m : Bool) (ss : List Str) :
    ∃ e w' pre post, w.tAssignScopes c p m ss = .ok (e, w') ∧ ss = pre ++ post ∧
      (∀ s ∈ pre, IsKnown w.principals p ∧ IsKnown w.scopes s) ∧
      (∀ s, post.head? = some s → ¬ (IsKnown w.principals p ∧ IsKnown w.scopes s)) ∧
      (e = none ↔ post = []) ∧
      (e = some .noPrincipal ↔ post ≠ [] ∧ ¬ IsKnown w.principals p) ∧
      (e = some .noScope ↔ post ≠ [] ∧ IsKnown w.principals p) ∧
      Inserted w w' (pre.flatMap (scopeRows t p m)) := by
  induction ss generalizing w with
  | nil => exact ⟨none, w, [], [], rfl, rfl, by simp, by simp, by simp, by simp, by simp, Inserted.nil w⟩
  | cons r rs ih =>
    obtain ⟨e1, w1, h1, a1, a2, a3, a4, a5⟩ := C35_addScopeToPrincipal inv hc hm p r m
    rw [Mgr.tAssignScopes, h1, Out.bind_ok]
    cases e1 with
    | some e =>
      refine ⟨some e, w1, [], r :: rs, rfl, rfl, by simp, ?_, by simp, ?_, ?_, ?_⟩
      · intro x hx hk
        simp only [List.head?_cons, Option.some.injEq] at hx; subst hx
        exact absurd (a3.2 hk) (by simp)
      · rw [a1]; simp
      · rw [a2]; simp only [ne_eq, reduceCtorEq, not_false_eq_true, true_and]
        exact ⟨fun h => h.1, fun h => ⟨h, fun h' => absurd (a3.2 ⟨h, h'⟩) (by simp)⟩⟩
      · rw [a4 (by simp)]; exact Inserted.nil w
    | none =>
      have i1 := a5 rfl
      have inv1 : w1.Inv := inv.tAddScopeToPrincipal h1
      have ep : w1.principals = w.principals := by rw [i1]
      have er : w1.scopes = w.scopes := by rw [i1]
      have et : w1.tobjs = w.tobjs := by rw [i1]
      obtain ⟨e, w', pre, post, b0, b1, b2, b3, b4, b5, b6, b7⟩ := ih inv1 (by rw [et]; exact hc)
      rw [ep, er] at b2 b3
      rw [ep] at b5 b6
      refine ⟨e, w', r :: pre, post, b0, by rw [b1]; rfl, ?_, b3, b4, b5, b6, ?_⟩
      · intro x hx
        rcases List.mem_cons.1 hx with rfl | hx
        · exact a3.1 rfl
        · exact b2 x hx
      · rw [List.flatMap_cons]; exact i1.trans b7

/-- C35. On a tenant object that was never given to `AddTenant` every grant call panics (nil manager). -/
theorem C35_unmanaged {w : Mgr} {c : Nat} {t : TenantObj} (hc : w.tobjs[c]? = some t) (hm : t.managed = false)
    (p r : Str) (m : Bool) :
    w.tAddPrincipalWithRole c p r m = .panic ∧ w.tAddScopeToPrincipal c p r m = .panic := by
  simp [Mgr.tAddPrincipalWithRole, Mgr.tAddScopeToPrincipal, Mgr.withTenant, hc, hm]

/-- Roles r, bad, s: one grant applied, the error reported, the last one not applied. -/
example : ∃ w, MOp.run {} exSingle = .ok w ∧
    ((w.tAddPrincipal 0 (str "p") true [str "r", str "bad", str "r"]).map (fun x => (x.1, x.2.log.length)) =
      .ok (some .noRole, w.log.length + 1) ∧ (w.tobjs[0]?).map (·.managed) = some true) :=
  Out.chk_ok (by decide +kernel)

/-! ## C32 -/

/-- A tenant object with a manager has its id registered. -/
def ManagedReg (w : Mgr) : Prop := ∀ t ∈ w.tobjs, t.managed = true → ∃ x, w.tenants.get t.id = some x

theorem ManagedReg.frame {w w' : Mgr} (h : ManagedReg w) (f : Frame w w') : ManagedReg w' := by
  intro t ht hm
  obtain ⟨t0, a, b, c⟩ := f.managed t ht hm
  obtain ⟨x, hx⟩ := h t0 a c
  exact ⟨x, by rw [show w'.tenants = w.tenants from f.reg .tenant, ← b]; exact hx⟩

theorem ManagedReg.apply {w w' : Mgr} {op : MOp} (inv : w.Inv) (hw : ManagedReg w) (h : op.apply w = .ok w') :
    ManagedReg w' := by
  by_cases hn : op.attempt w = none
  · by_cases hnt : ∃ id, op = .newTenant id
    · obtain ⟨id, rfl⟩ := hnt
      cases h
      intro t ht hm
      simp only [Mgr.newTenant, List.mem_append, List.mem_singleton] at ht
      rcases ht with ht | rfl
      · exact hw t ht hm
      · cases hm
    · exact hw.frame (frame_of_noattempt inv h hn (fun id e => hnt ⟨id, e⟩))
  · have hT := reg_step inv h .tenant
    have mono : ∀ id x, w.tenants.get id = some x → w'.tenants.get id = some x := by
      intro id x hx
      have hx : (w.reg .tenant).get id = some x := hx
      change (w'.reg .tenant).get id = some x
      rw [hT]
      split
      · split
        · exact Mgr.register_mono _ _ hx
        · exact hx
      · exact hx
    have keep : w'.tobjs = w.tobjs → ManagedReg w' := by
      intro e t ht hm
      rw [e] at ht
      obtain ⟨x, hx⟩ := hw t ht hm
      exact ⟨x, mono _ _ hx⟩
    cases op with
    | addTenant a =>
      obtain ⟨⟨x, w1⟩, h2, rfl⟩ := Out.map_eq_ok.1 h
      cases ha : w.tobjs[a]? with
      | none => simp [MOp.attempt, ha] at hn
      | some t0 =>
        intro t ht hm
        have hreg := (C22_returns w).1 a t0 x w1 ha h2
        have he : w1.tobjs = w.tobjs.set a { t0 with managed := true } := by
          unfold Mgr.addTenant at h2; rw [ha] at h2; cases h2; rfl
        rw [he] at ht
        rcases List.mem_or_eq_of_mem_set ht with ht | rfl
        · obtain ⟨y, hy⟩ := hw t ht hm
          exact ⟨y, mono _ _ hy⟩
        · exact ⟨x, hreg⟩
    | addNamespace id obj => cases h; exact keep rfl
    | addScope id obj => cases h; exact keep rfl
    | addPrincipal id obj => cases h; exact keep rfl
    | addAttribute a obj => cases h; exact keep rfl
    | addRole a =>
      obtain ⟨⟨x, w1⟩, h2, rfl⟩ := Out.map_eq_ok.1 h
      apply keep
      unfold Mgr.addRole at h2
      split at h2
      · cases h2
      · cases h2; rfl
    | addAttributeGroup a =>
      obtain ⟨⟨x, w1⟩, h2, rfl⟩ := Out.map_eq_ok.1 h
      apply keep
      unfold Mgr.addAttributeGroup at h2
      split at h2
      · cases h2
      · cases h2; rfl
    | _ => exact absurd rfl hn

theorem ManagedReg.run {w w' : Mgr} {ops : List MOp} (inv : w.Inv) (hw : ManagedReg w) (h : MOp.run w ops = .ok w') :
    ManagedReg w' := by
  induction ops generalizing w with
  | nil => cases h; exact hw
  | cons op ops ih =>
    rw [MOp.run, Out.bind_eq_ok] at h
    obtain ⟨w1, h1, h2⟩ := h
    exact ih (MOp.apply_inv inv h1) (hw.apply inv h1) h2

/-- C32 as claimed: right after a successful grant a tenant request is authorized. -/
def C32_full : Prop := ∀ (ops : List MOp) (w w1 w2 : Mgr) (c : Nat) (t : TenantObj) (p r : Str) (m : Bool)
  (o : Ord) (fuel : Nat) (site : List Val) (b : Bool),
  MOp.run {} ops = .ok w → w.tobjs[c]? = some t → w.tAddPrincipalWithRole c p r m = .ok (none, w1) →
  w1.authorize o fuel site p [.tenant (.str t.id)] = .ok (b, w2) → b = true

/-- p is registered and asks before the first grant. -/
def exStale : List MOp := [
  .newTenant (str "a"), .addTenant 0, .addPrincipal (str "p") 0,
  .role (.newRole (str "r")), .addRole 0,
  .authorize .fwd 9 [] (str "p") [.tenant (.str (str "a"))]]

/-- C32 is violated: the empty tenant set of the first request stays cached. -/
theorem C32_counterexample : ∃ w, MOp.run {} exStale = .ok w ∧
    ((w.tAddPrincipalWithRole 0 (str "p") (str "r") true).map (·.1) = .ok none ∧
     ((w.tAddPrincipalWithRole 0 (str "p") (str "r") true).bind fun x =>
        x.2.authorize .fwd 9 [] (str "p") [.tenant (.str (str "a"))]).map (·.1) = .ok false ∧
     (w.tobjs[0]?).map (·.id) = some (str "a")) := Out.chk_ok (by decide +kernel)

theorem C32_full_false : ¬ C32_full := by
  intro hf
  obtain ⟨w, h1, h2, h3, h4⟩ := C32_counterexample
  obtain ⟨t, ht, hid⟩ := Option.map_eq_some_iff.1 h4
  obtain ⟨⟨e, w1⟩, h5, h6⟩ := Out.map_eq_ok.1 h2
  cases h6
  rw [h5, Out.bind_ok] at h3
  obtain ⟨⟨b, w2⟩, h7, h8⟩ := Out.map_eq_ok.1 h3
  rw [← hid] at h7
  have := hf exStale w w1 w2 0 t (str "p") (str "r") true .fwd 9 [] b h1 ht h5 h7
  rw [show b = false from h8] at this; cases this

/-- C32. Once an empty tenant set is cached for `p`, every later request of `p` is denied, whatever
grants happen in between. -/
theorem C32_denied_for_ever {w w' : Mgr} (inv : w.Inv) {o : Ord} {fuel : Nat} {site : List Val} {p : Str}
    {opts : List Opt} {b : Bool} (hc : w.pcache.get p = some [])
    (h : w.authorize o fuel site p opts = .ok (b, w')) : b = false ∧ w'.pcache.get p = some [] := by
  have : w' = w := by
    rcases Mgr.authorize_inv h with ⟨e, _⟩ | ⟨_, J, hJ⟩
    · exact e
    · exact ((Mgr.implicitTenants_inv inv hJ).2.2.2.2 [] hc).2
  subst this
  refine ⟨?_, hc⟩
  rw [Bool.eq_false_iff]
  intro hb
  obtain ⟨_, I, h1, h2, _⟩ := (authorize_exact inv h).1 hb
  rw [hc] at h1; cases h1; exact h2 rfl

/-- The granted row is stored after the call. -/
theorem stored_grant {w w' : Mgr} {t : TenantObj} {p r : Str} {m : Bool} (h : Inserted w w' (roleRows t p m r)) :
    Member w' p t.id := by
  refine ⟨{ tenant := .str t.id, principal := .str p, role := .str r, manage := .bool m }, ?_, rfl, rfl⟩
  unfold Stored
  rw [survivors_mem, h]
  simp only [roleRows]
  cases t.defNs with
  | none => simp
  | some n => simp [rowKey, dataKeys]

/-- C32, partial: the tenant request right after a successful grant is authorized, whenever it returns,
if no tenant set is cached for the principal or a non-empty one.
Missing: an empty cached set (false, see `C32_counterexample` and `C32_denied_for_ever`). -/
theorem C32_grant_takes_effect_partial {ops : List MOp} {w w1 w2 : Mgr} {c : Nat} {t : TenantObj} {p r : Str} {m : Bool}
    {o : Ord} {fuel : Nat} {site : List Val} {b : Bool}
    (hrun : MOp.run {} ops = .ok w) (hc : w.tobjs[c]? = some t)
    (hcache : w.pcache.get p ≠ some [])
    (hg : w.tAddPrincipalWithRole c p r m = .ok (none, w1))
    (h : w1.authorize o fuel site p [.tenant (.str t.id)] = .ok (b, w2)) : b = true := by
  have inv := MOp.reachable_inv hrun
  obtain ⟨t', ht', hm, _⟩ := Mgr.withTenant_ok hg
  rw [hc] at ht'; cases ht'
  obtain ⟨e, w1', g1, _, _, g4, _, g6⟩ := C35_addPrincipalWithRole inv hc hm p r m
  rw [hg] at g1; cases g1
  have ins := g6 rfl
  obtain ⟨hkp, _⟩ := g4.1 rfl
  have mem := stored_grant ins
  have inv1 := inv.tAddPrincipalWithRole hg
  have hmr : ManagedReg w := ManagedReg.run Mgr.Inv.empty (by intro t ht; cases ht) hrun
  obtain ⟨x, hx⟩ := hmr t (List.mem_of_getElem? hc) hm
  have ep : w1.principals = w.principals := by rw [ins]
  have et : w1.tenants = w.tenants := by rw [ins]
  have epc : w1.pcache = w.pcache := by rw [ins]
  rw [C29_tenant_only inv1 (t := t.id) rfl rfl rfl rfl h]
  refine ⟨by rw [ep]; exact hkp, ⟨x, by rw [et]; exact GoMap.get_some_mem hx⟩, ?_⟩
  rcases Mgr.authorize_inv h with ⟨_, _, e⟩ | ⟨_, J, hJ⟩
  · rw [ep] at e
    obtain ⟨y, hy⟩ := hkp
    rw [(GoMap.mem_iff_get inv.regP).1 hy] at e; cases e
  · obtain ⟨_, _, cc, _, hit⟩ := Mgr.implicitTenants_inv inv1 hJ
    refine ⟨J, cc, ?_, .inl mem⟩
    cases hq : w.pcache.get p with
    | none => exact List.ne_nil_of_mem ((C24_implicit_sound inv1 (by rw [epc]; exact hq) hJ).1 _ mem)
    | some I =>
      rw [(hit I (by rw [epc]; exact hq)).1]
      intro e; subst e; exact hcache hq

/-- The hypotheses hold for a principal that never asked before. -/
example : ∃ w, MOp.run {} (exStale.dropLast) = .ok w ∧ (w.pcache.get (str "p") ≠ some [] ∧
    ((w.tAddPrincipalWithRole 0 (str "p") (str "r") true).map (·.1) = .ok none) ∧
    ((w.tAddPrincipalWithRole 0 (str "p") (str "r") true).bind fun x =>
        x.2.authorize .fwd 9 [] (str "p") [.tenant (.str (str "a"))]).map (·.1) = .ok true) :=
  Out.chk_ok (by decide +kernel)

end Verif
