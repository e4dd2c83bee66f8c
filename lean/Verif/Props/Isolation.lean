import Verif.Props.Setup

/-!
# Root manager: other principals have no influence on the decisions for a principal (C75)
-/

namespace Verif
open Spec
variable {w w' v v' : Mgr} {o o' : Ord} {fuel fuel' : Nat} {site site' : List Val}

/-- The states have the same registries, tenants and roles, and the same rows of `p` and of no principal.  Nothing
is said about the rows of other principals, the caches, or the order of the rows. -/
structure SameRows (p : Str) (w v : Mgr) : Prop where
  tobjs : v.tobjs = w.tobjs
  tenants : v.tenants = w.tenants
  namespaces : v.namespaces = w.namespaces
  scopes : v.scopes = w.scopes
  principals : v.principals = w.principals
  roles : v.roles = w.roles
  heap : v.heap = w.heap
  rows : ∀ row, ForP p row → (Stored w row ↔ Stored v row)

/-- Requests whose roles are taken from the rows of every principal (C31): an activity, a tenant, and one of
namespace and scope. -/
def Borrows (r : Request) : Prop :=
  HasActivity r ∧ r.tenant ≠ .nil ∧ ((r.namespace_ ≠ .nil ∧ r.scope = .nil) ∨ (r.namespace_ = .nil ∧ r.scope ≠ .nil))

namespace SameRows
variable {p : Str}

theorem refl (p : Str) (w : Mgr) : SameRows p w w := ⟨rfl, rfl, rfl, rfl, rfl, rfl, rfl, fun _ _ => .rfl⟩

theorem symm (h : SameRows p w v) : SameRows p v w :=
  ⟨h.tobjs.symm, h.tenants.symm, h.namespaces.symm, h.scopes.symm, h.principals.symm, h.roles.symm, h.heap.symm,
    fun row hr => (h.rows row hr).symm⟩

theorem trans {z : Mgr} (h : SameRows p w v) (g : SameRows p v z) : SameRows p w z :=
  ⟨g.tobjs.trans h.tobjs, g.tenants.trans h.tenants, g.namespaces.trans h.namespaces, g.scopes.trans h.scopes,
    g.principals.trans h.principals, g.roles.trans h.roles, g.heap.trans h.heap, fun row hr => (h.rows row hr).trans (g.rows row hr)⟩

theorem under (h : SameRows p w v) {a x : Str} : Under v a x ↔ Under w a x := by unfold Under; rw [h.tenants, h.tobjs]

theorem member (h : SameRows p w v) {t : Str} (g : Member w p t) : Member v p t := by
  obtain ⟨row, h1, h2, h3⟩ := g
  exact ⟨row, (h.rows row (.inr h2)).1 h1, h2, h3⟩

theorem manages (h : SameRows p w v) {t : Str} (g : Manages w p t) : Manages v p t := by
  obtain ⟨row, h1, h2, h3⟩ := g
  exact ⟨row, (h.rows row (.inr h2)).1 h1, h2, h3⟩

theorem uniform (h : SameRows p w v) (g : Uniform w p) : Uniform v p := fun t ht row h1 h2 =>
  g t (h.symm.manages ht) row ((h.rows row (.inr h2)).2 h1) h2

theorem links (h : SameRows p w v) (g : LinksRegistered w) : LinksRegistered v := by
  unfold LinksRegistered; rw [h.tobjs, h.tenants]; exact g

theorem resources (h : SameRows p w v) {r : Request} : Resources v r ↔ Resources w r := by
  unfold Resources; rw [h.tenants, h.namespaces, h.scopes]

theorem decides (h : SameRows p w v) {r : Request} (hb : ¬ Borrows r) {c : Val} (g : Decides w p c r) : Decides v p c r := by
  have own : ∀ row, row.principal = .str p → Stored w row → Stored v row := fun row hp => (h.rows row (.inr hp)).1
  have any : ∀ row, ForP p row → Stored w row → Stored v row := fun row hp => (h.rows row hp).1
  have sc : ∀ {c n s row}, ScopeRow p c n s row → ForP p row := fun g => by
    rcases g.2.2 with k | ⟨k, _⟩
    · exact .inr k
    · exact .inl k
  rcases g with ⟨ha, g⟩ | ⟨g, act, e1, e2, row, role, a, h1, h2, h3, h4, h5⟩
  · refine .inl ⟨ha, ?_⟩
    rcases g with ⟨a1, a2, a3, row, b1, b2, b3⟩ | ⟨a1, a2, a3, row, b1, b2, b3⟩ | ⟨a1, a2, a3, row, b1, b2, b3⟩ |
      ⟨a1, a2, a3, row, b1, b2⟩ | ⟨a1, a2, a3, own', row, b1, b2, b3, b4, b5⟩
    · exact .inl ⟨a1, a2, a3, row, own _ b2 b1, b2, b3⟩
    · exact .inr (.inl ⟨a1, a2, a3, row, any _ b2 b1, b2, b3⟩)
    · exact .inr (.inr (.inl ⟨a1, a2, a3, row, any _ b2 b1, b2, b3⟩))
    · exact .inr (.inr (.inr (.inl ⟨a1, a2, a3, row, any _ (sc b2) b1, b2⟩)))
    · exact .inr (.inr (.inr (.inr ⟨a1, a2, a3, own', row, own _ b2 b1, b2, b3, any _ (sc b5) b4, b5⟩)))
  · have ha : HasActivity r := ⟨by rw [e1]; simp, by rw [e2]; simp⟩
    refine .inr ⟨g, act, e1, e2, row, role, a, ?_⟩
    rw [h.roles, h.heap]
    rcases h2 with ⟨a1, a2, a3, _⟩ | ⟨a1, a2, a3, _⟩ | ⟨a1, a2, a3, a4⟩ | ⟨a1, a2, a3, ow, b1, b2, b3, b4⟩
    · exact absurd ⟨ha, a1, .inl ⟨a2, a3⟩⟩ hb
    · exact absurd ⟨ha, a1, .inr ⟨a2, a3⟩⟩ hb
    · exact ⟨own _ a4.1 h1, .inr (.inr (.inl ⟨a1, a2, a3, a4⟩)), h3, h4, h5⟩
    · exact ⟨own _ b4.1 h1, .inr (.inr (.inr ⟨a1, a2, a3, ow, own _ b2 b1, b2, b3, b4⟩)), h3, h4, h5⟩

end SameRows

/-- The tenants of `p` are either cached alike, or computed afresh where C25 applies. -/
def SameCache (p : Str) (w v : Mgr) : Prop :=
  (∃ I, w.pcache.get p = some I ∧ v.pcache.get p = some I) ∨
  (w.pcache.get p = none ∧ v.pcache.get p = none ∧ Uniform w p ∧ LinksRegistered w ∧ Mgr.HierFresh w ∧ Mgr.HierFresh v)

theorem SameCache.tenants {p : Str} (hc : SameCache p w v) (h : SameRows p w v) (inv : w.Inv) (inv' : v.Inv) {opts opts' : List Opt}
    {b b' : Bool} (h1 : w.authorize o fuel site p opts = .ok (b, w')) (h2 : v.authorize o' fuel' site' p opts' = .ok (b', v'))
    {I I' : List Str} (e1 : w'.pcache.get p = some I) (e2 : v'.pcache.get p = some I') (hp : (∃ x, (p, x) ∈ w.principals)) (x : Str) : x ∈ I ↔ x ∈ I' := by
  have hp' : ∃ x, (p, x) ∈ v.principals := by rw [h.principals]; exact hp
  have key : ∀ {z z' : Mgr} {o fuel site opts b J}, z.Inv → (∃ x, (p, x) ∈ z.principals) → z.authorize o fuel site p opts = .ok (b, z') →
      z'.pcache.get p = some J → ∃ o fuel site z'', z.implicitTenants o fuel site p = .ok (J, z'') := by
    intro z z' o fuel site opts b J iz hz hh hJ
    rcases Mgr.authorize_inv hh with ⟨_, _, hn⟩ | ⟨_, K, hK⟩
    · obtain ⟨y, hy⟩ := hz
      rw [(GoMap.mem_iff_get iz.regP).1 hy] at hn
      cases hn
    · obtain ⟨_, _, c, _⟩ := Mgr.implicitTenants_inv iz hK
      rw [hJ] at c; cases c
      exact ⟨_, _, _, _, hK⟩
  obtain ⟨o1, f1, s1, z1, g1⟩ := key inv hp h1 e1
  obtain ⟨o2, f2, s2, z2, g2⟩ := key inv' hp' h2 e2
  rcases hc with ⟨J, k1, k2⟩ | ⟨k1, k2, k3, k4, k5, k6⟩
  · unfold Mgr.implicitTenants at g1 g2
    rw [k1] at g1; rw [k2] at g2
    cases g1; cases g2; exact .rfl
  · rw [C25_implicit_exact_partial inv k3 k4 k5 k1 g1, C25_implicit_exact_partial inv' (h.uniform k3) (h.links k4) k6 k2 g2]
    constructor
    · rintro (m | ⟨a, m1, m2⟩)
      · exact .inl (h.member m)
      · exact .inr ⟨a, h.manages m1, h.under.2 m2⟩
    · rintro (m | ⟨a, m1, m2⟩)
      · exact .inl (h.symm.member m)
      · exact .inr ⟨a, h.symm.manages m1, h.under.1 m2⟩

/-- C75. Two states with the same registries, tenants, roles and rows of a principal (and of no principal), and
the same tenants cached for it, give it the same decision, whatever rows other principals have - except for
requests whose roles are borrowed from the rows of all principals. -/
theorem C75_authorize {p : Str} (inv : w.Inv) (inv' : v.Inv) (h : SameRows p w v) (hc : SameCache p w v) {opts : List Opt}
    (hb : ¬ Borrows (requestOf opts)) {b b' : Bool} (h1 : w.authorize o fuel site p opts = .ok (b, w'))
    (h2 : v.authorize o' fuel' site' p opts = .ok (b', v')) : b = b' := by
  rw [Bool.eq_iff_iff, authorize_exact inv h1, authorize_exact inv' h2, h.principals]
  have pick : ∀ {x y : Mgr} {o fuel site b}, x.Inv → (∃ z, (p, z) ∈ x.principals) → x.authorize o fuel site p opts = .ok (b, y) →
      ∃ I, y.pcache.get p = some I := by
    intro x y o fuel site b ix hx hh
    rcases Mgr.authorize_inv hh with ⟨_, _, hn⟩ | ⟨_, K, hK⟩
    · obtain ⟨z, hz⟩ := hx
      rw [(GoMap.mem_iff_get ix.regP).1 hz] at hn; cases hn
    · exact ⟨K, (Mgr.implicitTenants_inv ix hK).2.2.1⟩
  constructor
  · rintro ⟨hp, I, e1, hne, hr, c, hcI, hd⟩
    obtain ⟨I', e2⟩ := pick inv' (by rw [h.principals]; exact hp) h2
    have hI := hc.tenants h inv inv' h1 h2 e1 e2 hp
    obtain ⟨x, hx⟩ := List.exists_mem_of_ne_nil I hne
    refine ⟨hp, I', e2, List.ne_nil_of_mem ((hI x).1 hx), h.resources.2 hr, c, hcI.imp id ?_, h.decides hb hd⟩
    rintro ⟨t, ht, rfl⟩; exact ⟨t, (hI t).1 ht, rfl⟩
  · rintro ⟨hp, I', e2, hne, hr, c, hcI, hd⟩
    obtain ⟨I, e1⟩ := pick inv hp h1
    have hI := hc.tenants h inv inv' h1 h2 e1 e2 hp
    obtain ⟨x, hx⟩ := List.exists_mem_of_ne_nil I' hne
    refine ⟨hp, I, e1, List.ne_nil_of_mem ((hI x).2 hx), h.resources.1 hr, c, hcI.imp id ?_, h.symm.decides hb hd⟩
    rintro ⟨t, ht, rfl⟩; exact ⟨t, (hI t).2 ht, rfl⟩

/-! ## Histories -/

/-- The call grants to, or decides for, a principal other than `p`. -/
def MOp.Foreign (p : Str) : MOp → Prop
  | .tAddPrincipalWithRole _ q _ _ | .tAddPrincipal _ q _ _ | .tAddScopeToPrincipal _ q _ _ | .tAssignScopes _ q _ _
  | .tAddPrincipalInNamespace _ q _ _ | .implicitTenants _ _ _ q | .authorize _ _ _ q _ => q ≠ p
  | .addData d => ∃ q, d.principal = .str q ∧ q ≠ p
  | _ => False

/-- The tenants of `p` are cached, or C25 applies to computing them. -/
def Settled (p : Str) (w : Mgr) : Prop :=
  w.pcache.get p ≠ none ∨ (Uniform w p ∧ LinksRegistered w ∧ Mgr.HierFresh w)

/-- No row of another principal has the same values in order as a row of `p` or of no principal. -/
def NoClash (p : Str) (w : Mgr) : Prop :=
  ∀ d ∈ w.log, ∀ row ∈ w.log, ¬ ForP p d → ForP p row → rowKey dataKeys d ≠ rowKey dataKeys row

/-- C75 as intended: grants to other principals and decisions for them do not change a decision for `p`. -/
def C75_full : Prop := ∀ (ops ops' : List MOp) (w v w' v' : Mgr) (p : Str) (opts : List Opt) (o o' : Ord) (fuel fuel' : Nat)
  (site site' : List Val) (b b' : Bool), MOp.run {} ops = .ok w → MOp.run w ops' = .ok v → (∀ op ∈ ops', op.Foreign p) →
  Settled p w → w.authorize o fuel site p opts = .ok (b, w') → v.authorize o' fuel' site' p opts = .ok (b', v') → b = b'

/-- The rows are rows of other principals. -/
def Others (p : Str) (rows : List Data) : Prop := ∀ d ∈ rows, ¬ ForP p d

theorem others_of {p q : Str} (hq : q ≠ p) {rows : List Data} (h : ∀ d ∈ rows, d.principal = .str q) : Others p rows := by
  intro d hd
  rintro (h1 | h1) <;> rw [h d hd] at h1
  · cases h1
  · cases h1; exact hq rfl

theorem roleRows_principal {t : TenantObj} {q r : Str} {m : Bool} : ∀ d ∈ roleRows t q m r, d.principal = .str q := by
  intro d hd
  unfold roleRows at hd
  cases hn : t.defNs with
  | none => simp [hn] at hd; rw [hd]
  | some n => simp [hn] at hd; rcases hd with rfl | rfl <;> rfl

theorem scopeRows_principal {t : TenantObj} {q r : Str} {m : Bool} : ∀ d ∈ scopeRows t q m r, d.principal = .str q := by
  intro d hd
  unfold scopeRows at hd
  cases hn : t.defNs with
  | none => simp [hn] at hd; rw [hd]
  | some n => simp [hn] at hd; rcases hd with rfl | rfl <;> rfl

theorem withRole_rows (inv : w.Inv) {c : Nat} {q r : Str} {m : Bool} {e : Option Err}
    (h : w.tAddPrincipalWithRole c q r m = .ok (e, v)) : ∃ rows, Inserted w v rows ∧ ∀ d ∈ rows, d.principal = .str q := by
  obtain ⟨t, ht, hm, _⟩ := Mgr.withTenant_ok h
  obtain ⟨e1, w1, g1, _, _, _, g5, g6⟩ := C35_addPrincipalWithRole inv ht hm q r m
  rw [h] at g1; cases g1
  cases e with
  | none => exact ⟨_, g6 rfl, roleRows_principal⟩
  | some x => rw [g5 (by simp)]; exact ⟨[], .nil w, by simp⟩

theorem toPrincipal_rows (inv : w.Inv) {c : Nat} {q r : Str} {m : Bool} {e : Option Err}
    (h : w.tAddScopeToPrincipal c q r m = .ok (e, v)) : ∃ rows, Inserted w v rows ∧ ∀ d ∈ rows, d.principal = .str q := by
  obtain ⟨t, ht, hm, _⟩ := Mgr.withTenant_ok h
  obtain ⟨e1, w1, g1, _, _, _, g5, g6⟩ := C35_addScopeToPrincipal inv ht hm q r m
  rw [h] at g1; cases g1
  cases e with
  | none => exact ⟨_, g6 rfl, scopeRows_principal⟩
  | some x => rw [g5 (by simp)]; exact ⟨[], .nil w, by simp⟩

theorem addPrincipal_rows {c : Nat} {q : Str} {m : Bool} {rs : List Str} {e : Option Err} (inv : w.Inv)
    (h : w.tAddPrincipal c q m rs = .ok (e, v)) : ∃ rows, Inserted w v rows ∧ ∀ d ∈ rows, d.principal = .str q := by
  induction rs generalizing w with
  | nil => cases h; exact ⟨[], .nil _, by simp⟩
  | cons r rs ih =>
    obtain ⟨⟨e1, w1⟩, h1, h2⟩ := Out.bind_eq_ok.1 h
    obtain ⟨l1, i1, k1⟩ := withRole_rows inv h1
    cases e1 with
    | some x => cases h2; exact ⟨l1, i1, k1⟩
    | none =>
      obtain ⟨l2, i2, k2⟩ := ih (inv.tAddPrincipalWithRole h1) h2
      exact ⟨l1 ++ l2, i1.trans i2, fun d hd => (List.mem_append.1 hd).elim (k1 d) (k2 d)⟩

theorem assignScopes_rows {c : Nat} {q : Str} {m : Bool} {rs : List Str} {e : Option Err} (inv : w.Inv)
    (h : w.tAssignScopes c q m rs = .ok (e, v)) : ∃ rows, Inserted w v rows ∧ ∀ d ∈ rows, d.principal = .str q := by
  induction rs generalizing w with
  | nil => cases h; exact ⟨[], .nil _, by simp⟩
  | cons r rs ih =>
    obtain ⟨⟨e1, w1⟩, h1, h2⟩ := Out.bind_eq_ok.1 h
    obtain ⟨l1, i1, k1⟩ := toPrincipal_rows inv h1
    cases e1 with
    | some x => cases h2; exact ⟨l1, i1, k1⟩
    | none =>
      obtain ⟨l2, i2, k2⟩ := ih (inv.tAddScopeToPrincipal h1) h2
      exact ⟨l1 ++ l2, i1.trans i2, fun d hd => (List.mem_append.1 hd).elim (k1 d) (k2 d)⟩

theorem implicit_keeps {p q : Str} (hq : q ≠ p) (inv : w.Inv) {I : List Str} (h : w.implicitTenants o fuel site q = .ok (I, v)) :
    Mgr.SameBut w v ∧ v.pcache.get p = w.pcache.get p ∧ (Mgr.HierFresh w → Mgr.HierFresh v) := by
  obtain ⟨_, h1, _, h2, _⟩ := Mgr.implicitTenants_inv inv h
  refine ⟨h1, h2 p hq.symm, ?_⟩
  unfold Mgr.implicitTenants at h
  split at h
  · cases h; exact id
  · obtain ⟨⟨E, w1⟩, h3, h4⟩ := Out.map_eq_ok.1 h
    cases h4
    exact (Mgr.implicitLoop_spec inv h3).2.2.2.2.2

/-- The effect of a call about another principal. -/
theorem foreign_step {p : Str} {op : MOp} (inv : w.Inv) (hf : op.Foreign p) (h : op.apply w = .ok v) :
    (∃ rows, Inserted w v rows ∧ Others p rows) ∨
    (Mgr.SameBut w v ∧ v.pcache.get p = w.pcache.get p ∧ (Mgr.HierFresh w → Mgr.HierFresh v)) := by
  cases op with
  | tAddPrincipalWithRole c q r m =>
    obtain ⟨⟨e, x⟩, h1, rfl⟩ := Out.map_eq_ok.1 h
    obtain ⟨rows, i, k⟩ := withRole_rows inv h1
    exact .inl ⟨rows, i, others_of hf k⟩
  | tAddPrincipal c q m rs =>
    obtain ⟨⟨e, x⟩, h1, rfl⟩ := Out.map_eq_ok.1 h
    obtain ⟨rows, i, k⟩ := addPrincipal_rows inv h1
    exact .inl ⟨rows, i, others_of hf k⟩
  | tAddScopeToPrincipal c q s m =>
    obtain ⟨⟨e, x⟩, h1, rfl⟩ := Out.map_eq_ok.1 h
    obtain ⟨rows, i, k⟩ := toPrincipal_rows inv h1
    exact .inl ⟨rows, i, others_of hf k⟩
  | tAssignScopes c q m ss =>
    obtain ⟨⟨e, x⟩, h1, rfl⟩ := Out.map_eq_ok.1 h
    obtain ⟨rows, i, k⟩ := assignScopes_rows inv h1
    exact .inl ⟨rows, i, others_of hf k⟩
  | tAddPrincipalInNamespace c q n r =>
    have h : w.tAddPrincipalInNamespace c q n r = .ok v := h
    obtain ⟨t, ht, hm, _⟩ := Mgr.withTenant_ok h
    obtain ⟨w1, g1, _, g3⟩ := (C72_addPrincipalInNamespace inv ht q n r).1 hm
    rw [h] at g1; cases g1
    exact .inl ⟨_, g3, others_of (q := q) hf (by simp)⟩
  | addData d =>
    obtain ⟨q, hq, hne⟩ := hf
    obtain ⟨w1, g1, g2⟩ := Inserted.one inv d
    have h : w.addData d = .ok v := h
    rw [h] at g1; cases g1
    exact .inl ⟨_, g2, others_of hne (by simpa using hq)⟩
  | implicitTenants o fuel site q =>
    obtain ⟨⟨I, x⟩, h1, rfl⟩ := Out.map_eq_ok.1 h
    exact .inr (implicit_keeps hf inv h1)
  | authorize o fuel site q opts =>
    obtain ⟨⟨b, x⟩, h1, rfl⟩ := Out.map_eq_ok.1 h
    rcases Mgr.authorize_inv h1 with ⟨e, _⟩ | ⟨_, K, hK⟩
    · cases e; exact .inr ⟨.refl _, rfl, id⟩
    · exact .inr (implicit_keeps hf inv hK)
  | _ => cases hf

theorem Inserted.sameRows {p : Str} {rows : List Data} (h : Inserted w v rows) (ho : Others p rows) (hn : NoClash p v) : SameRows p w v := by
  have hl : v.log = w.log ++ rows := by rw [h]
  refine ⟨by rw [h], by rw [h], by rw [h], by rw [h], by rw [h], by rw [h], by rw [h], fun row hrow => ?_⟩
  have key : row ∈ v.log → rows.filter (fun e => rowKey dataKeys e = rowKey dataKeys row) = [] := by
    intro hm
    rw [List.filter_eq_nil_iff]
    intro e he
    have := hn e (by rw [hl]; exact List.mem_append_right _ he) row hm (ho e he) hrow
    simpa using this
  have sub : ∀ {l : List Data}, row ∈ survivors (rowKey dataKeys) l → row ∈ l := fun hs => by
    rw [survivors_mem] at hs
    exact (List.mem_filter.1 (List.mem_of_getLast? hs)).1
  unfold Stored
  constructor
  · intro hs
    have hk := key (by rw [hl]; exact List.mem_append_left _ (sub hs))
    rw [survivors_mem] at hs ⊢
    rw [hl, List.filter_append, hk, List.append_nil]; exact hs
  · intro hs
    have hk := key (sub hs)
    rw [survivors_mem] at hs ⊢
    rwa [hl, List.filter_append, hk, List.append_nil] at hs

theorem sameBut_rows {p : Str} (h : Mgr.SameBut w v) : SameRows p w v :=
  ⟨by rw [h], by rw [h], by rw [h], by rw [h], by rw [h], by rw [h], by rw [h], fun row _ => by unfold Stored; rw [h]⟩

theorem hierFresh_same {p : Str} (h : SameRows p w v) (e : v.hierarchy = w.hierarchy) (hf : Mgr.HierFresh w) : Mgr.HierFresh v := by
  intro a l hl x hx
  exact hf a l (e ▸ hl) x (h.under.1 hx)

theorem foreign_log {p : Str} {ops : List MOp} (inv : w.Inv) (h : MOp.run w ops = .ok v) (hf : ∀ op ∈ ops, op.Foreign p) :
    ∃ rows, v.log = w.log ++ rows := by
  induction ops generalizing w with
  | nil => cases h; exact ⟨[], by simp⟩
  | cons op ops ih =>
    obtain ⟨x, h1, h2⟩ := Out.bind_eq_ok.1 (show (op.apply w).bind (fun x => MOp.run x ops) = .ok v from h)
    obtain ⟨l2, e2⟩ := ih (MOp.apply_inv inv h1) h2 fun op' ho => hf op' (List.mem_cons_of_mem _ ho)
    rcases foreign_step inv (hf op (List.mem_cons_self ..)) h1 with ⟨l1, e1, _⟩ | ⟨e1, _⟩
    · exact ⟨l1 ++ l2, by rw [e2, e1]; simp⟩
    · exact ⟨l2, by rw [e2, e1]⟩

/-- A history about other principals, in the state it leaves. -/
theorem foreign_run {p : Str} {ops : List MOp} (inv : w.Inv) (h : MOp.run w ops = .ok v) (hf : ∀ op ∈ ops, op.Foreign p)
    (hn : NoClash p v) : v.Inv ∧ SameRows p w v ∧ v.pcache.get p = w.pcache.get p ∧ (Mgr.HierFresh w → Mgr.HierFresh v) := by
  induction ops generalizing w with
  | nil => cases h; exact ⟨inv, .refl p _, rfl, id⟩
  | cons op ops ih =>
    obtain ⟨x, h1, h2⟩ := Out.bind_eq_ok.1 (show (op.apply w).bind (fun x => MOp.run x ops) = .ok v from h)
    have invx := MOp.apply_inv inv h1
    have hf' : ∀ op ∈ ops, op.Foreign p := fun op' ho => hf op' (List.mem_cons_of_mem _ ho)
    obtain ⟨a1, a2, a3, a4⟩ := ih invx h2 hf'
    rcases foreign_step inv (hf op (List.mem_cons_self ..)) h1 with ⟨l1, e1, e2⟩ | ⟨e1, e2, e3⟩
    · obtain ⟨l2, k2⟩ := foreign_log invx h2 hf'
      have nx : NoClash p x := fun d hd row hr => hn d (by rw [k2]; exact List.mem_append_left _ hd) row
        (by rw [k2]; exact List.mem_append_left _ hr)
      have s1 := e1.sameRows e2 nx
      exact ⟨a1, s1.trans a2, by rw [a3, e1], fun g => a4 (hierFresh_same s1 (by rw [e1]) g)⟩
    · exact ⟨a1, (sameBut_rows e1).trans a2, a3.trans e2, fun g => a4 (e3 g)⟩

/-- C75. After any grants to other principals and decisions for them, a principal's decisions are what they were,
if no row of another principal has the same values in order as one of its own, and the request is not one whose
roles are borrowed.  Missing: such rows and requests (see the counterexamples). -/
theorem C75_histories_partial {p : Str} {ops : List MOp} (inv : w.Inv) (h : MOp.run w ops = .ok v) (hf : ∀ op ∈ ops, op.Foreign p)
    (hs : Settled p w) (hn : NoClash p v) {opts : List Opt} (hb : ¬ Borrows (requestOf opts)) {b b' : Bool}
    (h1 : w.authorize o fuel site p opts = .ok (b, w')) (h2 : v.authorize o' fuel' site' p opts = .ok (b', v')) : b = b' := by
  obtain ⟨a1, a2, a3, a4⟩ := foreign_run inv h hf hn
  refine C75_authorize inv a1 a2 ?_ hb h1 h2
  cases hc : w.pcache.get p with
  | some I => exact .inl ⟨I, hc, a3.trans hc⟩
  | none =>
    rcases hs with hs | ⟨s1, s2, s3⟩
    · exact absurd hc hs
    · exact .inr ⟨hc, a3.trans hc, s1, s2, s3, a4 s3⟩

instance (p : Str) (d : Data) : Decidable (ForP p d) := inferInstanceAs (Decidable (_ ∨ _))
instance (p : Str) (w : Mgr) : Decidable (NoClash p w) := inferInstanceAs (Decidable (∀ d ∈ w.log, _))
instance (p : Str) : (op : MOp) → Decidable (op.Foreign p)
  | .tAddPrincipalWithRole _ q _ _ | .tAddPrincipal _ q _ _ | .tAddScopeToPrincipal _ q _ _ | .tAssignScopes _ q _ _
  | .tAddPrincipalInNamespace _ q _ _ | .implicitTenants _ _ _ q | .authorize _ _ _ q _ => inferInstanceAs (Decidable (q ≠ p))
  | .addData ⟨_, _, _, .str q, _, _⟩ => if h : q = p then isFalse (by rintro ⟨x, hx, hne⟩; cases hx; exact hne h) else isTrue ⟨q, rfl, h⟩
  | .addData ⟨_, _, _, .nil, _, _⟩ | .addData ⟨_, _, _, .bool _, _, _⟩ | .addData ⟨_, _, _, .int _, _, _⟩ => isFalse (by rintro ⟨x, hx, _⟩; cases hx)
  | .role .. | .newTenant .. | .addTenant .. | .addNamespace .. | .addScope .. | .addPrincipal .. | .addRole .. | .addAttribute ..
  | .addAttributeGroup .. | .tAddNamespace .. | .tAddScopesToNamespace .. | .tSetDefaultNamespace .. | .tAddRole .. | .tAddScope ..
  | .tAddDescendant .. | .addPermissionsToRole .. | .tenantChildren .. => isFalse id

/-- Calls about `q`: a grant with a role, a scope, and decisions. -/
def exOthers : List MOp := [
  .tAddPrincipalWithRole 1 (str "q") (str "r") true, .tAddScopeToPrincipal 0 (str "q") (str "s") false,
  .authorize .fwd 9 [] (str "q") [.tenant (.str (str "b"))], .tAddPrincipalInNamespace 0 (str "q") (str "n") (str "r")]

/-- C75. The hypotheses hold: `p` asked before, `q` got rows in the tenants of `p`; a namespace and scope request
of `p` with an activity, decided before and after. -/
example : ∃ w, MOp.run {} (exWorld ++ [.authorize .fwd 9 [] (str "p") [.tenant (.str (str "a"))]]) = .ok w ∧
    w.pcache.get (str "p") ≠ none ∧ (∀ op ∈ exOthers, op.Foreign (str "p")) ∧
    (MOp.run w exOthers).Chk fun v => NoClash (str "p") v ∧ v.log.length = w.log.length + 3 ∧
      (v.authorize .fwd 9 [] (str "p") [.tenant (.str (str "a")), .namespace_ (.str (str "n")), .scope (.str (str "s")),
        .group (.str (str "g")), .activity (.str (str "/x GET"))]).map (·.1) =
      (w.authorize .fwd 9 [] (str "p") [.tenant (.str (str "a")), .namespace_ (.str (str "n")), .scope (.str (str "s")),
        .group (.str (str "g")), .activity (.str (str "/x GET"))]).map (·.1) := Out.chk_ok (by decide +kernel)

/-- Two tenants; `p` has a scope in the first and asked before. -/
def exAlone : List MOp := exBorrow.take 13 ++ [.authorize .fwd 9 [] (str "p") [.tenant (.str (str "a"))]]

/-- C75. A role given to `q` in another tenant changes a decision for `p` from denied to granted. -/
theorem C75_borrow_counterexample : ∃ w, MOp.run {} exAlone = .ok w ∧ w.pcache.get (str "p") ≠ none ∧
    (w.authorize .fwd 9 [] (str "p") [.tenant (.str (str "a")), .namespace_ (.str (str "n")),
        .group (.str (str "g")), .activity (.str (str "/x GET"))]).map (·.1) = .ok false ∧
    (MOp.run w [.tAddPrincipalInNamespace 1 (str "q") (str "n") (str "r")]).Chk fun v => NoClash (str "p") v ∧
      (v.authorize .fwd 9 [] (str "p") [.tenant (.str (str "a")), .namespace_ (.str (str "n")),
        .group (.str (str "g")), .activity (.str (str "/x GET"))]).map (·.1) = .ok true := Out.chk_ok (by decide +kernel)

/-- A principal "r", a role "r", a scope "p"; `p` has role "r". -/
def exClash : List MOp := [
  .newTenant (str "a"), .addTenant 0, .addPrincipal (str "p") 0, .addPrincipal (str "r") 1, .addScope (str "p") 0,
  .role (.newRole (str "r")), .addRole 0, .tAddPrincipalWithRole 0 (str "p") (str "r") false,
  .authorize .fwd 9 [] (str "p") [.tenant (.str (str "a"))]]

/-- C75. Giving scope "p" to the principal "r" overwrites the row that gives role "r" to the principal "p": the
tenant request of `p` is denied from then on. -/
theorem C75_clash_counterexample : ∃ w, MOp.run {} exClash = .ok w ∧ w.pcache.get (str "p") ≠ none ∧
    (w.authorize .fwd 9 [] (str "p") [.tenant (.str (str "a"))]).map (·.1) = .ok true ∧
    (MOp.run w [.tAddScopeToPrincipal 0 (str "r") (str "p") false]).Chk fun v =>
      (v.authorize .fwd 9 [] (str "p") [.tenant (.str (str "a"))]).map (·.1) = .ok false := Out.chk_ok (by decide +kernel)

/-- C75. So the intended property fails. -/
theorem C75_full_false : ¬ C75_full := by
  intro h
  obtain ⟨w, h1, h2, h3, h4⟩ := C75_clash_counterexample
  obtain ⟨v, h5, h6⟩ := Out.chk_ok h4
  obtain ⟨⟨b, w'⟩, h7, h8⟩ := Out.map_eq_ok.1 h3
  obtain ⟨⟨b', v'⟩, h9, h10⟩ := Out.map_eq_ok.1 h6
  have := h _ _ w v w' v' (str "p") _ .fwd .fwd 9 9 [] [] b b' h1 h5 (by decide) (.inl h2) h7 h9
  rw [show b = true from h8, show b' = false from h10] at this
  cases this

end Verif
