import Verif.Props.GrantExact
import Verif.Props.ImplicitOrder
import Verif.Props.Repeat

/-!
# Earlier questions and later answers (root package)
-/

namespace Verif
open Spec
namespace Spec

/-- `Authorize` and the two queries that fill caches. -/
def isQuestion : MOp → Bool
  | .tenantChildren .. | .implicitTenants .. | .authorize .. => true
  | _ => false

/-- The calls without the questions. -/
def unasked (ops : List MOp) : List MOp := ops.filter fun op => !isQuestion op

/-- The moment at which the tenants that a request of `p` made after `ops`, in state `w`, goes by were looked up:
the first time they were looked up, or just now. -/
def LookedUp (ops : List MOp) (w : Mgr) (p : Str) (u : Mgr) : Prop :=
  FirstAsked {} ops p u ∨ ((∀ u', ¬ FirstAsked {} ops p u') ∧ u = w)

end Spec

namespace Ask

/-! ## Other calls do not read the caches -/

/-- Contents of the two caches. -/
abbrev Caches := GoMap Str (List Val) × GoMap Str (List Str)

/-- The manager with other caches. -/
def lg (w : Mgr) (L : Caches) : Mgr := { w with hierarchy := L.1, pcache := L.2 }

/-- The manager with empty caches. -/
def fg (w : Mgr) : Mgr := lg w ([], [])

theorem exists_lg {a b : Mgr} (h : fg a = fg b) : ∃ L, a = lg b L := by
  refine ⟨(a.hierarchy, a.pcache), ?_⟩
  cases a; cases b
  simp only [fg, lg, Mgr.mk.injEq] at h ⊢
  simp only [h, and_self]

/-- Forget the caches in a result. -/
def pr {α : Type} (x : α × Mgr) : α × Mgr := (x.1, fg x.2)

theorem pr_eq {α : Type} {x y : α × Mgr} (h : pr x = pr y) : ∃ L, x = (y.1, lg y.2 L) := by
  obtain ⟨a, x⟩ := x
  obtain ⟨b, y⟩ := y
  simp only [pr, Prod.mk.injEq] at h
  obtain ⟨L, rfl⟩ := exists_lg h.2
  exact ⟨L, by rw [h.1]⟩

theorem addData_lg (w : Mgr) (L : Caches) (d : Data) : ((lg w L).addData d).map fg = (w.addData d).map fg := by
  show ((w.trie.insert (some d)).map _).map fg = ((w.trie.insert (some d)).map _).map fg
  cases w.trie.insert (some d) <;> rfl

theorem withTenant_lg {α α' : Type} (k : α → α') (w : Mgr) (L : Caches) (c : Nat) {f g : TenantObj → Out α}
    (h : ∀ t, (f t).map k = (g t).map k) : ((lg w L).withTenant c f).map k = (w.withTenant c g).map k := by
  show ((match w.tobjs[c]? with | none => .panic | some t => if t.managed then f t else .panic : Out α)).map k = _
  unfold Mgr.withTenant
  cases w.tobjs[c]? with
  | none => rfl
  | some t =>
    simp only
    cases t.managed
    · rfl
    · exact h t

theorem setDef_lg (w : Mgr) (L : Caches) (c : Nat) (n : Str) :
    ((lg w L).tSetDefaultNamespace c n).map fg = (w.tSetDefaultNamespace c n).map fg := by
  refine withTenant_lg fg w L c fun t => ?_
  show (if (w.namespaces.get n).isSome = true then _ else _ : Out Mgr).map fg = (if _ then _ else _ : Out Mgr).map fg
  by_cases h : (w.namespaces.get n).isSome = true
  · rw [if_pos h, if_pos h]; rfl
  · rw [if_neg h, if_neg h]; rfl

theorem desc_lg (c : Nat) (ds : List Nat) : ∀ (w : Mgr) (L : Caches), ((lg w L).tAddDescendant c ds).map fg = (w.tAddDescendant c ds).map fg := by
  induction ds with
  | nil => intro w L; rfl
  | cons d ds ih =>
    intro w L
    simp only [Mgr.tAddDescendant]
    show (match w.tobjs[c]?, w.tobjs[d]? with | some ct, some dt => _ | _, _ => _ : Out Mgr).map fg = _
    cases w.tobjs[c]? with
    | none => rfl
    | some ct =>
      cases w.tobjs[d]? with
      | none => rfl
      | some dt =>
        simp only
        have e : ∃ v : Mgr, (if (ct.desc.get dt.id).isSome then w else { w with tobjs := w.tobjs.set c { ct with desc := ct.desc.set dt.id d } }) = v ∧
            (if (ct.desc.get dt.id).isSome then lg w L else { lg w L with tobjs := (lg w L).tobjs.set c { ct with desc := ct.desc.set dt.id d } }) = lg v L := by
          by_cases h : (ct.desc.get dt.id).isSome
          · rw [if_pos h, if_pos h]; exact ⟨_, rfl, rfl⟩
          · rw [if_neg h, if_neg h]; exact ⟨_, rfl, rfl⟩
        obtain ⟨v, e1, e2⟩ := e
        rw [e1, e2]
        cases ct.defNs with
        | none => exact ih v L
        | some n =>
          refine Rep.same_bind (k := fg) (withTenant_lg fg v L d fun t => addData_lg v L _) fun a b h => ?_
          obtain ⟨L1, rfl⟩ := exists_lg h
          refine Rep.same_bind (k := fg) (setDef_lg _ _ _ _) fun a b h => ?_
          obtain ⟨L2, rfl⟩ := exists_lg h
          exact ih _ _

theorem rows_lg (w : Mgr) (L : Caches) (a : Data) (b : Str → Data) (n : Option Str) :
    (((lg w L).addData a).bind fun w1 => match n with
      | none => .ok ((none : Option Err), w1)
      | some n => (w1.addData (b n)).map fun w2 => (none, w2)).map pr =
    ((w.addData a).bind fun w1 => match n with
      | none => .ok (none, w1)
      | some n => (w1.addData (b n)).map fun w2 => (none, w2)).map pr := by
  refine Rep.same_bind (k := fg) (addData_lg w L a) fun x y h => ?_
  obtain ⟨L1, rfl⟩ := exists_lg h
  cases n with
  | none => rfl
  | some n =>
    refine Rep.same_map (k := fg) (addData_lg _ _ _) fun x y h => ?_
    obtain ⟨L1, rfl⟩ := exists_lg h
    rfl

theorem withRole_lg (w : Mgr) (L : Caches) (c : Nat) (p r : Str) (m : Bool) :
    ((lg w L).tAddPrincipalWithRole c p r m).map pr = (w.tAddPrincipalWithRole c p r m).map pr := by
  refine withTenant_lg pr w L c fun t => ?_
  show (if (w.principals.get p).isNone = true then _ else if (w.roles.get r).isNone = true then _ else _ : Out (Option Err × Mgr)).map pr = _
  by_cases h : (w.principals.get p).isNone = true
  · rw [if_pos h, if_pos h]; rfl
  · rw [if_neg h, if_neg h]
    by_cases h : (w.roles.get r).isNone = true
    · rw [if_pos h, if_pos h]; rfl
    · rw [if_neg h, if_neg h]
      exact rows_lg w L _ _ _

theorem withScope_lg (w : Mgr) (L : Caches) (c : Nat) (p r : Str) (m : Bool) :
    ((lg w L).tAddScopeToPrincipal c p r m).map pr = (w.tAddScopeToPrincipal c p r m).map pr := by
  refine withTenant_lg pr w L c fun t => ?_
  show (if (w.principals.get p).isNone = true then _ else if (w.scopes.get r).isNone = true then _ else _ : Out (Option Err × Mgr)).map pr = _
  by_cases h : (w.principals.get p).isNone = true
  · rw [if_pos h, if_pos h]; rfl
  · rw [if_neg h, if_neg h]
    by_cases h : (w.scopes.get r).isNone = true
    · rw [if_pos h, if_pos h]; rfl
    · rw [if_neg h, if_neg h]
      exact rows_lg w L _ _ _

theorem each_lg {f : Mgr → Str → Out (Option Err × Mgr)} (hf : ∀ w L r, (f (lg w L) r).map pr = (f w r).map pr) (rs : List Str) :
    ∀ (w : Mgr) (L : Caches), (Rep.each f (lg w L) rs).map pr = (Rep.each f w rs).map pr := by
  induction rs with
  | nil => intro w L; rfl
  | cons r rs ih =>
    intro w L
    refine Rep.same_bind (k := pr) (hf w L r) fun a b h => ?_
    obtain ⟨L1, rfl⟩ := pr_eq h
    obtain ⟨e, b⟩ := b
    cases e with
    | none => exact ih _ _
    | some e => rfl

theorem snd_of_pr {α : Type} {x y : Out (α × Mgr)} (h : x.map pr = y.map pr) : (x.map (·.2)).map fg = (y.map (·.2)).map fg :=
  Rep.same_map (k := pr) h fun a b h => by obtain ⟨L, rfl⟩ := pr_eq h; rfl

theorem op_lg (op : MOp) (hq : isQuestion op = false) (w : Mgr) (L : Caches) : (op.apply (lg w L)).map fg = (op.apply w).map fg := by
  cases op with
  | role op =>
    show ((op.apply w.heap).map _).map fg = ((op.apply w.heap).map _).map fg
    cases op.apply w.heap <;> rfl
  | newTenant id => rfl
  | addTenant a =>
    simp only [MOp.apply, Mgr.addTenant]
    show ((match w.tobjs[a]? with | none => _ | some t => _ : Out (Nat × Mgr)).map _).map fg = _
    cases w.tobjs[a]? <;> rfl
  | addNamespace id obj => rfl
  | addScope id obj => rfl
  | addPrincipal id obj => rfl
  | addRole r =>
    simp only [MOp.apply, Mgr.addRole]
    show ((match w.heap.roles[r]? with | none => _ | some t => _ : Out (Nat × Mgr)).map _).map fg = _
    cases w.heap.roles[r]? <;> rfl
  | addAttribute a obj => rfl
  | addAttributeGroup ga =>
    simp only [MOp.apply, Mgr.addAttributeGroup]
    show ((match w.heap.groups[ga]? with | none => _ | some t => _ : Out (Nat × Mgr)).map _).map fg = _
    cases w.heap.groups[ga]? <;> rfl
  | addData d => exact addData_lg w L d
  | tAddNamespace c n => exact withTenant_lg fg w L c fun t => addData_lg w L _
  | tAddScopesToNamespace c n s => exact withTenant_lg fg w L c fun t => addData_lg w L _
  | tSetDefaultNamespace c n => exact setDef_lg w L c n
  | tAddPrincipalInNamespace c p n r => exact withTenant_lg fg w L c fun t => addData_lg w L _
  | tAddRole c r => exact withTenant_lg fg w L c fun t => addData_lg w L _
  | tAddScope c s => exact withTenant_lg fg w L c fun t => addData_lg w L _
  | tAddDescendant c ds => exact desc_lg c ds w L
  | tAddPrincipalWithRole c p r m => exact snd_of_pr (withRole_lg w L c p r m)
  | tAddPrincipal c p m rs =>
    refine snd_of_pr ?_
    rw [Rep.principal_each, Rep.principal_each]
    exact each_lg (fun w L r => withRole_lg w L c p r m) rs w L
  | tAddScopeToPrincipal c p s m => exact snd_of_pr (withScope_lg w L c p s m)
  | tAssignScopes c p m ss =>
    refine snd_of_pr ?_
    rw [Rep.assign_each, Rep.assign_each]
    exact each_lg (fun w L r => withScope_lg w L c p r m) ss w L
  | addPermissionsToRole r g as =>
    show ((w.heap.addPermissionsToRole w.roles w.attrGroups r g as).map _).map fg = ((w.heap.addPermissionsToRole w.roles w.attrGroups r g as).map _).map fg
    cases w.heap.addPermissionsToRole w.roles w.attrGroups r g as <;> rfl
  | tenantChildren o fuel site id => cases hq
  | implicitTenants o fuel site p => cases hq
  | authorize o fuel site p opts => cases hq

theorem same_fg {w v : Mgr} (h : Mgr.SameBut w v) : fg v = fg w := by rw [h]; rfl

/-- A question changes the caches only. -/
theorem question {w v : Mgr} {op : MOp} (inv : w.Inv) (hq : isQuestion op = true) (h : op.apply w = .ok v) :
    Mgr.SameBut w v ∧ (Mgr.HierFresh w → Mgr.HierFresh v) := by
  have implicit : ∀ {o fuel site q I x}, w.implicitTenants o fuel site q = .ok (I, x) → Mgr.SameBut w x ∧ (Mgr.HierFresh w → Mgr.HierFresh x) := by
    intro o fuel site q I x h
    refine ⟨(Mgr.implicitTenants_inv inv h).2.1, ?_⟩
    unfold Mgr.implicitTenants at h
    split at h
    · cases h; exact id
    · obtain ⟨⟨E, w1⟩, h3, h4⟩ := Out.map_eq_ok.1 h
      cases h4
      exact (Mgr.implicitLoop_spec inv h3).2.2.2.2.2
  cases op with
  | tenantChildren o fuel site id =>
    obtain ⟨⟨l, x⟩, h1, rfl⟩ := Out.map_eq_ok.1 h
    obtain ⟨_, c2, c3, c4, c5, c6, c7⟩ := Mgr.tenantChildren_spec inv h1
    refine ⟨by rw [c2]; rfl, fun hf a l' hl' y hy => ?_⟩
    simp only at hl' hy
    have hy : Under w a y := by rw [c2] at hy; exact Mgr.under_hier.1 hy
    by_cases ha : a = id
    · subst ha
      rw [c6 l' hl']
      cases hh : w.hierarchy.get a with
      | none => exact c4 hh y hy
      | some l2 =>
        obtain ⟨e, _⟩ := c7 l2 hh
        rw [e]; exact hf a l2 hh y hy
    · rw [c5 a ha] at hl'
      exact hf a l' hl' y hy
  | implicitTenants o fuel site q =>
    obtain ⟨⟨l, x⟩, h1, rfl⟩ := Out.map_eq_ok.1 h
    exact implicit h1
  | authorize o fuel site q opts =>
    obtain ⟨⟨l, x⟩, h1, rfl⟩ := Out.map_eq_ok.1 h
    rcases Mgr.authorize_inv h1 with ⟨e, _⟩ | ⟨_, I, hI⟩
    · simp only at e ⊢; rw [e]; exact ⟨rfl, id⟩
    · exact implicit hI
  | _ => cases hq

theorem run_questions (ops : List MOp) : ∀ {w v : Mgr}, w.Inv → (∀ op ∈ ops, isQuestion op = true) → MOp.run w ops = .ok v →
    Mgr.SameBut w v ∧ (Mgr.HierFresh w → Mgr.HierFresh v) := by
  induction ops with
  | nil => intro w v _ _ h; cases h; exact ⟨rfl, id⟩
  | cons op ops ih =>
    intro w v inv hq h
    obtain ⟨w1, h1, h2⟩ := Out.bind_eq_ok.1 h
    obtain ⟨a1, a2⟩ := question inv (hq op (by simp)) h1
    obtain ⟨b1, b2⟩ := ih (MOp.apply_inv inv h1) (fun op ho => hq op (by simp [ho])) h2
    exact ⟨a1.trans b1, fun hf => b2 (a2 hf)⟩

theorem run_fg (ops : List MOp) : ∀ {w v w' : Mgr}, w.Inv → fg v = fg w → MOp.run w ops = .ok w' →
    ∃ v', MOp.run v (unasked ops) = .ok v' ∧ fg v' = fg w' := by
  induction ops with
  | nil => intro w v w' _ e h; cases h; exact ⟨v, rfl, e⟩
  | cons op ops ih =>
    intro w v w' inv e h
    obtain ⟨w1, h1, h2⟩ := Out.bind_eq_ok.1 h
    have inv1 := MOp.apply_inv inv h1
    cases hq : isQuestion op with
    | true =>
      have : unasked (op :: ops) = unasked ops := by simp [unasked, hq]
      rw [this]
      exact ih inv1 (e.trans (same_fg (question inv hq h1).1).symm) h2
    | false =>
      have : unasked (op :: ops) = op :: unasked ops := by simp [unasked, hq]
      rw [this]
      obtain ⟨L, rfl⟩ := exists_lg e
      have := op_lg op hq w L
      rw [h1, Out.map_ok] at this
      obtain ⟨v1, h3, h4⟩ := Out.map_eq_ok.1 this
      obtain ⟨v', h5, h6⟩ := ih inv1 h4 h2
      exact ⟨v', Out.bind_eq_ok.2 ⟨v1, h3, h5⟩, h6⟩

/-- The caches are the same. -/
def Kept (w v : Mgr) : Prop := v.pcache = w.pcache ∧ v.hierarchy = w.hierarchy

theorem Kept.trans {a b c : Mgr} (h1 : Kept a b) (h2 : Kept b c) : Kept a c := ⟨h2.1.trans h1.1, h2.2.trans h1.2⟩

section
variable {w v : Mgr}

theorem kept_inserted {rows : List Data} (h : Inserted w v rows) : Kept w v := by rw [h]; exact ⟨rfl, rfl⟩

theorem kept_addData {d : Data} (h : w.addData d = .ok v) : Kept w v := by
  obtain ⟨t, _, rfl⟩ := Out.map_eq_ok.1 h
  exact ⟨rfl, rfl⟩

theorem kept_viaTenant {c : Nat} {row : TenantObj → Data} (h : w.withTenant c (fun t => w.addData (row t)) = .ok v) : Kept w v := by
  obtain ⟨t, _, _, h⟩ := Mgr.withTenant_ok h
  exact kept_addData h

theorem kept_setDefault {c : Nat} {n : Str} (h : w.tSetDefaultNamespace c n = .ok v) : Kept w v := by
  obtain ⟨t, ht, _, h⟩ := Mgr.withTenant_ok h
  split at h
  all_goals (cases h; exact ⟨rfl, rfl⟩)

theorem kept_addDescendant {c : Nat} {ds : List Nat} (h : w.tAddDescendant c ds = .ok v) : Kept w v := by
  induction ds generalizing w with
  | nil => cases h; exact ⟨rfl, rfl⟩
  | cons d ds ih =>
    rw [Mgr.tAddDescendant] at h
    split at h
    · rename_i ct dt hc hd
      have k1 : Kept w (if (ct.desc.get dt.id).isSome then w
        else { w with tobjs := w.tobjs.set c { ct with desc := ct.desc.set dt.id d } }) := by split <;> exact ⟨rfl, rfl⟩
      simp only at h
      generalize (if (ct.desc.get dt.id).isSome then w
        else { w with tobjs := w.tobjs.set c { ct with desc := ct.desc.set dt.id d } }) = w1 at k1 h
      split at h
      · exact k1.trans (ih h)
      · rw [Out.bind_eq_ok] at h
        obtain ⟨w2, h2, h⟩ := h
        rw [Out.bind_eq_ok] at h
        obtain ⟨w3, h3, h⟩ := h
        exact ((k1.trans (kept_viaTenant h2)).trans (kept_setDefault h3)).trans (ih h)
    · cases h

theorem kept_apply {op : MOp} (inv : w.Inv) (hq : isQuestion op = false) (h : op.apply w = .ok v) : Kept w v := by
  cases op with
  | role op => obtain ⟨h1, h2, rfl⟩ := Out.map_eq_ok.1 h; exact ⟨rfl, rfl⟩
  | newTenant id => cases h; exact ⟨rfl, rfl⟩
  | addTenant a =>
    obtain ⟨⟨x, w1⟩, h2, rfl⟩ := Out.map_eq_ok.1 h
    unfold Mgr.addTenant at h2
    split at h2
    · cases h2
    · cases h2; exact ⟨rfl, rfl⟩
  | addNamespace id obj => cases h; exact ⟨rfl, rfl⟩
  | addScope id obj => cases h; exact ⟨rfl, rfl⟩
  | addPrincipal id obj => cases h; exact ⟨rfl, rfl⟩
  | addRole r =>
    obtain ⟨⟨x, w1⟩, h2, rfl⟩ := Out.map_eq_ok.1 h
    unfold Mgr.addRole at h2
    split at h2
    · cases h2
    · cases h2; exact ⟨rfl, rfl⟩
  | addAttribute a obj => cases h; exact ⟨rfl, rfl⟩
  | addAttributeGroup ga =>
    obtain ⟨⟨x, w1⟩, h2, rfl⟩ := Out.map_eq_ok.1 h
    unfold Mgr.addAttributeGroup at h2
    split at h2
    · cases h2
    · cases h2; exact ⟨rfl, rfl⟩
  | addData d => exact kept_addData h
  | tAddNamespace c n => exact kept_viaTenant h
  | tAddScopesToNamespace c n s => exact kept_viaTenant h
  | tSetDefaultNamespace c n => exact kept_setDefault h
  | tAddPrincipalInNamespace c p n r => exact kept_viaTenant h
  | tAddRole c r => exact kept_viaTenant h
  | tAddScope c s => exact kept_viaTenant h
  | tAddDescendant c ds => exact kept_addDescendant h
  | tAddPrincipalWithRole c p r m =>
    obtain ⟨⟨x, w1⟩, h2, rfl⟩ := Out.map_eq_ok.1 h
    obtain ⟨rows, i, _⟩ := withRole_rows inv h2
    exact kept_inserted i
  | tAddPrincipal c p m rs =>
    obtain ⟨⟨x, w1⟩, h2, rfl⟩ := Out.map_eq_ok.1 h
    obtain ⟨rows, i, _⟩ := addPrincipal_rows inv h2
    exact kept_inserted i
  | tAddScopeToPrincipal c p s m =>
    obtain ⟨⟨x, w1⟩, h2, rfl⟩ := Out.map_eq_ok.1 h
    obtain ⟨rows, i, _⟩ := toPrincipal_rows inv h2
    exact kept_inserted i
  | tAssignScopes c p m ss =>
    obtain ⟨⟨x, w1⟩, h2, rfl⟩ := Out.map_eq_ok.1 h
    obtain ⟨rows, i, _⟩ := assignScopes_rows inv h2
    exact kept_inserted i
  | addPermissionsToRole r g as => obtain ⟨⟨e, h1⟩, h2, rfl⟩ := Out.map_eq_ok.1 h; exact ⟨rfl, rfl⟩
  | tenantChildren o fuel site id => cases hq
  | implicitTenants o fuel site p => cases hq
  | authorize o fuel site p opts => cases hq

end

/-- Without questions the caches stay as they are. -/
theorem run_kept (ops : List MOp) : ∀ {v v' : Mgr}, v.Inv → (∀ op ∈ ops, isQuestion op = false) → MOp.run v ops = .ok v' → Kept v v' := by
  induction ops with
  | nil => intro v v' _ _ h; cases h; exact ⟨rfl, rfl⟩
  | cons op ops ih =>
    intro v v' inv hq h
    obtain ⟨v1, h1, h2⟩ := Out.bind_eq_ok.1 h
    exact (kept_apply inv (hq op (by simp)) h1).trans (ih (MOp.apply_inv inv h1) (fun op ho => hq op (by simp [ho])) h2)

theorem unasked_not {ops : List MOp} : ∀ op ∈ unasked ops, isQuestion op = false := by
  intro op h
  simpa using (List.mem_filter.1 h).2

theorem run_append (a : List MOp) : ∀ {w v : Mgr} {b : List MOp}, MOp.run w (a ++ b) = .ok v → ∃ u, MOp.run w a = .ok u ∧ MOp.run u b = .ok v := by
  induction a with
  | nil => intro w v b h; exact ⟨w, rfl, h⟩
  | cons op a ih =>
    intro w v b h
    obtain ⟨w1, h1, h2⟩ := Out.bind_eq_ok.1 h
    obtain ⟨u, h3, h4⟩ := ih h2
    exact ⟨u, Out.bind_eq_ok.2 ⟨w1, h1, h3⟩, h4⟩

theorem asks_question {u : Mgr} {p : Str} {op : MOp} (h : Asks u p op) : isQuestion op = true := by
  cases op <;> first | rfl | exact h.elim

/-- The list a request goes by is that of the moment of the look-up. -/
theorem list_of {ops : List MOp} {w w' u : Mgr} {p : Str} (h : MOp.run {} ops = .ok w) (hu : LookedUp ops w p u)
    {o : Ord} {fuel : Nat} {site : List Val} {I : List Str} (hI : w.implicitTenants o fuel site p = .ok (I, w')) :
    u.Inv ∧ u.pcache.get p = none ∧ ∃ o fuel site v, u.implicitTenants o fuel site p = .ok (I, v) := by
  have inv := MOp.reachable_inv h
  rcases hu with hu | ⟨hu, rfl⟩
  · obtain ⟨i, hn, o', fuel', site', J, v, hJ, hc⟩ := GrantExact.kept_some Mgr.Inv.empty rfl h hu
    obtain ⟨rfl, _⟩ := (Mgr.implicitTenants_inv inv hI).2.2.2.2 J hc
    exact ⟨i, hn, o', fuel', site', v, hJ⟩
  · exact ⟨inv, GrantExact.kept_none Mgr.Inv.empty rfl h hu, o, fuel, site, w', hI⟩

end Ask

/-- C147. Questions change nothing but the caches: without them the same calls succeed and lead to the same state,
with empty caches. -/
theorem C147_state {ops : List MOp} {w : Mgr} (h : MOp.run {} ops = .ok w) :
    MOp.run {} (unasked ops) = .ok { w with hierarchy := [], pcache := [] } := by
  obtain ⟨v, h1, h2⟩ := Ask.run_fg ops Mgr.Inv.empty rfl h
  obtain ⟨k1, k2⟩ := Ask.run_kept (unasked ops) Mgr.Inv.empty Ask.unasked_not h1
  rw [h1]
  congr 1
  cases v
  simp only at k1 k2
  subst k1; subst k2
  exact h2

/-- C147. The decision after any calls: rows, roles and registrations count as they are now, the tenants of the
principal as they were when they were first looked up. -/
theorem C147_history {ops : List MOp} {w w' u : Mgr} {o : Ord} {fuel : Nat} {site : List Val} {p : Str} {opts : List Opt} {b : Bool}
    (h : MOp.run {} ops = .ok w) (hu : LookedUp ops w p u) (hb : w.authorize o fuel site p opts = .ok (b, w')) :
    (b = true → AllowedIn w p (requestOf opts) fun x => Member u p x ∨ ∃ a, Manages u p a ∧ Under u a x) ∧
    (AllowedIn w p (requestOf opts) (Member u p) → b = true) ∧
    (LinksRegistered u → Mgr.HierFresh u → (b = true → AllowedIn w p (requestOf opts) (MayInclude u p)) ∧
      (AllowedIn w p (requestOf opts) (MustInclude u p) → b = true)) := by
  have inv := MOp.reachable_inv h
  by_cases hp : ∃ x, (p, x) ∈ w.principals
  · obtain ⟨I, hI, hb⟩ := authorize_allowed inv hp hb
    obtain ⟨i, hn, o', fuel', site', v, hJ⟩ := Ask.list_of h hu hI
    obtain ⟨s1, s2⟩ := C24_implicit_sound i hn hJ
    have all : AC.Allowed w p (requestOf opts) I ↔ AllowedIn w p (requestOf opts) (· ∈ I) := allowedIn_iff fun _ => Iff.rfl
    rw [all] at hb
    exact ⟨fun e => (hb.1 e).mono s2, fun e => hb.2 (e.mono s1), fun hl hf =>
      ⟨fun e => (hb.1 e).mono fun x hx => include_may i hl hf hn hJ hx, fun e => hb.2 (e.mono fun x hx => must_include i hl hf hn hJ hx)⟩⟩
  · have : b = false := by
      rw [Bool.eq_false_iff]
      exact fun e => hp ((authorize_exact inv hb).1 e).1
    subst this
    exact ⟨nofun, fun e => absurd e (not_allowed hp), fun _ _ => ⟨nofun, fun e => absurd e (not_allowed hp)⟩⟩

/-- C147. There is exactly one such state. -/
theorem C147_moment (ops : List MOp) (w : Mgr) (p : Str) : ∃ u, LookedUp ops w p u ∧ ∀ u', LookedUp ops w p u' → u' = u := by
  by_cases h : ∃ u, FirstAsked {} ops p u
  · obtain ⟨u, hu⟩ := h
    refine ⟨u, .inl hu, ?_⟩
    rintro u' (hu' | ⟨hu', _⟩)
    · obtain ⟨pre, op, post, e, r, a, f⟩ := hu
      obtain ⟨pre', op', post', e', r', a', f'⟩ := hu'
      rw [e] at e'
      rcases List.append_eq_append_iff.1 e' with ⟨m, e1, e2⟩ | ⟨m, e1, e2⟩
      · cases m with
        | nil => rw [List.append_nil] at e1; subst e1; rw [r] at r'; cases r'; rfl
        | cons y m =>
          obtain ⟨rfl, _⟩ := List.cons.inj e2
          exact absurd a (f' pre op m u e1 r)
      · cases m with
        | nil => rw [List.append_nil] at e1; subst e1; rw [r] at r'; cases r'; rfl
        | cons y m =>
          obtain ⟨rfl, _⟩ := List.cons.inj e2
          exact absurd a' (f pre' op' m u' e1 r')
    · exact absurd hu (hu' u)
  · refine ⟨w, .inr ⟨fun u hu => h ⟨u, hu⟩, rfl⟩, ?_⟩
    rintro u' (hu' | ⟨_, rfl⟩)
    · exact absurd ⟨u', hu'⟩ h
    · rfl

/-- C147 as intended: questions asked earlier do not change an answer. -/
def C147_full : Prop := ∀ (ops : List MOp) (w v w' v' : Mgr) (p : Str) (opts : List Opt) (o : Ord) (fuel : Nat) (site : List Val) (b b' : Bool),
  MOp.run {} ops = .ok w → MOp.run {} (unasked ops) = .ok v → w.authorize o fuel site p opts = .ok (b, w') →
  v.authorize o fuel site p opts = .ok (b', v') → b = b'

/-- C147, partial: an answer is what it would be without earlier questions, whatever they were, for a request that no
tenant but the named one grants and a principal that is in some tenant, now and when first looked up. Missing: requests
that are granted by another tenant of the principal, which depends on when those are looked up, and principals looked
up while in no tenant (both false, see the counterexamples). -/
theorem C147_named_partial {ops : List MOp} {w v w' v' u : Mgr} {o o' : Ord} {fuel fuel' : Nat} {site site' : List Val} {p : Str} {opts : List Opt}
    {b b' : Bool} (h : MOp.run {} ops = .ok w) (hv : MOp.run {} (unasked ops) = .ok v) (hu : LookedUp ops w p u)
    (hm : ∃ x, Member u p x) (hn : ∃ x, Member w p x) (hc : ∀ c, Decides w p c (requestOf opts) → c = (requestOf opts).tenant)
    (hb : w.authorize o fuel site p opts = .ok (b, w')) (hb' : v.authorize o' fuel' site' p opts = .ok (b', v')) : b = b' := by
  obtain ⟨k1, k2, _⟩ := C147_history h hu hb
  rw [C147_state h] at hv; cases hv
  have hno : ∀ u', ¬ FirstAsked {} (unasked ops) p u' := by
    rintro u' ⟨pre, op, post, e, _, a, _⟩
    have := Ask.unasked_not op (by rw [e]; simp)
    rw [Ask.asks_question a] at this; cases this
  obtain ⟨j1, j2, _⟩ := C147_history (C147_state h) (.inr ⟨hno, rfl⟩) hb'
  have to1 : ∀ {S S' : Str → Prop}, (∃ x, S' x) → AllowedIn w p (requestOf opts) S → AllowedIn w p (requestOf opts) S' := by
    rintro S S' hx ⟨a1, _, a3, c, _, a5⟩
    exact ⟨a1, hx, a3, c, .inl (hc c a5), a5⟩
  rw [Bool.eq_iff_iff]
  exact ⟨fun e => j2 (to1 hn (k1 e)), fun e => k2 (to1 hm (j1 e))⟩

/-- C147, partial: questions asked after all other calls do not change an answer, if the answer does not depend on the
order of maps (C116). Missing: questions asked in between (false, see the counterexamples). -/
theorem C147_after_partial {setup qs : List MOp} {w v w' v' : Mgr} {o o' : Ord} {fuel fuel' : Nat} {site site' : List Val} {p : Str} {opts : List Opt}
    {b b' : Bool} (hs : ∀ op ∈ setup, isQuestion op = false) (hq : ∀ op ∈ qs, isQuestion op = true)
    (hv : MOp.run {} setup = .ok v) (h : MOp.run v qs = .ok w) (hl : LinksRegistered v)
    (hc : AllowedIn v p (requestOf opts) (MayInclude v p) → AllowedIn v p (requestOf opts) (MustInclude v p))
    (hb : w.authorize o fuel site p opts = .ok (b, w')) (hb' : v.authorize o' fuel' site' p opts = .ok (b', v')) : b = b' := by
  have inv := MOp.reachable_inv hv
  obtain ⟨c1, c2⟩ := Ask.run_kept setup Mgr.Inv.empty hs hv
  have fresh : Mgr.HierFresh v := by
    intro a l hl
    rw [c2] at hl; cases hl
  have run : MOp.run {} (setup ++ qs) = .ok w := by
    rw [Rep.run_append, hv]; exact h
  have no : ∀ u', ¬ FirstAsked {} setup p u' := by
    rintro u' ⟨pre, op, post, e, _, a, _⟩
    have := hs op (by rw [e]; simp)
    rw [Ask.asks_question a] at this; cases this
  have same : ∀ {u : Mgr}, Mgr.SameBut v u → (∀ {S}, AllowedIn u p (requestOf opts) S ↔ AllowedIn v p (requestOf opts) S) ∧
      LinksRegistered u ∧ MayInclude u p = MayInclude v p ∧ MustInclude u p = MustInclude v p := by
    intro u e
    rw [e]
    exact ⟨Iff.rfl, hl, rfl, rfl⟩
  obtain ⟨u, hu, _⟩ := C147_moment (setup ++ qs) w p
  have key : Mgr.SameBut v u ∧ Mgr.HierFresh u := by
    have whole := Ask.run_questions qs inv hq h
    rcases hu with ⟨pre, op, post, e, r, a, _⟩ | ⟨_, rfl⟩
    · have : ∃ m, pre = setup ++ m ∧ qs = m ++ op :: post := by
        rcases List.append_eq_append_iff.1 e with ⟨m, e1, e2⟩ | ⟨m, e1, e2⟩
        · exact ⟨m, e1, e2⟩
        · cases m with
          | nil => exact ⟨[], by simpa using e1.symm, by simpa using e2.symm⟩
          | cons y m =>
            obtain ⟨rfl, _⟩ := List.cons.inj e2
            have := hs op (by rw [e1]; simp)
            rw [Ask.asks_question a] at this; cases this
      obtain ⟨m, rfl, e2⟩ := this
      obtain ⟨v2, r1, r2⟩ := Ask.run_append setup r
      rw [hv] at r1; cases r1
      obtain ⟨g1, g2⟩ := Ask.run_questions m inv (fun op ho => hq op (by rw [e2]; simp [ho])) r2
      exact ⟨g1, g2 fresh⟩
    · exact ⟨whole.1, whole.2 fresh⟩
  obtain ⟨_, s2, s3, s4⟩ := same key.1
  obtain ⟨w1, _⟩ := same (Ask.run_questions qs inv hq h).1
  obtain ⟨a1, a2⟩ := (C147_history run hu hb).2.2 s2 key.2
  obtain ⟨b1, b2⟩ := (C147_history hv (.inr ⟨no, rfl⟩) hb').2.2 hl fresh
  rw [w1, s3] at a1
  rw [w1, s4] at a2
  rw [Bool.eq_iff_iff]
  exact ⟨fun e => b2 (hc (a1 e)), fun e => a2 (hc (b1 e))⟩

/-- Principal p is in tenant a and asks; later it is also put in tenant b, which has namespace n. -/
def exJoins : List MOp := [
  .newTenant (str "a"), .newTenant (str "b"), .addTenant 0, .addTenant 1, .addPrincipal (str "p") 0, .addNamespace (str "n") 0,
  .role (.newRole (str "r")), .addRole 0, .tAddPrincipalWithRole 0 (str "p") (str "r") false,
  .authorize .fwd 9 [] (str "p") [.tenant (.str (str "a"))],
  .tAddPrincipalWithRole 1 (str "p") (str "r") false, .tAddNamespace 1 (str "n")]

/-- The descendants of tenant a are asked for on behalf of q, who manages it; then a gets the descendant b, which has
namespace n, and p is made to manage a too. -/
def exOther : List MOp := [
  .newTenant (str "a"), .newTenant (str "b"), .addTenant 0, .addTenant 1, .addPrincipal (str "p") 0, .addPrincipal (str "q") 1,
  .addNamespace (str "n") 0, .role (.newRole (str "r")), .addRole 0, .tAddPrincipalWithRole 0 (str "q") (str "r") true,
  .authorize .fwd 9 [] (str "q") [.tenant (.str (str "a"))],
  .tAddDescendant 0 [1], .tAddNamespace 1 (str "n"), .tAddPrincipalWithRole 0 (str "p") (str "r") true]

/-- The answers to a request of p after the calls, and after the calls without the questions. -/
def bothAnswers (ops : List MOp) (opts : List Opt) : Out Bool × Out Bool :=
  ((MOp.run {} ops).bind fun w => (w.authorize .fwd 9 [] (str "p") opts).map (·.1),
   (MOp.run {} (unasked ops)).bind fun w => (w.authorize .fwd 9 [] (str "p") opts).map (·.1))

/-- C147. Asking too early denies a later request: asking before the first grant, asking before the principal is put in
another tenant, and asking for another principal before the hierarchy is complete. -/
theorem C147_counterexample :
    bothAnswers (exStale ++ [.tAddPrincipalWithRole 0 (str "p") (str "r") true]) [.tenant (.str (str "a"))] = (.ok false, .ok true) ∧
    bothAnswers exJoins [.tenant (.str (str "a")), .namespace_ (.str (str "n"))] = (.ok false, .ok true) ∧
    bothAnswers exOther [.tenant (.str (str "a")), .namespace_ (.str (str "n"))] = (.ok false, .ok true) := by decide +kernel

/-- C147. So the intended property fails. -/
theorem C147_full_false : ¬ C147_full := by
  intro hf
  obtain ⟨_, _, e⟩ := C147_counterexample
  obtain ⟨e1, e2⟩ := Prod.mk.inj e
  obtain ⟨w, h1, h2⟩ := Out.bind_eq_ok.1 e1
  obtain ⟨v, h3, h4⟩ := Out.bind_eq_ok.1 e2
  obtain ⟨⟨b, w'⟩, h5, h6⟩ := Out.map_eq_ok.1 h2
  obtain ⟨⟨b', v'⟩, h7, h8⟩ := Out.map_eq_ok.1 h4
  simp only at h6 h8
  subst h6; subst h8
  cases hf exOther w v w' v' (str "p") _ .fwd 9 [] _ _ h1 h3 h5 h7

/-- The hypotheses of `C147_named_partial` hold for p in `exJoins` asking for namespace n of tenant b; both answers are yes. -/
example : ∃ w u, MOp.run {} exJoins = .ok w ∧ LookedUp exJoins w (str "p") u ∧ (∃ x, Member u (str "p") x) ∧ (∃ x, Member w (str "p") x) ∧
    (∀ c, Decides w (str "p") c (requestOf [.tenant (.str (str "b")), .namespace_ (.str (str "n"))]) → c = .str (str "b")) ∧
    bothAnswers exJoins [.tenant (.str (str "b")), .namespace_ (.str (str "n"))] = (.ok true, .ok true) := by
  obtain ⟨w, h, hp, hm, hr⟩ := Out.chk_ok (x := MOp.run {} exJoins) (P := fun w => w.pcache.get (str "p") = some [str "a"] ∧
    (⟨.str (str "a"), .nil, .nil, .str (str "p"), .str (str "r"), .bool false⟩ : Data) ∈ survivors (rowKey dataKeys) w.log ∧
    ∀ row ∈ survivors (rowKey dataKeys) w.log, row.namespace_ = .str (str "n") → row.tenant = .str (str "b")) (by decide +kernel)
  obtain ⟨k1, k2⟩ := C32_kept (p := str "p") h
  have : ∃ u, FirstAsked {} exJoins (str "p") u := by
    refine Classical.byContradiction fun hno => ?_
    rw [k1.2 fun u hu => hno ⟨u, hu⟩] at hp; cases hp
  obtain ⟨u, hu⟩ := this
  refine ⟨w, u, h, .inl hu, ?_, ⟨_, _, hm, rfl, rfl⟩, ?_, by decide +kernel⟩
  · obtain ⟨I, h1, _, h2⟩ := k2 u hu
    rw [hp] at h1; cases h1
    rcases h2 (str "a") (by simp) with hx | ⟨a, ⟨row, h3, h4, h5, _⟩, _⟩
    · exact ⟨_, hx⟩
    · exact ⟨a, row, h3, h4, h5⟩
  · rintro c (⟨_, g⟩ | ⟨g, act, e, _⟩)
    · rcases g with ⟨a1, a2, a3, row, b1, b2⟩ | ⟨a1, a2, a3, row, b1, b2⟩ | ⟨a1, a2, a3, row, b1, b2⟩ |
        ⟨a1, a2, a3, row, b1, b2⟩ | ⟨a1, a2, a3, own, row, b1, b2, b3, b4, b5⟩
      · cases a2
      · rw [← b2.2.1]; exact hr row b1 b2.2.2
      · exact absurd rfl a3
      · exact absurd rfl a3
      · cases a1
    · cases e

/-- The hypotheses of `C147_after_partial` hold for the setup of `exOther` followed by questions. -/
example : ∃ v, MOp.run {} (unasked exOther) = .ok v ∧ (∀ op ∈ unasked exOther, isQuestion op = false) ∧
    (∃ w, MOp.run v [.implicitTenants .rev 9 [] (str "q"), .tenantChildren .fwd 9 [] (str "a"), .authorize .fwd 9 [] (str "p") []] = .ok w) ∧
    LinksRegistered v ∧
    AllowedIn v (str "p") (requestOf [.tenant (.str (str "a")), .namespace_ (.str (str "n"))]) (MustInclude v (str "p")) := by
  obtain ⟨v, h, h1, h2, h3, h4, h5, h6, h7, h8, e1, e2, e3⟩ := Out.chk_ok (x := MOp.run {} (unasked exOther))
    (P := fun v => (∀ t ∈ v.tobjs, ∀ e ∈ t.desc, v.tenants.get e.1 = some e.2) ∧
      ((MOp.run v [.implicitTenants .rev 9 [] (str "q"), .tenantChildren .fwd 9 [] (str "a"), .authorize .fwd 9 [] (str "p") []]).map fun w => w.log.length) = .ok 3 ∧
      (str "p", 0) ∈ v.principals ∧ (str "a", 0) ∈ v.tenants ∧ (str "n", 0) ∈ v.namespaces ∧
      (⟨.str (str "b"), .str (str "n"), .nil, .nil, .nil, .nil⟩ : Data) ∈ survivors (rowKey dataKeys) v.log ∧
      (⟨.str (str "a"), .nil, .nil, .str (str "p"), .str (str "r"), .bool true⟩ : Data) ∈ survivors (rowKey dataKeys) v.log ∧
      (∀ row ∈ survivors (rowKey dataKeys) v.log, row.principal = .str (str "p") → row.manage = .bool true) ∧
      v.tenants.get (str "a") = some 0 ∧ (v.tobjs[0]?).map (·.desc) = some [(str "b", 1)] ∧ (v.tobjs[1]?).map (·.id) = some (str "b"))
    (by decide +kernel)
  obtain ⟨w, hw, _⟩ := Out.map_eq_ok.1 h2
  obtain ⟨t0, a0, a1⟩ := Option.map_eq_some_iff.1 e2
  obtain ⟨t1, b0, b1⟩ := Option.map_eq_some_iff.1 e3
  have must : MustInclude v (str "p") (str "b") := .inr ⟨str "a", ⟨_, h7, rfl, rfl⟩, fun r hr _ => h8 r hr.1 hr.2.1,
    ⟨0, e1, 1, t1, .child ⟨t0, str "b", a0, by rw [a1]; simp⟩, b0, b1⟩⟩
  refine ⟨v, h, Ask.unasked_not, ⟨w, hw⟩, h1, ⟨0, h3⟩, ⟨_, must⟩, ⟨.inr ⟨_, _, rfl, h4⟩, .inr ⟨_, _, rfl, h5⟩, .inl rfl⟩,
    .str (str "b"), .inr ⟨_, must, rfl⟩, .inl ⟨fun h => h.1 rfl, .inr (.inl ⟨nofun, nofun, rfl, _, h6, .inl rfl, rfl, rfl⟩)⟩⟩

end Verif
