import Verif.Props.Recover

/-!
# Which calls panic (C118)

`Panics` says of every call but the two that decide when it panics, for calls whose addresses lead to objects.
-/

namespace Verif
namespace RP

open Spec AD

variable {w w' : Mgr} {α : Type}

/-- A pointer is nil or leads to one of `n` objects. -/
def There (n : Nat) (p : Option Nat) : Prop := ∀ a, p = some a → a < n

/-- The pointers among the arguments are nil or lead to objects. -/
def Proper (w : Mgr) : NCall → Prop
  | .addTenants l => ∀ q ∈ l, There w.tobjs.length q
  | .addRoles l => ∀ q ∈ l, There w.heap.roles.length q
  | .addAttributeGroups l => ∀ q ∈ l, There w.heap.groups.length q
  | .roleAddDescendant r ds => There w.heap.roles.length r ∧ ∀ q ∈ ds, There w.heap.roles.length q
  | .roleAddPermission r _ _ => There w.heap.roles.length r
  | .roleAddGroup r g => There w.heap.roles.length r ∧ There w.heap.groups.length g
  | .roleLock r _ => There w.heap.roles.length r
  | .groupAddAttributes g _ => There w.heap.groups.length g
  | .tAddNamespaces c _ | .tAddRoles c _ | .tAddScopes c _ => There w.tobjs.length c
  | .tAddScopesToNamespace c _ _ | .tSetDefaultNamespace c _ | .tAddPrincipalInNamespace c _ _ _ => There w.tobjs.length c
  | .tAddPrincipal c _ _ _ | .tAssignScopes c _ _ _ => There w.tobjs.length c
  | .tAddDescendant c ds => There w.tobjs.length c ∧ ∀ q ∈ ds, There w.tobjs.length q
  | _ => True

/-- The tenant has been registered with a manager. -/
def HasManager (w : Mgr) (p : Option Nat) : Prop := ∃ c t, p = some c ∧ w.tobjs[c]? = some t ∧ t.managed = true

/-- The tenant has a default namespace. -/
def HasDefault (w : Mgr) (p : Option Nat) : Prop := ∃ c t, p = some c ∧ w.tobjs[c]? = some t ∧ t.defNs ≠ none

/-- The role may be changed. -/
def MayChange (w : Mgr) (p : Option Nat) : Prop := ∃ r ro, p = some r ∧ w.heap.roles[r]? = some ro ∧ ro.lock = false

/-- When a call panics. -/
def Panics (w : Mgr) : NCall → Prop
  | .addTenants l | .addRoles l | .addAttributeGroups l => none ∈ l
  | .addNamespaces l | .addScopes l | .addPrincipals l => none ∈ l
  | .addAttributes l => none ∈ l
  | .roleAddDescendant r ds => r = none ∨ MayChange w r ∧ none ∈ ds
  | .roleAddPermission r _ as => r = none ∨ MayChange w r ∧ none ∈ as
  | .roleAddGroup r g => r = none ∨ MayChange w r ∧ g = none
  | .roleLock r _ => r = none
  | .groupAddAttributes g as => (g = none ∧ as ≠ []) ∨ none ∈ as
  | .addPermissionsToRole r g as => (∃ x, w.roles.get r = some x) ∧ ∃ ga go, w.attrGroups.get g = some ga ∧ w.heap.groups[ga]? = some go ∧
      ∃ (l : List Attr) (rest : List (Option Attr)), as = l.map some ++ none :: rest ∧ ∀ a ∈ l, ∃ b, go.perms.get a.toStr = some b
  | .tAddNamespaces c l | .tAddRoles c l | .tAddScopes c l => (¬ HasManager w c ∧ l ≠ []) ∨ none ∈ l
  | .tAddScopesToNamespace c _ _ | .tSetDefaultNamespace c _ | .tAddPrincipalInNamespace c _ _ _ => ¬ HasManager w c
  | .tAddPrincipal c _ _ l | .tAssignScopes c _ _ l => ¬ HasManager w c ∧ l ≠ []
  | .tAddDescendant c ds => (c = none ∧ ds ≠ []) ∨ none ∈ ds ∨ HasDefault w c ∧ ∃ q ∈ ds, ¬ HasManager w q
  | _ => False

/-- A loop panics exactly at what makes its body panic. -/
theorem each_iff {P : Mgr → Prop} {Bad : α → Prop} {f : α → Rec Unit} {l : List α}
    (hok : ∀ x ∈ l, ∀ w, P w → ¬ Bad x → ∃ w', f x w = (.ok (), w') ∧ P w')
    (hbad : ∀ x ∈ l, ∀ w, P w → Bad x → (f x w).1 = .panic) (hw : P w) :
    ((RP.each f l w).1 = .panic ↔ ∃ x ∈ l, Bad x) ∧ ((∀ x ∈ l, ¬ Bad x) → ∃ w', RP.each f l w = (.ok (), w') ∧ P w') := by
  induction l generalizing w with
  | nil => exact ⟨⟨fun h => (by cases h), fun ⟨_, h, _⟩ => (by cases h)⟩, fun _ => ⟨w, rfl, hw⟩⟩
  | cons x l ih =>
    by_cases hx : Bad x
    · refine ⟨⟨fun _ => ⟨x, List.mem_cons_self .., hx⟩, fun _ => ?_⟩, fun h => absurd hx (h x (List.mem_cons_self ..))⟩
      have := hbad x (List.mem_cons_self ..) w hw hx
      show ((f x).bind _ w).1 = _
      unfold Rec.bind
      rw [this]
    · obtain ⟨w1, h1, p1⟩ := hok x (List.mem_cons_self ..) w hw hx
      have e : RP.each f (x :: l) w = RP.each f l w1 := by
        show (f x).bind _ w = _
        rw [bind_of h1]
      rw [e]
      have := ih (fun y hy => hok y (List.mem_cons_of_mem _ hy)) (fun y hy => hbad y (List.mem_cons_of_mem _ hy)) p1
      refine ⟨this.1.trans ⟨fun ⟨y, hy, hb⟩ => ⟨y, List.mem_cons_of_mem _ hy, hb⟩, fun ⟨y, hy, hb⟩ => ?_⟩,
        fun h => this.2 fun y hy => h y (List.mem_cons_of_mem _ hy)⟩
      rcases List.mem_cons.1 hy with rfl | hy
      · exact absurd hb hx
      · exact ⟨y, hy, hb⟩

theorem drop_panic {x : Rec α} : (x.drop w).1 = .panic ↔ (x w).1 = .panic := by
  unfold Rec.drop Rec.bind
  cases h : x w with
  | mk a v => cases a <;> simp

theorem then_panic {β : Type} {x : Rec α} {b : β} : ((x.bind fun _ => ret b) w).1 = .panic ↔ (x w).1 = .panic := by
  unfold Rec.bind
  cases h : x w with
  | mk a v => cases a <;> simp

/-- A loop over pointers whose body panics at nil only. -/
theorem each_nil {β : Type} {P : Mgr → Prop} {f : Option β → Rec Unit} {l : List (Option β)}
    (hok : ∀ x, some x ∈ l → ∀ w, P w → ∃ w', f (some x) w = (.ok (), w') ∧ P w') (hbad : ∀ w, P w → (f none w).1 = .panic) (hw : P w) :
    (RP.each f l w).1 = .panic ↔ none ∈ l := by
  refine (each_iff (P := P) (Bad := fun q => q = none) (fun q hq w hp hn => ?_) (fun q hq w hp hb => ?_) hw).1.trans
    ⟨fun ⟨x, hx, e⟩ => e ▸ hx, fun h => ⟨none, h, rfl⟩⟩
  · cases q with
    | none => exact absurd rfl hn
    | some x => exact hok x hq w hp
  · subst hb; exact hbad w hp

theorem lt_get {l : List α} {i : Nat} (h : i < l.length) : ∃ x, l[i]? = some x := ⟨_, List.getElem?_eq_getElem h⟩

theorem derefAll_panic {l : List (Option α)} : derefAll l = .panic ↔ none ∈ l := by
  induction l with
  | nil => exact ⟨fun h => (by cases h), fun h => (by cases h)⟩
  | cons q l ih =>
    cases q with
    | none => exact ⟨fun _ => List.mem_cons_self .., fun _ => rfl⟩
    | some a =>
      rw [derefAll]
      constructor
      · intro h
        refine List.mem_cons_of_mem _ (ih.1 ?_)
        cases hl : derefAll l with
        | ok x => rw [hl] at h; cases h
        | panic => rfl
        | diverge => rw [hl] at h; cases h
      · intro h
        rcases List.mem_cons.1 h with h | h
        · cases h
        · rw [ih.2 h]; rfl

theorem derefAll_cases (l : List (Option α)) : derefAll l = .panic ∨ ∃ x, derefAll l = .ok x := by
  induction l with
  | nil => exact .inr ⟨[], rfl⟩
  | cons q l ih =>
    cases q with
    | none => exact .inl rfl
    | some a =>
      rw [derefAll]
      rcases ih with h | ⟨x, h⟩
      · exact .inl (by rw [h]; rfl)
      · exact .inr ⟨a :: x, by rw [h]; rfl⟩

theorem associated_panic {g : GroupObj} {as : List (Option Attr)} : associated g as = .panic ↔
    ∃ (l : List Attr) (rest : List (Option Attr)), as = l.map some ++ none :: rest ∧ ∀ a ∈ l, ∃ b, g.perms.get a.toStr = some b := by
  induction as with
  | nil =>
    refine ⟨fun h => (by cases h), fun ⟨l, rest, e, _⟩ => ?_⟩
    cases l <;> cases e
  | cons q as ih =>
    cases q with
    | none => exact ⟨fun _ => ⟨[], as, rfl, fun _ h => by cases h⟩, fun _ => rfl⟩
    | some a =>
      rw [associated]
      constructor
      · intro h
        split at h
        · rename_i ha
          obtain ⟨l, rest, rfl, hl⟩ := ih.1 h
          refine ⟨a :: l, rest, rfl, fun b hb => ?_⟩
          rcases List.mem_cons.1 hb with rfl | hb
          · exact Option.isSome_iff_exists.1 ha
          · exact hl b hb
        · cases h
      · rintro ⟨l, rest, e, hl⟩
        cases l with
        | nil => cases e
        | cons b l =>
          cases e
          rw [if_pos (Option.isSome_iff_exists.2 (hl _ (List.mem_cons_self ..)))]
          exact ih.2 ⟨l, rest, rfl, fun c hc => hl c (List.mem_cons_of_mem _ hc)⟩

/-- The same tenants have a manager. -/
def SameTenants (w v : Mgr) : Prop := v.Inv ∧ v.tobjs.length = w.tobjs.length ∧
  ∀ (c : Nat) (t : TenantObj), w.tobjs[c]? = some t → ∃ t' : TenantObj, v.tobjs[c]? = some t' ∧ t'.managed = t.managed

theorem managed_iff {v : Mgr} (h : SameTenants w v) {p : Option Nat} : HasManager v p ↔ HasManager w p := by
  constructor
  · rintro ⟨c, t, e, ht, hm⟩
    obtain ⟨t0, h0⟩ := lt_get (h.2.1 ▸ RHeap.lt_of_get ht)
    obtain ⟨t', h', m⟩ := h.2.2 c t0 h0
    rw [ht] at h'; cases h'
    exact ⟨c, t0, e, h0, m ▸ hm⟩
  · rintro ⟨c, t, e, ht, hm⟩
    obtain ⟨t', h', m⟩ := h.2.2 c t ht
    exact ⟨c, t', e, h', m.trans hm⟩

theorem SameTenants.refl (inv : w.Inv) : SameTenants w w := ⟨inv, rfl, fun _ t h => ⟨t, h, rfl⟩⟩

theorem SameTenants.trans {u v : Mgr} (h : SameTenants w u) (h' : SameTenants u v) : SameTenants w v := by
  refine ⟨h'.1, h'.2.1.trans h.2.1, fun c t e => ?_⟩
  obtain ⟨t1, e1, m1⟩ := h.2.2 c t e
  obtain ⟨t2, e2, m2⟩ := h'.2.2 c t1 e1
  exact ⟨t2, e2, m2.trans m1⟩

/-- One tenant is changed, not its manager. -/
theorem SameTenants.set {v : Mgr} {c : Nat} {t t' : TenantObj} (i : v.Inv) (hc : w.tobjs[c]? = some t) (hm : t'.managed = t.managed)
    (hv : v.tobjs = w.tobjs.set c t') : SameTenants w v := by
  refine ⟨i, by rw [hv, List.length_set], fun d s hd => ?_⟩
  rw [hv, List.getElem?_set]
  split
  · rename_i e; subst e
    rw [hc] at hd; cases hd
    rw [if_pos (RHeap.lt_of_get hc)]
    exact ⟨t', rfl, hm⟩
  · exact ⟨s, hd, rfl⟩

theorem addData_same (inv : w.Inv) (d : Data) : ∃ v, addData (some d) w = (.ok (), v) ∧ SameTenants w v ∧ v.tobjs = w.tobjs := by
  obtain ⟨v, h, e, i⟩ := addData_ok inv d
  refine ⟨v, by rw [addData_eq, h]; rfl, ⟨i, by rw [e], fun c t ht => ⟨t, by rw [e]; exact ht, rfl⟩⟩, e⟩

theorem row_bad {p : Option Nat} {β : Type} {k : TenantObj → Rec β} (h : ¬ HasManager w p) : ((managed p).bind k) w = (.panic, w) := by
  cases p with
  | none => rfl
  | some c =>
    rw [managed_eq]
    cases hc : w.tobjs[c]? with
    | none => rfl
    | some t =>
      dsimp only
      rw [if_neg fun hm => h ⟨c, t, rfl, hc, hm⟩]

theorem row_good {p : Option Nat} {β : Type} {k : TenantObj → Rec β} (h : HasManager w p) : ∃ t, ((managed p).bind k) w = k t w := by
  obtain ⟨c, t, rfl, hc, hm⟩ := h
  refine ⟨t, ?_⟩
  rw [managed_eq, hc]
  dsimp only
  rw [if_pos hm]

theorem rows_iff {β : Type} {p : Option Nat} {row : TenantObj → β → Data} {l : List (Option β)} (inv : w.Inv) :
    (RP.each (fun x => (managed p).bind fun t => (RP.deref x).bind fun a => addData (some (row t a))) l w).1 = .panic ↔
      (¬ HasManager w p ∧ l ≠ []) ∨ none ∈ l := by
  refine (each_iff (P := SameTenants w) (Bad := fun q => ¬ HasManager w p ∨ q = none) (fun q _ v hv hn => ?_) (fun q _ v hv hb => ?_) (.refl inv)).1.trans ?_
  · cases q with
    | none => exact absurd (.inr rfl) hn
    | some a =>
      have hm : HasManager w p := Classical.byContradiction fun h => hn (.inl h)
      obtain ⟨t, ht⟩ := row_good (k := fun t => (RP.deref (some a)).bind fun a => addData (some (row t a))) ((managed_iff hv).2 hm)
      obtain ⟨u, hu, su, _⟩ := addData_same hv.1 (row t a)
      exact ⟨u, by rw [ht]; exact hu, hv.trans su⟩
  · by_cases hm : HasManager v p
    · obtain ⟨t, ht⟩ := row_good (k := fun t => (RP.deref q).bind fun a => addData (some (row t a))) hm
      rw [ht]
      rcases hb with hb | rfl
      · exact absurd ((managed_iff hv).1 hm) hb
      · rfl
    · rw [row_bad hm]
  · constructor
    · rintro ⟨x, hx, h | rfl⟩
      · exact .inl ⟨h, fun e => by rw [e] at hx; cases hx⟩
      · exact .inr hx
    · rintro (⟨h, hl⟩ | h)
      · cases l with
        | nil => exact absurd rfl hl
        | cons x l => exact ⟨x, List.mem_cons_self .., .inl h⟩
      · exact ⟨none, h, .inr rfl⟩

theorem row_iff {p : Option Nat} {row : TenantObj → Data} (inv : w.Inv) :
    (((managed p).bind fun t => addData (some (row t))) w).1 = .panic ↔ ¬ HasManager w p := by
  by_cases h : HasManager w p
  · obtain ⟨t, ht⟩ := row_good (k := fun t => addData (some (row t))) h
    obtain ⟨u, hu, _⟩ := addData_same inv (row t)
    rw [ht, hu]
    exact ⟨fun e => (by cases e), fun e => absurd h e⟩
  · rw [row_bad h]
    exact ⟨fun _ => h, fun _ => rfl⟩

/-- What the body of the loop of `AddDescendant` keeps. -/
def Kept (w : Mgr) (c : Option Nat) (v : Mgr) : Prop := SameTenants w v ∧ (HasDefault v c ↔ HasDefault w c)

theorem link_kept {c d : Nat} (inv : w.Inv) (hc : c < w.tobjs.length) (hd : d < w.tobjs.length) :
    ∃ v, link (some c) (some d) w = (.ok (), v) ∧ Kept w (some c) v := by
  obtain ⟨ct, hct⟩ := lt_get hc
  obtain ⟨dt, hdt⟩ := lt_get hd
  have e : link (some c) (some d) w = (.ok (), if (ct.desc.get dt.id).isSome then w
      else { w with tobjs := w.tobjs.set c { ct with desc := ct.desc.set dt.id d } }) := by
    rw [link_eq, linkOnly, hct, hdt]
    dsimp only
    split <;> rfl
  refine ⟨_, e, ?_⟩
  have i := AsIf.inv inv (Fine.link (p := some c) (q := some d))
  rw [e] at i
  revert i
  dsimp only
  split
  · intro i; exact ⟨.refl inv, Iff.rfl⟩
  · intro i
    refine ⟨.set (t' := { ct with desc := ct.desc.set dt.id d }) i hct rfl rfl, ?_⟩
    have hself : (w.tobjs.set c { ct with desc := ct.desc.set dt.id d })[c]? = some { ct with desc := ct.desc.set dt.id d } :=
      List.getElem?_set_self hc
    constructor
    · rintro ⟨a, t, e, ht, hn⟩
      cases e
      rw [show _ = _ from hself] at ht; cases ht
      exact ⟨c, ct, rfl, hct, hn⟩
    · rintro ⟨a, t, e, ht, hn⟩
      cases e
      rw [hct] at ht; cases ht
      exact ⟨c, _, rfl, hself, hn⟩

theorem setDefault_kept {d : Nat} {c : Option Nat} {n : Str} (inv : w.Inv) (hm : HasManager w (some d)) (hc : HasDefault w c) :
    ∃ v, tSetDefaultNamespace (some d) n w = (.ok (), v) ∧ Kept w c v := by
  obtain ⟨_, t, e, ht, hm⟩ := hm
  cases e
  have e : tSetDefaultNamespace (some d) n w = (.ok (), if (w.namespaces.get n).isSome then
      { w with tobjs := w.tobjs.set d { t with defNs := some n } } else w) := by
    rw [setDefault_eq, Mgr.tSetDefaultNamespace, Mgr.withTenant, ht]
    dsimp only
    rw [if_pos hm]
    split <;> rfl
  refine ⟨_, e, ?_⟩
  have i := AsIf.inv inv (Fine.setDefault (c := some d) (n := n))
  rw [e] at i
  revert i
  dsimp only
  split
  · intro i
    refine ⟨.set (t' := { t with defNs := some n }) i ht rfl rfl, fun _ => hc, fun _ => ?_⟩
    obtain ⟨a, s, rfl, hs, hn⟩ := hc
    by_cases hd : d = a
    · subst hd
      exact ⟨d, { t with defNs := some n }, rfl, List.getElem?_set_self (RHeap.lt_of_get ht), by simp⟩
    · exact ⟨a, s, rfl, (List.getElem?_set_ne hd).trans hs, hn⟩
  · intro i; exact ⟨.refl inv, Iff.rfl⟩

theorem descendant_iff {p : Option Nat} {ds : List (Option Nat)} (inv : w.Inv) (hp : There w.tobjs.length p) (hq : ∀ q ∈ ds, There w.tobjs.length q) :
    (RP.tAddDescendant p ds w).1 = .panic ↔ (p = none ∧ ds ≠ []) ∨ none ∈ ds ∨ HasDefault w p ∧ ∃ q ∈ ds, ¬ HasManager w q := by
  cases p with
  | none =>
    cases ds with
    | nil =>
      refine ⟨fun h => (by cases h), ?_⟩
      rintro (⟨_, h⟩ | h | ⟨_, _, h, _⟩)
      · exact absurd rfl h
      · cases h
      · cases h
    | cons d ds => exact ⟨fun _ => .inl ⟨rfl, by simp⟩, fun _ => rfl⟩
  | some c =>
  have hc := hp c rfl
  refine (each_iff (P := Kept w (some c)) (Bad := fun q => q = none ∨ HasDefault w (some c) ∧ ¬ HasManager w q)
    (fun q hq' v hv hn => ?_) (fun q hq' v hv hb => ?_) ⟨.refl inv, Iff.rfl⟩).1.trans ?_
  · cases q with
    | none => exact absurd (.inl rfl) hn
    | some d =>
      have hd := hq _ hq' d rfl
      obtain ⟨v1, h1, k1⟩ := link_kept hv.1.1 (hv.1.2.1 ▸ hc) (hv.1.2.1 ▸ hd)
      rw [bind_of h1, deref_some, ret_bind, tenantAt_bind]
      obtain ⟨ct, hct⟩ := lt_get (l := v1.tobjs) (i := c) (by rw [k1.1.2.1, hv.1.2.1]; exact hc)
      rw [hct]
      dsimp only
      have kk : Kept w (some c) v1 := ⟨hv.1.trans k1.1, k1.2.trans hv.2⟩
      cases hdn : ct.defNs with
      | none => exact ⟨v1, rfl, kk⟩
      | some n =>
        have hdef : HasDefault v1 (some c) := ⟨c, ct, rfl, hct, by rw [hdn]; simp⟩
        have hm : HasManager w (some d) := Classical.byContradiction fun h => hn (.inr ⟨kk.2.1 hdef, h⟩)
        obtain ⟨t, ht⟩ := row_good (k := fun t => (RP.deref (some n)).bind fun n => addData (some { tenant := .str t.id, namespace_ := .str n })) ((managed_iff kk.1).2 hm)
        obtain ⟨v2, h2, s2, e2⟩ := addData_same k1.1.1 { tenant := .str t.id, namespace_ := .str n }
        have hns : tAddNamespace (some d) (some n) v1 = (.ok (), v2) := by rw [tAddNamespace, ht]; exact h2
        dsimp only
        rw [bind_of hns]
        have hdef2 : HasDefault v2 (some c) := ⟨c, ct, rfl, by rw [e2]; exact hct, by rw [hdn]; simp⟩
        obtain ⟨v3, h3, k3⟩ := setDefault_kept (n := n) s2.1 ((managed_iff (kk.1.trans s2)).2 hm) hdef2
        exact ⟨v3, h3, (kk.1.trans s2).trans k3.1, fun _ => kk.2.1 hdef, fun _ => k3.2.2 hdef2⟩
  · cases q with
    | none => rfl
    | some d =>
      rcases hb with hb | ⟨hdef, hm⟩
      · cases hb
      have hd := hq _ hq' d rfl
      obtain ⟨v1, h1, k1⟩ := link_kept hv.1.1 (hv.1.2.1 ▸ hc) (hv.1.2.1 ▸ hd)
      have kk : Kept w (some c) v1 := ⟨hv.1.trans k1.1, k1.2.trans hv.2⟩
      rw [bind_of h1, deref_some, ret_bind, tenantAt_bind]
      obtain ⟨_, ct, e, hct, hdn⟩ := kk.2.2 hdef
      cases e
      rw [hct]
      dsimp only
      cases hdn' : ct.defNs with
      | none => exact absurd hdn' hdn
      | some n =>
        dsimp only
        rw [tAddNamespace]
        have : ((managed (some d)).bind fun t => (RP.deref (some n)).bind fun n => addData (some { tenant := .str t.id, namespace_ := .str n })) v1 = (.panic, v1) :=
          row_bad fun h => hm ((managed_iff kk.1).1 h)
        unfold Rec.bind at this ⊢
        rw [this]
  · constructor
    · rintro ⟨x, hx, rfl | h⟩
      · exact .inr (.inl hx)
      · exact .inr (.inr ⟨h.1, x, hx, h.2⟩)
    · rintro (⟨h, _⟩ | h | ⟨h, x, hx, hm⟩)
      · cases h
      · exact ⟨none, h, .inl rfl⟩
      · exact ⟨x, hx, .inr ⟨h, hm⟩⟩

/-- Grants panic only for want of a manager. -/
theorem grant_kept {p : Option Nat} {pr x : Str} {get : Mgr → GoMap Str Nat} {err : Err} {row : Str → Val → Data} (inv : w.Inv) (h : HasManager w p) :
    ∃ e v, grant p pr get err x row w = (.ok e, v) ∧ SameTenants w v := by
  obtain ⟨c, t, rfl, ht, hm⟩ := h
  rw [grant, managed_eq, ht]
  dsimp only
  rw [if_pos hm, read_bind]
  split
  · exact ⟨_, w, rfl, .refl inv⟩
  rw [read_bind]
  split
  · exact ⟨_, w, rfl, .refl inv⟩
  obtain ⟨v1, h1, s1, e1⟩ := addData_same inv (row t.id .nil)
  rw [bind_of h1, managed_eq, e1, ht]
  dsimp only
  rw [if_pos hm]
  cases t.defNs with
  | none => exact ⟨_, v1, rfl, s1⟩
  | some n =>
    obtain ⟨v2, h2, s2, e2⟩ := addData_same s1.1 (row t.id (.str n))
    dsimp only
    rw [bind_of h2]
    exact ⟨_, v2, rfl, s1.trans s2⟩

theorem grants_iff {p : Option Nat} {pr : Str} {get : Mgr → GoMap Str Nat} {err : Err} {row : Str → Str → Val → Data} {l : List Str} (inv : w.Inv) :
    (RP.grants (fun x => grant p pr get err x (row x)) l w).1 = .panic ↔ ¬ HasManager w p ∧ l ≠ [] := by
  cases l with
  | nil => exact ⟨fun h => (by cases h), fun h => absurd rfl h.2⟩
  | cons x l =>
    by_cases h : HasManager w p
    · refine ⟨fun e => ?_, fun e => absurd h e.1⟩
      exfalso
      have go : ∀ (l : List Str) (v : Mgr), SameTenants w v → (RP.grants (fun x => grant p pr get err x (row x)) l v).1 ≠ .panic := by
        intro l
        induction l with
        | nil => intro v _ e; cases e
        | cons x l ih =>
          intro v hv e
          obtain ⟨r, u, hu, su⟩ := grant_kept (pr := pr) (x := x) (get := get) (err := err) (row := row x) hv.1 ((managed_iff hv).2 h)
          rw [RP.grants, bind_of hu] at e
          cases r with
          | some r => cases e
          | none => exact ih u (hv.trans su) e
      exact go _ w (.refl inv) e
    · refine ⟨fun _ => ⟨h, by simp⟩, fun _ => ?_⟩
      show ((grant p pr get err x (row x)).bind _ w).1 = _
      have : grant p pr get err x (row x) w = (.panic, w) := row_bad h
      unfold Rec.bind
      rw [this]

/-- `AddPermission` panics at a nil attribute only. -/
theorem permission_nil {r : Nat} {ro : RoleObj} {g : Str} {as : List (Option Attr)} (inv : w.Inv) (hro : w.heap.roles[r]? = some ro) (hl : ro.lock = false) :
    (RP.roleAddPermission (some r) g as w).1 = .panic ↔ none ∈ as := by
  rw [RP.roleAddPermission, deref_some, ret_bind, roleAt_bind, hro]
  simp only [hl, Bool.false_eq_true, if_false]
  cases hg : ro.perms.get g with
  | none =>
    dsimp only
    rw [look_bind]
    rcases derefAll_cases as with h | ⟨x, h⟩
    · rw [h]; exact ⟨fun _ => derefAll_panic.1 h, fun _ => rfl⟩
    · rw [h]
      refine ⟨fun e => (by cases e), fun e => ?_⟩
      rw [derefAll_panic.2 e] at h; cases h
  | some ga =>
    dsimp only
    have hgo := inv.heap.perms ro (List.mem_of_getElem? hro) _ (GoMap.get_some_mem hg)
    obtain ⟨h1, h2⟩ := each_iff (w := w) (P := fun v => v.heap.roles = w.heap.roles ∧ v.heap.groups.length = w.heap.groups.length) (Bad := fun q => q = none)
      (f := keepAttr ga) (l := as) (fun q hq v hv hn => by
        cases q with
        | none => exact absurd rfl hn
        | some a =>
          obtain ⟨g', hg'⟩ := lt_get (l := v.heap.groups) (i := ga) (by rw [hv.2]; exact hgo)
          rw [keepOne hg']
          exact ⟨_, rfl, hv.1, by simp [putGroup, List.length_set, hv.2]⟩) (fun q hq v hv hb => by subst hb; rfl) ⟨rfl, rfl⟩
    by_cases hn : none ∈ as
    · refine ⟨fun _ => hn, fun _ => ?_⟩
      unfold Rec.bind
      rw [h1.2 ⟨none, hn, rfl⟩]
    · obtain ⟨v, hv, hr, _⟩ := h2 fun x hx e => hn (e ▸ hx)
      rw [bind_of hv, roleAt_bind, hr, hro]
      exact ⟨fun h => (by cases h), fun h => absurd h hn⟩

theorem collectI_panic {α β : Type} {f : Nat → α → Out (List β)} {l : List α} (h : ∀ x ∈ l, ∀ i, f i x ≠ .panic) (i : Nat) : Out.collectI f i l ≠ .panic := by
  induction l generalizing i with
  | nil => intro e; cases e
  | cons x l ih =>
    rw [Out.collectI]
    cases hx : f i x with
    | ok y =>
      intro e
      have := ih (fun z hz => h z (List.mem_cons_of_mem _ hz)) (i + 1)
      cases hl : Out.collectI f (i + 1) l with
      | ok z => rw [hl] at e; cases e
      | panic => exact this hl
      | diverge => rw [hl] at e; cases e
    | panic => exact absurd hx (h x (List.mem_cons_self ..) i)
    | diverge => intro e; cases e

theorem descendants_panic (inv : w.Inv) {o : Ord} {n : Nat} {site : List Val} {c : Nat} (hc : c < w.tobjs.length) : w.descendants o n site c ≠ .panic := by
  induction n generalizing site c with
  | zero => intro e; cases e
  | succ n ih =>
    obtain ⟨t, ht⟩ := lt_get hc
    rw [Mgr.descendants_succ, ht]
    refine collectI_panic (fun e he i h => ?_) 0
    obtain ⟨d, hd, _⟩ := inv.desc t (List.mem_of_getElem? ht) e (Ord.mem_ord.1 he)
    have := ih (site := site ++ [.int i]) (RHeap.lt_of_get hd)
    cases h' : w.descendants o n (site ++ [.int i]) e.2 with
    | ok x => rw [h'] at h; cases h
    | panic => exact this h'
    | diverge => rw [h'] at h; cases h

theorem children_panic (inv : w.Inv) {o : Ord} {fuel : Nat} {site : List Val} {id : Str} : (RP.tenantChildren o fuel site id w).1 ≠ .panic := by
  rw [children_eq, Mgr.tenantChildren]
  cases w.hierarchy.get id with
  | some l => intro e; cases e
  | none =>
    cases ht : w.tenants.get id with
    | none => intro e; cases e
    | some c =>
      obtain ⟨t, htc, _⟩ := inv.tenants _ _ ht
      dsimp only
      have := descendants_panic inv (o := o) (n := fuel) (site := site) (RHeap.lt_of_get htc)
      cases hd : w.descendants o fuel site c with
      | ok x => intro e; cases e
      | panic => exact absurd hd this
      | diverge => intro e; cases e

/-- C118. Which calls panic, for every call but `GetImplicitTenants` and `Authorize`. -/
theorem C118_when {c : NCall} (inv : w.Inv) (hp : Proper w c) (hi : ∀ o fuel site p, c ≠ .implicitTenants o fuel site p)
    (ha : ∀ o fuel site p opts, c ≠ .authorize o fuel site p opts) : (c.go w).1 = .panic ↔ Panics w c := by
  cases c with
  | newRole id => exact ⟨fun h => (by cases h), fun h => h.elim⟩
  | newGroup id => exact ⟨fun h => (by cases h), fun h => h.elim⟩
  | newTenant id => exact ⟨fun h => (by cases h), fun h => h.elim⟩
  | addTenants l =>
    refine each_nil (P := fun v => v.tobjs.length = w.tobjs.length) (fun x hx v hv => ?_) (fun v _ => rfl) rfl
    obtain ⟨t, ht⟩ := lt_get (l := v.tobjs) (i := x) (hv ▸ hp _ hx x rfl)
    rw [addTenant_eq, Mgr.addTenant, ht]
    exact ⟨_, rfl, by simp [List.length_set, hv]⟩
  | addNamespaces l => exact each_nil (P := fun _ => True) (fun x _ v _ => ⟨_, addNamespace_eq x, trivial⟩) (fun v _ => rfl) trivial
  | addScopes l => exact each_nil (P := fun _ => True) (fun x _ v _ => ⟨_, addScope_eq x, trivial⟩) (fun v _ => rfl) trivial
  | addPrincipals l => exact each_nil (P := fun _ => True) (fun x _ v _ => ⟨_, addPrincipal_eq x, trivial⟩) (fun v _ => rfl) trivial
  | addAttributes l => exact each_nil (P := fun _ => True) (fun x _ v _ => ⟨_, addAttribute_eq x, trivial⟩) (fun v _ => rfl) trivial
  | addRoles l =>
    refine each_nil (P := fun v => v.heap = w.heap) (fun x hx v hv => ?_) (fun v _ => rfl) rfl
    obtain ⟨t, ht⟩ := lt_get (l := v.heap.roles) (i := x) (by rw [hv]; exact hp _ hx x rfl)
    rw [addRole_eq, Mgr.addRole, ht]
    exact ⟨_, rfl, hv⟩
  | addAttributeGroups l =>
    refine each_nil (P := fun v => v.heap = w.heap) (fun x hx v hv => ?_) (fun v _ => rfl) rfl
    obtain ⟨t, ht⟩ := lt_get (l := v.heap.groups) (i := x) (by rw [hv]; exact hp _ hx x rfl)
    rw [addAttributeGroup_eq, Mgr.addAttributeGroup, ht]
    exact ⟨_, rfl, hv⟩
  | roleAddDescendant p ds =>
    refine drop_panic.trans ?_
    cases p with
    | none => exact ⟨fun _ => .inl rfl, fun _ => rfl⟩
    | some r =>
      obtain ⟨ro, hro⟩ := lt_get (hp.1 r rfl)
      rw [RP.roleAddDescendant, deref_some, ret_bind, roleAt_bind, hro]
      dsimp only
      cases hl : ro.lock with
      | true =>
        refine ⟨fun h => (by cases h), ?_⟩
        rintro (h | ⟨⟨_, ro', e, h, hl'⟩, _⟩)
        · cases h
        · cases e; rw [hro] at h; cases h; rw [hl] at hl'; cases hl'
      | false =>
        have hm : MayChange w (some r) := ⟨r, ro, rfl, hro, hl⟩
        refine Iff.trans ?_ ⟨fun h => .inr ⟨hm, h⟩, fun h => h.elim (fun h => by cases h) fun h => h.2⟩
        simp only [Bool.false_eq_true, if_false]
        refine then_panic.trans (each_nil (P := fun v => v.heap.roles.length = w.heap.roles.length) (fun x hx v hv => ?_) (fun v _ => rfl) rfl)
        · obtain ⟨dro, hd⟩ := lt_get (l := v.heap.roles) (i := x) (by rw [hv]; exact hp.2 _ hx x rfl)
          obtain ⟨ro', hr'⟩ := lt_get (l := v.heap.roles) (i := r) (by rw [hv]; exact hp.1 r rfl)
          rw [deref_some, ret_bind, roleAt_bind, hd]
          dsimp only
          rw [roleAt_bind, hr']
          dsimp only
          split
          · exact ⟨v, rfl, hv⟩
          · exact ⟨_, rfl, by simp [List.length_set, hv]⟩
  | roleAddPermission p g as =>
    refine drop_panic.trans ?_
    cases p with
    | none => exact ⟨fun _ => .inl rfl, fun _ => rfl⟩
    | some r =>
      obtain ⟨ro, hro⟩ := lt_get (hp r rfl)
      cases hl : ro.lock with
      | true =>
        rw [RP.roleAddPermission, deref_some, ret_bind, roleAt_bind, hro]
        dsimp only
        rw [if_pos hl]
        refine ⟨fun h => (by cases h), ?_⟩
        rintro (h | ⟨⟨_, ro', e, h, hl'⟩, _⟩)
        · cases h
        · cases e; rw [hro] at h; cases h; rw [hl] at hl'; cases hl'
      | false =>
        have hm : MayChange w (some r) := ⟨r, ro, rfl, hro, hl⟩
        refine Iff.trans ?_ ⟨fun h => .inr ⟨hm, h⟩, fun h => h.elim (fun h => by cases h) fun h => h.2⟩
        exact permission_nil inv hro hl
  | roleAddGroup p q =>
    refine drop_panic.trans ?_
    cases p with
    | none => exact ⟨fun _ => .inl rfl, fun _ => rfl⟩
    | some r =>
      obtain ⟨ro, hro⟩ := lt_get (hp.1 r rfl)
      rw [RP.roleAddGroup, deref_some, ret_bind, roleAt_bind, hro]
      dsimp only
      cases hl : ro.lock with
      | true =>
        refine ⟨fun h => (by cases h), ?_⟩
        rintro (h | ⟨⟨_, ro', e, h, hl'⟩, _⟩)
        · cases h
        · cases e; rw [hro] at h; cases h; rw [hl] at hl'; cases hl'
      | false =>
        have hm : MayChange w (some r) := ⟨r, ro, rfl, hro, hl⟩
        refine Iff.trans ?_ ⟨fun h => .inr ⟨hm, h⟩, fun h => h.elim (fun h => by cases h) fun h => h.2⟩
        simp only [Bool.false_eq_true, if_false]
        cases q with
        | none => exact ⟨fun _ => rfl, fun _ => rfl⟩
        | some ga =>
          obtain ⟨g, hg⟩ := lt_get (hp.2 ga rfl)
          rw [deref_some, ret_bind, groupAt_bind, hg]
          dsimp only
          refine ⟨fun h => ?_, fun h => (by cases h)⟩
          split at h <;> cases h
  | roleLock p b =>
    cases p with
    | none => exact ⟨fun _ => rfl, fun _ => rfl⟩
    | some r =>
      obtain ⟨ro, hro⟩ := lt_get (hp r rfl)
      show (RP.roleLock (some r) b w).1 = _ ↔ _
      rw [lock_eq, RHeap.setLock, hro]
      exact ⟨fun h => (by cases h), fun h => (by cases h)⟩
  | groupAddAttributes p as =>
    cases p with
    | none =>
      refine Iff.trans (b := as ≠ []) ?_ ⟨fun h => .inl ⟨rfl, h⟩, fun h => h.elim (fun h => h.2) fun h e => by rw [e] at h; cases h⟩
      cases as with
      | nil => exact ⟨fun h => (by cases h), fun h => absurd rfl h⟩
      | cons q as => cases q <;> exact ⟨fun _ => by simp, fun _ => rfl⟩
    | some ga =>
      refine Iff.trans ?_ ⟨fun h => .inr h, fun h => h.elim (fun h => by cases h.1) id⟩
      refine each_nil (P := fun v => v.heap.groups.length = w.heap.groups.length) (fun x hx v hv => ?_) (fun v _ => rfl) rfl
      obtain ⟨g, hg⟩ := lt_get (l := v.heap.groups) (i := ga) (by rw [hv]; exact hp ga rfl)
      rw [deref_some, ret_bind, deref_some, ret_bind, groupAt_bind, hg]
      exact ⟨_, rfl, by simp [List.length_set, hv]⟩
  | addPermissionsToRole r g as =>
    refine drop_panic.trans ?_
    rw [RP.addPermissionsToRole, read_bind]
    cases hr : w.roles.get r with
    | none => exact ⟨fun h => (by cases h), fun ⟨⟨x, h⟩, _⟩ => by rw [hr] at h; cases h⟩
    | some ra =>
      dsimp only
      rw [read_bind]
      cases hga : w.attrGroups.get g with
      | none => exact ⟨fun h => (by cases h), fun ⟨_, ga, _, h, _⟩ => by rw [hga] at h; cases h⟩
      | some ga =>
        obtain ⟨go, hgo, _⟩ := inv.groups _ _ hga
        dsimp only
        rw [groupAt_bind, hgo]
        dsimp only
        rw [look_bind]
        refine Iff.trans (b := associated go as = .panic) ?_ (associated_panic.trans
          ⟨fun h => ⟨⟨ra, hr⟩, ga, go, hga, hgo, h⟩, fun ⟨_, ga', go', h1, h2, h⟩ => by rw [hga] at h1; cases h1; rw [hgo] at h2; cases h2; exact h⟩)
        cases ha : associated go as with
        | panic => exact ⟨fun _ => rfl, fun _ => rfl⟩
        | diverge => exact ⟨fun h => (by cases h), fun h => (by cases h)⟩
        | ok b =>
          refine ⟨fun h => ?_, fun h => (by cases h)⟩
          dsimp only at h
          cases b with
          | false => cases h
          | true =>
            obtain ⟨l, rfl⟩ := associated_true ha
            obtain ⟨ro, hro, _⟩ := inv.roles _ _ hr
            obtain ⟨e, he⟩ := perm_ok (group := g) (as := l) inv hro
            rw [if_pos rfl, he] at h
            cases h
  | addData d =>
    cases d with
    | none => exact ⟨fun h => (by cases h), fun h => h.elim⟩
    | some d =>
      obtain ⟨u, hu, _⟩ := addData_same inv d
      show (RP.addData (some d) w).1 = _ ↔ _
      rw [hu]
      exact ⟨fun h => (by cases h), fun h => h.elim⟩
  | tAddNamespaces p l => exact rows_iff inv (row := fun t n => { tenant := .str t.id, namespace_ := .str n })
  | tAddRoles p l => exact rows_iff inv (row := fun t n => { tenant := .str t.id, role := .str n })
  | tAddScopes p l => exact rows_iff inv (row := fun t n => { tenant := .str t.id, scope := .str n })
  | tAddScopesToNamespace p n s => exact row_iff inv
  | tSetDefaultNamespace p n =>
    by_cases h : HasManager w p
    · refine ⟨fun e => ?_, fun e => absurd h e⟩
      obtain ⟨c, t, rfl, ht, hm⟩ := h
      have e : (RP.tSetDefaultNamespace (some c) n w).1 = .panic := e
      rw [setDefault_eq, Mgr.tSetDefaultNamespace, Mgr.withTenant, ht] at e
      dsimp only at e
      rw [if_pos hm] at e
      split at e <;> cases e
    · refine ⟨fun _ => h, fun _ => ?_⟩
      show (RP.tSetDefaultNamespace p n w).1 = _
      rw [RP.tSetDefaultNamespace, row_bad h]
  | tAddPrincipalInNamespace p pr n r => exact row_iff inv
  | tAddDescendant p ds => exact descendant_iff inv hp.1 hp.2
  | tAddPrincipal p pr m l => exact drop_panic.trans (grants_iff inv)
  | tAssignScopes p pr m l => exact drop_panic.trans (grants_iff inv)
  | tenantChildren o fuel site id =>
    refine drop_panic.trans ⟨fun h => absurd h (children_panic inv), fun h => h.elim⟩
  | implicitTenants o fuel site p => exact absurd rfl (hi o fuel site p)
  | authorize o fuel site p opts => exact absurd rfl (ha o fuel site p opts)

theorem addDescs_ok {l : List Val} (h : ∀ v ∈ l, ∃ x, v = .str x) (E : List Str) : ∃ E', Mgr.addDescs E l = .ok E' := by
  induction l generalizing E with
  | nil => exact ⟨E, rfl⟩
  | cons v l ih =>
    obtain ⟨x, rfl⟩ := h v (List.mem_cons_self ..)
    rw [Mgr.addDescs]
    exact ih (fun y hy => h y (List.mem_cons_of_mem _ hy)) _

theorem children_strings (inv : w.Inv) {o : Ord} {fuel : Nat} {site : List Val} {id : Str} {l : List Val}
    (h : (RP.tenantChildren o fuel site id w).1 = .ok l) : ∀ v ∈ l, ∃ x, v = .str x := by
  rw [children_eq, Mgr.tenantChildren] at h
  cases hh : w.hierarchy.get id with
  | some m =>
    rw [hh] at h; cases h
    intro v hv
    obtain ⟨x, e, _⟩ := inv.hier _ _ hh v hv
    exact ⟨x, e⟩
  | none =>
    rw [hh] at h
    dsimp only at h
    cases ht : w.tenants.get id with
    | none => rw [ht] at h; cases h; intro v hv; cases hv
    | some c =>
      rw [ht] at h
      dsimp only at h
      cases hd : w.descendants o fuel site c with
      | ok ds =>
        rw [hd] at h; cases h
        intro v hv
        obtain ⟨x, _, rfl⟩ := List.mem_map.1 hv
        exact ⟨x, rfl⟩
      | panic => rw [hd] at h; cases h
      | diverge => rw [hd] at h; cases h

theorem loop_panic {o : Ord} {fuel : Nat} {site : List Val} {rows : List Data} {i : Nat} {E : List Str} (inv : w.Inv)
    (hd : (RP.implicitLoop o fuel site i rows E w).1 ≠ .diverge) :
    (RP.implicitLoop o fuel site i rows E w).1 = .panic ↔ ∃ d ∈ rows, ∀ t, d.tenant ≠ .str t := by
  induction rows generalizing i E w with
  | nil => exact ⟨fun h => (by cases h), fun ⟨_, h, _⟩ => (by cases h)⟩
  | cons row rows ih =>
    by_cases hs : ∃ t, row.tenant = .str t
    · obtain ⟨t, ht⟩ := hs
      have key : (∃ d ∈ row :: rows, ∀ t, d.tenant ≠ .str t) ↔ ∃ d ∈ rows, ∀ t, d.tenant ≠ .str t := by
        constructor
        · rintro ⟨d, hm, h⟩
          rcases List.mem_cons.1 hm with rfl | hm
          · exact absurd ht (h t)
          · exact ⟨d, hm, h⟩
        · rintro ⟨d, hm, h⟩; exact ⟨d, List.mem_cons_of_mem _ hm, h⟩
      rw [key]
      rw [RP.implicitLoop, ht] at hd ⊢
      dsimp only at hd ⊢
      by_cases hE : t ∈ E
      · rw [if_pos hE] at hd ⊢; exact ih inv hd
      rw [if_neg hE] at hd ⊢
      by_cases hm : row.manage = .bool true
      · rw [if_pos hm] at hd ⊢
        cases hc : RP.tenantChildren o fuel (site ++ [.int i]) t w with
        | mk a v =>
          cases a with
          | ok l =>
            have hv : v.Inv := by
              have := AsIf.inv inv (show Fine (RP.tenantChildren o fuel (site ++ [.int i]) t) w from
                Fine.whole (op := .tenantChildren o fuel (site ++ [.int i]) t) children_eq rfl)
              rw [hc] at this; exact this
            obtain ⟨E', hE'⟩ := addDescs_ok (children_strings inv (by rw [hc])) (E ++ [t])
            rw [bind_of hc, look_bind, hE'] at hd ⊢
            exact ih hv hd
          | panic => exact absurd (by rw [hc]) (children_panic inv (o := o) (fuel := fuel) (site := site ++ [.int i]) (id := t))
          | diverge => exact absurd (by unfold Rec.bind; rw [hc]) hd
      · rw [if_neg hm] at hd ⊢; exact ih inv hd
    · refine ⟨fun _ => ⟨row, List.mem_cons_self .., fun t e => hs ⟨t, e⟩⟩, fun _ => ?_⟩
      rw [RP.implicitLoop]
      cases ht : row.tenant with
      | str t => exact absurd ⟨t, ht⟩ hs
      | nil => rfl
      | bool b => rfl
      | int z => rfl

/-- C118. `GetImplicitTenants` panics, unless it runs out of stack, exactly when nothing is cached for the principal and a stored row
names it with a tenant that is not a string. -/
theorem C118_when_asked {o : Ord} {fuel : Nat} {site : List Val} {p : Str} (inv : w.Inv) (hd : (RP.implicitTenants o fuel site p w).1 ≠ .diverge) :
    (RP.implicitTenants o fuel site p w).1 = .panic ↔
      w.pcache.get p = none ∧ ∃ d, Stored w d ∧ d.principal = .str p ∧ d.tenant ≠ .nil ∧ ∀ t, d.tenant ≠ .str t := by
  rw [RP.implicitTenants, read_bind] at hd ⊢
  cases hp : w.pcache.get p with
  | some I => exact ⟨fun h => (by cases h), fun h => (by cases h.1)⟩
  | none =>
    rw [hp] at hd
    dsimp only at hd ⊢
    rw [read_bind] at hd ⊢
    have hl : (RP.implicitLoop o fuel (site ++ [.int 1]) 0 (w.search o (site ++ [.int 0]) { principal := .str p } filterTenantsByPrincipal) [] w).1 ≠ .diverge := by
      intro e; apply hd; unfold Rec.bind; rw [e]
    have := loop_panic inv hl
    refine Iff.trans ?_ (this.trans ?_)
    · unfold Rec.bind
      generalize RP.implicitLoop o fuel (site ++ [.int 1]) 0 (w.search o (site ++ [.int 0]) { principal := .str p } filterTenantsByPrincipal) [] w = y
      obtain ⟨a, v⟩ := y
      cases a with
      | ok E => exact ⟨fun h => (by cases h), fun h => (by cases h)⟩
      | panic => exact ⟨fun _ => rfl, fun _ => rfl⟩
      | diverge => exact ⟨fun h => (by cases h), fun h => (by cases h)⟩
    · have hf : ∀ d, filterTenantsByPrincipal { principal := .str p } d = true ↔ d.principal = .str p ∧ d.tenant ≠ .nil := by
        intro d
        unfold filterTenantsByPrincipal
        rw [Bool.and_eq_true, Mgr.matchPrincipal_iff]
        unfold isNil
        constructor
        · rintro ⟨⟨_, h⟩, h'⟩; exact ⟨h, by simpa using h'⟩
        · rintro ⟨h, h'⟩; exact ⟨⟨by rw [h]; simp, h⟩, by simpa using h'⟩
      constructor
      · rintro ⟨d, hm, h⟩
        obtain ⟨hs, hm⟩ := (Mgr.mem_search inv).1 hm
        exact ⟨rfl, d, hs, ((hf d).1 hm).1, ((hf d).1 hm).2, h⟩
      · rintro ⟨_, d, hs, h1, h2, h⟩
        exact ⟨d, (Mgr.mem_search inv).2 ⟨hs, (hf d).2 ⟨h1, h2⟩⟩, h⟩

/-- C118. `Authorize` with a nil option panics for a registered principal and leaves everything; for a principal that is not registered it
answers no whatever the options. -/
theorem C118_when_nil {o : Ord} {fuel : Nat} {site : List Val} {p : Str} {opts : List (Option Opt)} :
    (∀ x, w.principals.get p = some x → none ∈ opts → RP.authorize o fuel site p opts w = (.panic, w)) ∧
    (w.principals.get p = none → RP.authorize o fuel site p opts w = (.ok false, w)) := by
  constructor
  · intro x hx hn
    rw [RP.authorize, read_bind, hx]
    simp only [Option.isNone_some, Bool.false_eq_true, if_false]
    rw [look_bind, derefAll_panic.2 hn]
  · intro hx
    rw [RP.authorize, read_bind, hx]
    rfl

/-- A group with reading in it, and a role. -/
def exGroup : List NCall :=
  [.newGroup (str "g"), .groupAddAttributes (some 0) [some exRead], .addAttributeGroups [some 0], .newRole (str "r"), .addRoles [some 0], .addPrincipals [some (str "p", 0)]]

/-- C118. A nil attribute after an associated one panics, after one that is not associated it is not looked at; a tenant that is a number
panics, and no longer once a list is cached. -/
theorem C118_when_cases :
    panics {} (exGroup ++ [.addPermissionsToRole (str "r") (str "g") [some exRead, none], .addPermissionsToRole (str "r") (str "g") [some exDrop, none],
      .addPermissionsToRole (str "s") (str "g") [none], .groupAddAttributes none [], .roleLock (some 0) true, .roleAddPermission (some 0) (str "g") [none],
      .roleAddGroup (some 0) none]) = [false, false, false, false, false, false, true, false, false, false, false, false, false] ∧
    panics {} (exGroup ++ [.implicitTenants .fwd 9 [] (str "p"), .addData (some { tenant := .int 3, principal := .str (str "p") }), .implicitTenants .fwd 9 [] (str "p")]) =
      [false, false, false, false, false, false, false, false, false] ∧
    panics {} (exGroup ++ [.addData (some { tenant := .int 3, principal := .str (str "p") }), .implicitTenants .fwd 9 [] (str "p")]) =
      [false, false, false, false, false, false, false, true] :=
  ⟨by decide +kernel, by decide +kernel, by decide +kernel⟩

end RP
end Verif
