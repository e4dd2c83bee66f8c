import Verif.Props.Cost
import Verif.Props.Reports
import Verif.Props.Manager
import Verif.Props.V1Getters

/-! # How often listings name the same thing (C123, C124) -/

namespace Verif
open Spec

namespace RHeap
variable {h : RHeap} {o : Ord} {n : Nat} {site : List Val} {r : Nat}

theorem count_sum (l : List Nat) (d : Nat) : (l.map fun x => if x = d then 1 else 0).sum = l.count d := by
  induction l with
  | nil => rfl
  | cons a l ih =>
    rw [List.map_cons, List.sum_cons, ih, List.count_cons]
    by_cases e : a = d
    · simp [e]; omega
    · simp [e]

theorem length_sum {α : Type} (l : List α) : (l.map fun _ => 1).sum = l.length := by
  induction l with
  | nil => rfl
  | cons a l ih => rw [List.map_cons, List.sum_cons, ih, List.length_cons]; omega

theorem descRoles_sumTo {ds : List Nat} (hd : h.descRoles o n site r = .ok ds) {H : Nat}
    (hH : walks (roleKids h) (H + 1) r = 0) (f : Nat → Nat) :
    (ds.map f).sum = sumTo H fun k => walkSum (roleKids h) f (k + 1) r := by
  rw [descRoles_sum hd, ← geo_stable hd (Nat.le_max_left n H), geo_high hH (Nat.le_max_right n H), geo_eq]
  simp only [Nat.one_pow, Nat.one_mul]

/-- Walks are no longer than the recursion is deep. -/
theorem walks_zero {ds : List Nat} (hd : h.descRoles o n site r = .ok ds) : walks (roleKids h) n r = 0 := by
  induction n generalizing site r ds with
  | zero => cases hd
  | succ n ih =>
    rw [descRoles_succ] at hd
    cases hr : h.roles[r]? with
    | none => rw [hr] at hd; cases hd
    | some ro =>
      rw [hr] at hd
      simp only at hd
      show ((roleKids h r).map (walks (roleKids h) n)).sum = 0
      rw [← sum_zero (roleKids h r), roleKids_some hr]
      refine sum_congr fun c hc => ?_
      obtain ⟨e, he, rfl⟩ := List.mem_map.1 hc
      obtain ⟨j, ys, hy⟩ := Out.collectI_all hd e (Ord.mem_ord.2 he)
      obtain ⟨ds', h1, _⟩ := Out.map_eq_ok.1 hy
      exact ih h1

end RHeap

section roles
variable {h : RHeap} {o : Ord} {n : Nat} {site : List Val} {r : Nat}

/-! ## C123 -/

/-- C123. `GetDescendantRoles` lists a role exactly as often as there are walks down to it. -/
theorem C123_roles {ds : List Nat} (hd : h.descRoles o n site r = .ok ds) {H : Nat}
    (hH : walks (roleKids h) (H + 1) r = 0) (d : Nat) : ds.count d = sumTo H fun k => walksTo (roleKids h) (k + 1) r d := by
  rw [← RHeap.count_sum, RHeap.descRoles_sumTo hd hH]; rfl

/-- C123. The length of the list is the number of walks. -/
theorem C123_roles_length {ds : List Nat} (hd : h.descRoles o n site r = .ok ds) {H : Nat}
    (hH : walks (roleKids h) (H + 1) r = 0) : ds.length = sumTo H fun k => walks (roleKids h) (k + 1) r := by
  rw [← RHeap.length_sum, RHeap.descRoles_sumTo hd hH]; rfl

/-- C123 as intended: no descendant is listed twice. -/
def C123_full : Prop := ∀ ops h o n site r ds, RoleOp.run {} ops = .ok h → h.descRoles o n site r = .ok ds → ds.Nodup

/-- a > b, c > d. -/
def exDiamond : List RoleOp := [.newRole (str "a"), .newRole (str "b"), .newRole (str "c"), .newRole (str "d"),
  .addDesc 0 [1, 2], .addDesc 1 [3], .addDesc 2 [3]]

/-- C123. Two walks, two entries. -/
theorem C123_counterexample : ∃ h, RoleOp.run {} exDiamond = .ok h ∧ h.descRoles .fwd 4 [] 0 = .ok [1, 3, 2, 3] :=
  Out.chk_ok (by decide +kernel)

theorem C123_full_false : ¬ C123_full := fun hf => by
  obtain ⟨h, h1, h2⟩ := C123_counterexample
  exact absurd (hf _ h _ _ _ _ _ h1 h2) (by decide)

theorem desc_last {r d : Nat} (hd : Desc h r d) : Child h r d ∨ ∃ p, Desc h r p ∧ Child h p d := by
  induction hd with
  | child hc => exact .inl hc
  | step hc _ ih =>
    rcases ih with ih | ⟨p, h1, h2⟩
    · exact .inr ⟨_, .child hc, ih⟩
    · exact .inr ⟨p, .step hc h1, h2⟩

/-- Where every role has one parent at most, two roles above a third are one above the other. -/
theorem line_up (tree : ∀ a b d, Child h a d → Child h b d → a = b) {a x : Nat} (ha : a = x ∨ Desc h a x) :
    ∀ {b}, (b = x ∨ Desc h b x) → a = b ∨ Desc h a b ∨ Desc h b a := by
  suffices H : ∀ {a x}, Desc h a x → ∀ {b}, (b = x ∨ Desc h b x) → a = b ∨ Desc h a b ∨ Desc h b a by
    intro b hb
    rcases ha with rfl | ha
    · rcases hb with rfl | hb
      · exact .inl rfl
      · exact .inr (.inr hb)
    · exact H ha hb
  intro a x ha
  induction ha with
  | @child a x hc =>
    rintro b (rfl | hb)
    · exact .inr (.inl (.child hc))
    · rcases desc_last hb with hb | ⟨p, h1, h2⟩
      · exact .inl (tree _ _ _ hc hb)
      · rw [← tree _ _ _ hc h2] at h1
        exact .inr (.inr h1)
  | @step a c x hc hd ih =>
    rintro b hb
    rcases ih hb with rfl | h1 | h1
    · exact .inr (.inl (.child hc))
    · exact .inr (.inl (.step hc h1))
    · rcases desc_last h1 with h1 | ⟨p, h1, h2⟩
      · exact .inl (tree _ _ _ hc h1)
      · rw [← tree _ _ _ hc h2] at h1
        exact .inr (.inr h1)

theorem collectI_nodup {α β : Type} {f : Nat → α → Out (List β)} {xs : List α} {i : Nat} {r : List β}
    {P : α → β → Prop} (hx : xs.Nodup) (hmem : ∀ j, ∀ x ∈ xs, ∀ ys, f j x = .ok ys → ys.Nodup ∧ ∀ y ∈ ys, P x y)
    (hdis : ∀ x ∈ xs, ∀ x' ∈ xs, ∀ y, P x y → P x' y → x = x') (h : Out.collectI f i xs = .ok r) :
    r.Nodup ∧ ∀ y ∈ r, ∃ x ∈ xs, P x y := by
  induction xs generalizing i r with
  | nil => simp only [Out.collectI, Out.ok.injEq] at h; subst h; simp
  | cons x xs ih =>
    simp only [Out.collectI, Out.bind_eq_ok, Out.ok.injEq] at h
    obtain ⟨ys, h1, zs, h2, rfl⟩ := h
    obtain ⟨n1, p1⟩ := hmem i x (by simp) ys h1
    obtain ⟨hx1, hx2⟩ := List.nodup_cons.1 hx
    obtain ⟨n2, p2⟩ := ih hx2 (fun j y hy => hmem j y (by simp [hy]))
      (fun x hx x' hx' => hdis x (by simp [hx]) x' (by simp [hx'])) h2
    refine ⟨List.nodup_append.2 ⟨n1, n2, ?_⟩, fun y hy => ?_⟩
    · rintro y hy y' hy' rfl
      obtain ⟨x', hx', hp⟩ := p2 _ hy'
      have := hdis x (by simp) x' (by simp [hx']) _ (p1 _ hy) hp
      subst this
      exact hx1 hx'
    · rcases List.mem_append.1 hy with hy | hy
      · exact ⟨x, by simp, p1 y hy⟩
      · obtain ⟨x', hx', hp⟩ := p2 y hy
        exact ⟨x', by simp [hx'], hp⟩

/-- C123. Where every role is a direct descendant of one role at most, and once, nothing is listed twice.
Missing: roles with two parents, for which it is false when both are below the role asked. -/
theorem C123_tree_partial (tree : ∀ a b d, Child h a d → Child h b d → a = b)
    (once : ∀ a, (roleKids h a).Nodup) {ds : List Nat} (hd : h.descRoles o n site r = .ok ds) : ds.Nodup := by
  induction n generalizing site r ds with
  | zero => cases hd
  | succ n ih =>
    have hacc := RHeap.descRoles_acc hd
    have hd0 := hd
    rw [RHeap.descRoles_succ] at hd
    cases hr : h.roles[r]? with
    | none => rw [hr] at hd; cases hd
    | some ro =>
      rw [hr] at hd
      simp only at hd
      have hch : ∀ e ∈ o.ord site _ ro.desc, Child h r e.2 := fun e he => ⟨ro, e.1, hr, Ord.mem_ord.1 he⟩
      have nocycle : ∀ {d}, Desc h r d → ¬ Desc h d r := fun h1 h2 =>
        not_acc_of_desc_self (RHeap.desc_trans h1 h2) hacc
      refine (collectI_nodup (P := fun (e : Str × Nat) y => y = e.2 ∨ Desc h e.2 y) ?_ ?_ ?_ hd).1
      · rw [Ord.ord_nodup]
        have := once r
        rw [RHeap.roleKids_some hr] at this
        exact List.Nodup.of_map _ this
      · intro j e he ys hy
        obtain ⟨ds', h1, rfl⟩ := Out.map_eq_ok.1 hy
        refine ⟨List.nodup_cons.2 ⟨fun hm => ?_, ih h1⟩, fun y hy => ?_⟩
        · have h2 := (RHeap.descRoles_mem h1 _).1 hm
          exact not_acc_of_desc_self h2 (RHeap.descRoles_acc h1)
        · rcases List.mem_cons.1 hy with rfl | hy
          · exact .inl rfl
          · exact .inr ((RHeap.descRoles_mem h1 _).1 hy)
      · intro e he e' he' y h1 h2
        have key : ∀ {e e'}, e ∈ o.ord site _ ro.desc → e' ∈ o.ord site _ ro.desc → ¬ Desc h e.2 e'.2 := by
          intro e e' he he' hde
          rcases desc_last hde with h1 | ⟨p, h1, h2⟩
          · have := tree _ _ _ (hch e' he') h1
            exact nocycle (.child (hch e he)) (.child (this ▸ hch e he))
          · have := tree _ _ _ (hch e' he') h2
            subst this
            exact nocycle (.child (hch e he)) h1
        rcases line_up tree (h1.imp Eq.symm id) (h2.imp Eq.symm id) with h3 | h3 | h3
        · have hm := Ord.mem_ord.1 he
          have hm' := Ord.mem_ord.1 he'
          have := once r
          rw [RHeap.roleKids_some hr] at this
          exact List.inj_on_of_nodup_map this hm hm' h3
        · exact absurd h3 (key he he')
        · exact absurd h3 (key he' he)

/-- C123. Nothing is listed twice exactly when no role can be reached in two ways. -/
theorem C123_roles_nodup {ds : List Nat} (hd : h.descRoles o n site r = .ok ds) {H : Nat}
    (hH : walks (roleKids h) (H + 1) r = 0) :
    ds.Nodup ↔ ∀ d, (sumTo H fun k => walksTo (roleKids h) (k + 1) r d) ≤ 1 := by
  rw [List.nodup_iff_count]
  exact forall_congr' fun d => by rw [C123_roles hd hH]

/-- C123. A tree of four roles, listed without repetition in whatever order. -/
example : ∃ h, RoleOp.run {} [.newRole (str "a"), .newRole (str "b"), .newRole (str "c"), .newRole (str "d"),
      .addDesc 0 [1, 2], .addDesc 1 [3]] = .ok h ∧ h.descRoles .fwd 4 [] 0 = .ok [1, 3, 2] ∧
    h.descRoles .rev 4 [] 0 = .ok [2, 1, 3] ∧ walks (roleKids h) 3 0 = 0 ∧ walksTo (roleKids h) 2 0 3 = 1 ∧
    ∀ a < 4, (roleKids h a).Nodup ∧ ∀ b < 4, ∀ d ∈ roleKids h a, d ∈ roleKids h b → a = b := by
  refine ⟨_, rfl, ?_⟩
  decide +kernel

end roles

/-! ### Tenants -/

/-- The direct descendants of a tenant. -/
def Spec.tenantKids (w : Mgr) (c : Nat) : List Nat :=
  match w.tobjs[c]? with
  | none => []
  | some t => t.desc.map (·.2)

/-- The direct descendants of a tenant in package v1. -/
def Spec.v1Kids (w : V1) (c : Nat) : List Nat :=
  match w.tobjs[c]? with
  | none => []
  | some t => t.desc.map (·.2)

namespace Mgr
variable {w : Mgr} {o : Ord}

/-- The tenants with their links only, as a role heap. -/
def tlinks (w : Mgr) : RHeap := { roles := w.tobjs.map fun t => { id := t.id, desc := t.desc } }

/-- The id of a tenant. -/
def tid (w : Mgr) (c : Nat) : Str := ((w.tobjs[c]?).map (·.id)).getD []

theorem tlinks_kids : roleKids w.tlinks = tenantKids w := by
  funext c
  unfold roleKids tenantKids tlinks
  simp only [List.getElem?_map]
  cases w.tobjs[c]? <;> rfl

theorem collectI_map {α β γ : Type} {f : Nat → α → Out (List β)} {g : Nat → α → Out (List γ)} {φ : β → γ} {xs : List α} {i : Nat}
    (h : ∀ j, ∀ x ∈ xs, g j x = (f j x).map (·.map φ)) : Out.collectI g i xs = (Out.collectI f i xs).map (·.map φ) := by
  induction xs generalizing i with
  | nil => rfl
  | cons x xs ih =>
    rw [Out.collectI, Out.collectI, h i x (by simp), ih fun j y hy => h j y (by simp [hy])]
    cases f i x with
    | panic => rfl
    | diverge => rfl
    | ok a =>
      simp only [Out.map_ok, Out.bind_ok]
      cases Out.collectI f (i + 1) xs with
      | panic => rfl
      | diverge => rfl
      | ok b => simp only [Out.map_ok, Out.bind_ok, List.map_append]

theorem descendants_eq (inv : w.Inv) {n : Nat} {site : List Val} {c : Nat} :
    w.descendants o n site c = (w.tlinks.descRoles o n site c).map (·.map w.tid) := by
  induction n generalizing site c with
  | zero => rfl
  | succ n ih =>
    rw [descendants_succ, RHeap.descRoles_succ]
    simp only [tlinks, List.getElem?_map]
    cases hc : w.tobjs[c]? with
    | none => rfl
    | some t =>
      simp only [Option.map_some]
      refine collectI_map fun j e he => ?_
      rw [ih]
      obtain ⟨d, h1, h2⟩ := inv.desc t (List.mem_of_getElem? hc) e (Ord.mem_ord.1 he)
      have : w.tid e.2 = e.1 := by unfold tid; rw [h1]; exact h2
      show _ = Out.map _ (Out.map _ (w.tlinks.descRoles o n (site ++ [.int j]) e.2))
      cases w.tlinks.descRoles o n (site ++ [.int j]) e.2 with
      | panic => rfl
      | diverge => rfl
      | ok ds => simp only [Out.map_ok, List.map_cons, this]

/-- C123. `GetDescendants` of a tenant (root package) names an id as often as there are walks down to tenants with that id. -/
theorem _root_.Verif.C123_tenants (inv : w.Inv) {n : Nat} {site : List Val} {c : Nat} {ds : List Str}
    (hd : w.descendants o n site c = .ok ds) {H : Nat} (hH : walks (tenantKids w) (H + 1) c = 0) (x : Str) :
    ds.count x = sumTo H fun k =>
      walkSum (tenantKids w) (fun d => if (w.tobjs[d]?).map (·.id) = some x then 1 else 0) (k + 1) c := by
  rw [descendants_eq inv] at hd
  obtain ⟨es, h1, rfl⟩ := Out.map_eq_ok.1 hd
  rw [← tlinks_kids] at hH ⊢
  rw [← RHeap.descRoles_sumTo h1 hH]
  have hlt : ∀ d ∈ es, ∃ t, w.tobjs[d]? = some t := by
    intro d hd
    have : ∀ {c d}, Desc w.tlinks c d → ∃ t, w.tobjs[d]? = some t := by
      intro c d hd
      induction hd with
      | @child c d hc =>
        obtain ⟨ro, k, h2, h3⟩ := hc
        simp only [tlinks, List.getElem?_map, Option.map_eq_some_iff] at h2
        obtain ⟨t, h4, rfl⟩ := h2
        obtain ⟨t', h5, _⟩ := inv.desc t (List.mem_of_getElem? h4) _ h3
        exact ⟨t', h5⟩
      | step _ _ ih => exact ih
    exact this ((RHeap.descRoles_mem h1 d).1 hd)
  clear h1 hd
  induction es with
  | nil => rfl
  | cons e es ih =>
    obtain ⟨t, ht⟩ := hlt e (by simp)
    rw [List.map_cons, List.count_cons, ih fun d hd => hlt d (by simp [hd]), List.map_cons, List.sum_cons]
    unfold tid
    rw [ht]
    simp only [Option.map_some, Option.getD_some, Option.some.injEq]
    by_cases e : t.id = x
    · simp [e]; omega
    · simp [e]

end Mgr

namespace V1
variable {w : V1} {o : Ord}

theorem links_kids : roleKids w.links = v1Kids w := by
  funext c
  unfold roleKids v1Kids links
  simp only [List.getElem?_map]
  cases w.tobjs[c]? <;> rfl

/-- C123. `GetDescendantTenants` of package v1 lists a tenant exactly as often as there are walks down to it. -/
theorem _root_.Verif.C123_v1_tenants {n : Nat} {site : List Val} {c : Nat} {ds : List Nat}
    (hd : w.descTenants o n site c = .ok ds) {H : Nat} (hH : walks (v1Kids w) (H + 1) c = 0) (d : Nat) :
    ds.count d = sumTo H fun k => walksTo (v1Kids w) (k + 1) c d := by
  rw [descTenants_eq] at hd
  rw [← links_kids] at hH ⊢
  exact C123_roles hd hH d

end V1

/-- C123. Two departments sharing a team: both packages name the team twice. -/
example : (∃ w, MOp.run {} [.newTenant (str "a"), .newTenant (str "b"), .newTenant (str "c"), .newTenant (str "d"),
      .addTenant 0, .addTenant 1, .addTenant 2, .addTenant 3, .tAddDescendant 0 [1, 2], .tAddDescendant 1 [3], .tAddDescendant 2 [3]] = .ok w ∧
      w.descendants .fwd 4 [] 0 = .ok [str "b", str "d", str "c", str "d"]) ∧
    ∃ w, V1Op.run {} [.newTenant (str "a"), .newTenant (str "b"), .newTenant (str "c"), .newTenant (str "d"),
      .tAddDescendent 0 [1, 2], .tAddDescendent 1 [3], .tAddDescendent 2 [3]] = .ok w ∧
      w.descTenants .fwd 4 [] 0 = .ok [1, 3, 2, 3] :=
  ⟨Out.chk_ok (by decide +kernel), Out.chk_ok (by decide +kernel)⟩

/-! ## C124 -/

open Classical in
/-- 1 if the role has the attribute in its own group of that name, otherwise 0. -/
noncomputable def Spec.carries (h : RHeap) (k : Str) (a : Attr) (d : Nat) : Nat :=
  if ∃ g, GroupOf h d k g ∧ ∃ key, (key, a) ∈ g.perms then 1 else 0

namespace RHeap
variable {h : RHeap} {o : Ord}

/-- How often the map lists the attribute under the group. -/
def _root_.Verif.Spec.times (m : GoMap Str (List Attr)) (k : Str) (a : Attr) : Nat := ((m.get k).getD []).count a

theorem times_append (m : GoMap Str (List Attr)) (k k' : Str) (l : List Attr) (a : Attr) :
    times (appendTo m k' l) k a = times m k a + if k' = k then l.count a else 0 := by
  unfold times appendTo
  rw [GoMap.get_set]
  by_cases e : k' = k
  · subst e; simp
  · simp [e]

theorem group_count (ok : Spec.RHeap.OK h) {g : GroupObj} (hg : g ∈ h.groups) (s : List Val) (a : Attr) [Decidable (∃ key, (key, a) ∈ g.perms)] :
    ((o.ord s _ g.perms).map (·.2)).count a = if ∃ key, (key, a) ∈ g.perms then 1 else 0 := by
  have hn : ((o.ord s _ g.perms).map (·.2)).Nodup := by
    have h1 : (o.ord s _ g.perms).Nodup := Ord.ord_nodup.2 (List.Nodup.of_map _ (ok.groupWF g hg))
    refine List.Nodup.map_on ?_ h1
    rintro ⟨k1, a1⟩ m1 ⟨k2, a2⟩ m2 e
    simp only at e
    subst e
    have e1 := ok.keyed g hg _ (Ord.mem_ord.1 m1)
    have e2 := ok.keyed g hg _ (Ord.mem_ord.1 m2)
    simp only at e1 e2
    rw [e1, e2]
  split
  · rename_i hk
    obtain ⟨key, hk⟩ := hk
    exact List.count_eq_one_of_mem hn (List.mem_map.2 ⟨_, Ord.mem_ord.2 hk, rfl⟩)
  · rename_i hk
    refine List.count_eq_zero.2 fun hm => ?_
    obtain ⟨⟨key, a'⟩, h1, rfl⟩ := List.mem_map.1 hm
    exact hk ⟨key, Ord.mem_ord.1 h1⟩

open Classical in
theorem ownImplicit_times (ok : Spec.RHeap.OK h) {site : List Val} {l : List (Str × Nat)} {i : Nat}
    {acc m : GoMap Str (List Attr)} (hm : ownImplicit h o site i l acc = .ok m) (hl : (l.map (·.1)).Nodup) (k : Str) (a : Attr) :
    times m k a = times acc k a + if ∃ ga g, (k, ga) ∈ l ∧ h.groups[ga]? = some g ∧ ∃ key, (key, a) ∈ g.perms then 1 else 0 := by
  induction l generalizing i acc with
  | nil => simp [ownImplicit] at hm; subst hm; simp
  | cons e l ih =>
    obtain ⟨k0, ga⟩ := e
    rw [ownImplicit] at hm
    cases hg : h.groups[ga]? with
    | none => rw [hg] at hm; cases hm
    | some g =>
      rw [hg] at hm
      simp only at hm
      rw [List.map_cons, List.nodup_cons] at hl
      rw [ih hm hl.2, times_append, group_count ok (List.mem_of_getElem? hg), Nat.add_assoc]
      congr 1
      by_cases e : k0 = k
      · subst e
        have hno : ¬ ∃ ga g, (k0, ga) ∈ l ∧ h.groups[ga]? = some g ∧ ∃ key, (key, a) ∈ g.perms := by
          rintro ⟨ga', _, h1, _⟩
          exact hl.1 (List.mem_map.2 ⟨_, h1, rfl⟩)
        rw [if_neg hno, if_pos rfl, Nat.add_zero]
        congr 1
        refine propext ⟨fun hk => ⟨ga, g, by simp, hg, hk⟩, ?_⟩
        rintro ⟨ga', g', h1, h2, h3⟩
        rcases List.mem_cons.1 h1 with e | h1
        · cases e; rw [hg] at h2; cases h2; exact h3
        · exact absurd ⟨ga', g', h1, h2, h3⟩ hno
      · rw [if_neg e, Nat.zero_add]
        congr 1
        refine propext ⟨fun ⟨ga', g', h1, h2⟩ => ⟨ga', g', by simp [h1], h2⟩, ?_⟩
        rintro ⟨ga', g', h1, h2⟩
        rcases List.mem_cons.1 h1 with e' | h1
        · cases e'; exact absurd rfl e
        · exact ⟨ga', g', h1, h2⟩

theorem foldRoles_times {f : Nat → Nat → GoMap Str (List Attr) → Out (GoMap Str (List Attr))} {G : Nat → Nat} {ds : List Nat} {i : Nat}
    {acc m : GoMap Str (List Attr)} {k : Str} {a : Attr}
    (hf : ∀ j, ∀ d ∈ ds, ∀ acc m, f j d acc = .ok m → times m k a = times acc k a + G d)
    (hm : foldRoles f i ds acc = .ok m) : times m k a = times acc k a + (ds.map G).sum := by
  induction ds generalizing i acc with
  | nil => simp [foldRoles] at hm; subst hm; simp
  | cons d ds ih =>
    rw [foldRoles, Out.bind_eq_ok] at hm
    obtain ⟨acc', h1, h2⟩ := hm
    rw [ih (fun j d' hd' => hf j d' (by simp [hd'])) h2, hf i d (by simp) _ _ h1, List.map_cons, List.sum_cons]
    omega

theorem allImplicit_times (ok : Spec.RHeap.OK h) {n : Nat} {site : List Val} {r : Nat} {acc m : GoMap Str (List Attr)}
    (hm : allImplicit h o n site r acc = .ok m) (k : Str) (a : Attr) {N : Nat} (hN : n ≤ N) :
    times m k a = times acc k a + (carries h k a r + geo (roleKids h) 2 (carries h k a) N r) := by
  induction n generalizing site r acc m N with
  | zero => cases hm
  | succ n ih =>
    rw [allImplicit] at hm
    cases hr : h.roles[r]? with
    | none => rw [hr] at hm; cases hm
    | some ro =>
      rw [hr] at hm
      simp only [Out.bind_eq_ok] at hm
      obtain ⟨acc', h1, ds, h2, h3⟩ := hm
      have o1 := ownImplicit_times ok h1 (((o.perm _ _ ro.perms).map _).nodup_iff.2 (ok.permsWF ro (List.mem_of_getElem? hr))) k a
      rw [foldRoles_times (G := fun d => carries h k a d + geo (roleKids h) 2 (carries h k a) N d)
        (fun j d _ acc m hfm => ih hfm (N := N) (by omega)) h3, o1, descRoles_weight h2 (by omega), Nat.add_assoc]
      congr 2
      unfold carries
      congr 1
      refine propext ⟨?_, ?_⟩
      · rintro ⟨ga, g, h4, h5, h6⟩; exact ⟨g, ⟨ro, ga, hr, Ord.mem_ord.1 h4, h5⟩, h6⟩
      · rintro ⟨g, ⟨ro', ga, hr', h4, h5⟩, h6⟩
        rw [hr] at hr'; cases hr'
        exact ⟨ga, g, Ord.mem_ord.2 h4, h5, h6⟩

end RHeap

variable {h : RHeap} {o : Ord} {n : Nat} {site : List Val} {r : Nat}

/-- C124. How often `GetAllImplicitPermissions` lists an attribute under a group: once if the role itself has it there, and
`2 ^ i` times for each walk of `i + 1` links down to a role that has it there. -/
theorem C124_times (ok : Spec.RHeap.OK h) {acc m : GoMap Str (List Attr)} (hm : h.allImplicit o n site r acc = .ok m) {H : Nat}
    (hH : walks (roleKids h) (H + 1) r = 0) (k : Str) (a : Attr) :
    times m k a = times acc k a + carries h k a r + sumTo H fun i => 2 ^ i * walkSum (roleKids h) (carries h k a) (i + 1) r := by
  rw [RHeap.allImplicit_times ok hm k a (Nat.le_max_left n H), geo_high hH (Nat.le_max_right n H), geo_eq, Nat.add_assoc]

/-- C124 as intended: nothing is listed twice under a group. -/
def C124_full : Prop := ∀ ops h o n site r m, RoleOp.run {} ops = .ok h → h.allImplicit o n site r [] = .ok m →
  ∀ k a, times m k a ≤ 1

/-- C124. If the direct descendants have no descendants of their own, and an attribute belongs to one of them only (or to the role only),
it is listed once at most.  Missing: deeper hierarchies, and attributes of several roles, for which it is false. -/
theorem C124_flat_partial (ok : Spec.RHeap.OK h) {m : GoMap Str (List Attr)} (hm : h.allImplicit o n site r [] = .ok m)
    (hf : ∀ d ∈ roleKids h r, roleKids h d = []) (k : Str) (a : Attr)
    (one : carries h k a r + ((roleKids h r).map (carries h k a)).sum ≤ 1) : times m k a ≤ 1 := by
  have hH : walks (roleKids h) 2 r = 0 := by
    unfold walks walkSum
    rw [← sum_zero (roleKids h r)]
    exact sum_congr fun d hd => by rw [walkSum, hf d hd]; rfl
  have := C124_times ok hm hH k a
  have e : (sumTo 1 fun i => 2 ^ i * walkSum (roleKids h) (carries h k a) (i + 1) r) = ((roleKids h r).map (carries h k a)).sum := by
    show 2 ^ 0 * walkSum (roleKids h) (carries h k a) 1 r + 0 = _
    rw [Nat.pow_zero, Nat.one_mul]; rfl
  rw [e] at this
  have z : times [] k a = 0 := rfl
  omega

/-! ### A chain of roles -/

def chainAttr : Attr := ⟨str "/a", str "GET"⟩

/-- The chain of C122, the lowest role with one permission. -/
def chainHeap' (n : Nat) : RHeap :=
  { chainHeap n with groups := (chainHeap n).groups.set 0 { id := str "g", perms := [(chainAttr.toStr, chainAttr)] } }

theorem chain_run' (n : Nat) : RoleOp.run {} (chainOps n ++ [.addPerm 0 (str "g") [chainAttr]]) = .ok (chainHeap' n) := by
  rw [run_append, chain_run]
  simp only [Out.bind_ok, RoleOp.run, RoleOp.apply, RHeap.addPermission, chain_role (Nat.zero_le n)]
  have e : (chainHeap n).groups[0]? = some { id := str "g" } := by simp [chainHeap]
  have e1 : (chainRole 0).perms.get (str "g") = some 0 := by decide
  have e2 : (chainRole 0).lock = false := rfl
  have e3 : (chainRole 0).perms.set (str "g") 0 = (chainRole 0).perms := by decide
  have e4 : (chainHeap n).roles.set 0 (chainRole 0) = (chainHeap n).roles := by
    have := chain_role (n := n) (Nat.zero_le n)
    rw [List.getElem?_eq_some_iff] at this
    obtain ⟨h1, h2⟩ := this
    conv => lhs; rw [← h2]
    exact List.set_getElem_self h1
  simp only [e1, e2, e, e3, Bool.false_eq_true, if_false, Out.map_ok]
  show Out.ok ({ roles := (chainHeap n).roles.set 0 (chainRole 0), groups := _ } : RHeap) = _
  rw [e4]
  rfl

theorem chain_carries {n d : Nat} (hd : d ≤ n) : carries (chainHeap' n) (str "g") chainAttr d = if d = 0 then 1 else 0 := by
  unfold carries
  congr 1
  refine propext ⟨?_, ?_⟩
  · rintro ⟨g, ⟨ro, ga, h1, h2, h3⟩, key, h4⟩
    have h1' := (chain_role hd).symm.trans h1
    cases h1'
    cases d with
    | zero => rfl
    | succ d =>
      have : ga = d + 1 := by
        have := List.mem_singleton.1 h2
        cases this; rfl
      subst this
      have e : (chainHeap' n).groups[d + 1]? = (chainHeap n).groups[d + 1]? := List.getElem?_set_ne (by omega)
      rw [e] at h3
      rw [chain_group (n := n) (d := d + 1) ⟨_, _, chain_role hd, List.mem_singleton.2 rfl, h3⟩] at h4
      cases h4
  · rintro rfl
    refine ⟨{ id := str "g", perms := [(chainAttr.toStr, chainAttr)] }, ⟨chainRole 0, 0, chain_role (Nat.zero_le n), List.mem_singleton.2 rfl, ?_⟩, chainAttr.toStr, List.mem_singleton.2 rfl⟩
    exact List.getElem?_set_self (by simp [chainHeap])

theorem chain_kids' {n i : Nat} (hi : i ≤ n) : roleKids (chainHeap' n) i = if i = 0 then [] else [i - 1] := chain_kids hi

theorem chain_walkSum {n k i : Nat} (hi : i ≤ n) :
    walkSum (roleKids (chainHeap' n)) (carries (chainHeap' n) (str "g") chainAttr) k i = if k = i then 1 else 0 := by
  induction k generalizing i with
  | zero =>
    rw [walkSum, chain_carries hi]
    by_cases e : i = 0
    · simp [e]
    · simp [e, Ne.symm e]
  | succ k ih =>
    rw [walkSum, chain_kids' hi]
    cases i with
    | zero => rfl
    | succ i =>
      have := ih (i := i) (by omega)
      simp only [Nat.add_one_ne_zero, if_false, Nat.add_sub_cancel, List.map_cons, List.map_nil, List.sum_cons, List.sum_nil, this]
      simp only [Nat.add_zero, Nat.add_right_cancel_iff]

theorem sumTo_last (n : Nat) (g : Nat → Nat) : sumTo (n + 1) g = sumTo n g + g n := by
  unfold sumTo
  rw [List.range_succ, List.map_append, List.sum_append]; simp

/-- C124. In a chain of `n + 2` roles, the one permission of the lowest role is listed `2 ^ n` times for the topmost. -/
theorem C124_chain (n : Nat) : ∃ h, RoleOp.run {} (chainOps (n + 1) ++ [.addPerm 0 (str "g") [chainAttr]]) = .ok h ∧
    h.roles.length = n + 2 ∧ ∃ f, ∀ fuel ≥ f, ∀ o site, ∃ m, h.allImplicit o fuel site (n + 1) [] = .ok m ∧
      times m (str "g") chainAttr = 2 ^ n := by
  have hrun := chain_run' (n + 1)
  have ok := RoleOp.reachable_ok hrun
  refine ⟨_, hrun, by simp [chainHeap', chainHeap], ?_⟩
  obtain ⟨f, hf⟩ := RHeap.allImplicit_total ok (r := n + 1) (chain_acc (n := n + 1) (Nat.le_refl _)) (by simp [chainHeap', chainHeap])
  refine ⟨f, fun fuel hfu o site => ?_⟩
  obtain ⟨m, hm⟩ := hf fuel hfu o site []
  refine ⟨m, hm, ?_⟩
  have hw : walks (roleKids (chainHeap' (n + 1))) (n + 2) (n + 1) = 0 := by
    have : roleKids (chainHeap' (n + 1)) = roleKids (chainHeap (n + 1)) := rfl
    rw [this, chain_walks (Nat.le_refl _)]
    simp
  rw [C124_times ok hm hw, chain_carries (Nat.le_refl _), sumTo_last]
  have z : (sumTo n fun i => 2 ^ i * walkSum (roleKids (chainHeap' (n + 1))) (carries (chainHeap' (n + 1)) (str "g") chainAttr) (i + 1) (n + 1)) = 0 := by
    unfold sumTo
    rw [← sum_zero (List.range n)]
    refine sum_congr fun k hk => ?_
    have := List.mem_range.1 hk
    rw [chain_walkSum (Nat.le_refl _), if_neg (by omega), Nat.mul_zero]
  rw [z, chain_walkSum (Nat.le_refl _)]
  simp [times]

theorem C124_full_false : ¬ C124_full := fun hf => by
  obtain ⟨h, h1, _, f, h2⟩ := C124_chain 1
  obtain ⟨m, h3, h4⟩ := h2 f (Nat.le_refl _) .fwd []
  have := hf _ h _ _ _ _ _ h1 h3 (str "g") chainAttr
  omega

/-- C124. Manager, clerk, trainee: what the trainee may do is listed twice for the manager, once for the clerk. -/
example : ∃ h, RoleOp.run {} [.newRole (str "manager"), .newRole (str "clerk"), .newRole (str "trainee"),
      .addPerm 2 (str "g") [chainAttr], .addDesc 0 [1], .addDesc 1 [2]] = .ok h ∧
    h.allImplicit .fwd 4 [] 0 [] = .ok [(str "g", [chainAttr, chainAttr])] ∧ h.allImplicit .fwd 4 [] 1 [] = .ok [(str "g", [chainAttr])] :=
  Out.chk_ok (by decide +kernel)

end Verif
