import Verif.Lemmas.V2Decide

namespace Verif
open Spec

theorem Out.collectI_flatMap {α β : Type} {f : Nat → α → Out (List β)} {k : α → List β} {xs : List α} {i : Nat} {r : List β}
    (hf : ∀ j, ∀ x ∈ xs, ∀ ys, f j x = .ok ys → ys = k x) (h : Out.collectI f i xs = .ok r) : r = xs.flatMap k := by
  induction xs generalizing i r with
  | nil => cases h; rfl
  | cons x xs ih =>
    obtain ⟨ys, h1, h2⟩ := Out.bind_eq_ok.1 h
    obtain ⟨zs, h3, h4⟩ := Out.bind_eq_ok.1 h2
    cases h4
    rw [List.flatMap_cons, ← hf i x (List.mem_cons_self ..) ys h1,
      ← ih (fun j y hy => hf j y (List.mem_cons_of_mem _ hy)) h3]

theorem Out.loop_ok_mem {σ α : Type} {f : σ → α → Out σ} {xs : List α} {s s' : σ} (h : Out.loop f s xs = .ok s') :
    ∀ x ∈ xs, ∃ s1 s2, f s1 x = .ok s2 := by
  induction xs generalizing s with
  | nil => simp
  | cons x xs ih =>
    obtain ⟨s1, h1, h2⟩ := Out.bind_eq_ok.1 h
    intro y hy
    rcases List.mem_cons.1 hy with rfl | hy
    · exact ⟨s, s1, h1⟩
    · exact ih h2 y hy

/-- Keep the entries of a map whose value is mapped to `some`. -/
def GoMap.keep {κ ν : Type} (m : GoMap κ ν) (g : ν → Option ν) : GoMap κ ν := m.filterMap fun e => (g e.2).map fun v => (e.1, v)

theorem GoMap.mem_keep {κ ν : Type} {m : GoMap κ ν} {g : ν → Option ν} {k : κ} {v : ν} :
    (k, v) ∈ m.keep g ↔ ∃ v0, (k, v0) ∈ m ∧ g v0 = some v := by
  unfold GoMap.keep
  rw [List.mem_filterMap]
  constructor
  · rintro ⟨⟨k', v0⟩, h1, h2⟩
    obtain ⟨v', h3, h4⟩ := Option.map_eq_some_iff.1 h2
    cases h4
    exact ⟨v0, h1, h3⟩
  · rintro ⟨v0, h1, h2⟩
    exact ⟨(k, v0), h1, by simp [h2]⟩

theorem GoMap.wf_keep {κ ν : Type} {m : GoMap κ ν} (wf : GoMap.WF m) (g : ν → Option ν) : GoMap.WF (m.keep g) := by
  unfold GoMap.WF GoMap.keep at *
  induction m with
  | nil => exact List.nodup_nil
  | cons e m ih =>
    rw [List.map_cons, List.nodup_cons] at wf
    rw [List.filterMap_cons]
    cases h : g e.2 with
    | none => simpa using ih wf.2
    | some v =>
      simp only [Option.map_some, List.map_cons, List.nodup_cons]
      refine ⟨fun hm => wf.1 ?_, ih wf.2⟩
      obtain ⟨⟨k, v'⟩, h1, h2⟩ := List.mem_map.1 hm
      obtain ⟨v0, h3, _⟩ := GoMap.mem_keep.1 h1
      exact List.mem_map.2 ⟨(k, v0), h3, h2⟩

theorem GoMap.get_keep {κ ν : Type} [DecidableEq κ] {m : GoMap κ ν} (wf : GoMap.WF m) (g : ν → Option ν) (k : κ) :
    (m.keep g).get k = (m.get k).bind g := by
  cases h : (m.get k).bind g with
  | some v =>
    obtain ⟨v0, h1, h2⟩ := Option.bind_eq_some_iff.1 h
    exact (GoMap.mem_iff_get (GoMap.wf_keep wf g)).1 (GoMap.mem_keep.2 ⟨v0, GoMap.get_some_mem h1, h2⟩)
  | none =>
    cases h' : (m.keep g).get k with
    | none => rfl
    | some v =>
      obtain ⟨v0, h1, h2⟩ := GoMap.mem_keep.1 (GoMap.get_some_mem h')
      rw [(GoMap.mem_iff_get wf).1 h1] at h
      simp [h2] at h

namespace Dag
variable {d d' : Dag}

/-! ### The role graph -/

theorem dinv_newRole (inv : DInv d) (n : Str) : DInv (d.newRole n) where
  rolesWF := inv.rolesWF
  edgesWF := inv.edgesWF
  resolvedWF := inv.resolvedWF
  keyed k a h := by
    obtain ⟨o, h1, h2⟩ := inv.keyed k a h
    exact ⟨o, List.getElem?_append_left (List.getElem?_eq_some_iff.1 h1).1 ▸ h1, h2⟩
  perms o ho := by
    rcases List.mem_append.1 ho with h | h
    · exact inv.perms o h
    · rw [List.mem_singleton] at h; subst h; exact List.nodup_nil

theorem dinv_setObj (inv : DInv d) {a : Nat} {o : R2} (ho : d.objs[a]? = some o) {ps : List Str} (hp : ps.Nodup) :
    DInv { d with objs := d.objs.set a { o with perms := ps } } where
  rolesWF := inv.rolesWF
  edgesWF := inv.edgesWF
  resolvedWF := inv.resolvedWF
  keyed k b h := by
    obtain ⟨o', h1, h2⟩ := inv.keyed k b h
    by_cases hab : a = b
    · subst hab
      rw [ho] at h1; cases h1
      exact ⟨_, List.getElem?_set_self (List.getElem?_eq_some_iff.1 ho).1, h2⟩
    · exact ⟨o', (List.getElem?_set_ne hab).trans h1, h2⟩
  perms o' ho' := by
    rcases List.mem_or_eq_of_mem_set ho' with h | h
    · exact inv.perms o' h
    · subst h; exact hp

theorem addPermission_eq {a : Nat} {ps : List Perm2} (h : d.addPermission a ps = .ok d') :
    ∃ o, d.objs[a]? = some o ∧ d' = { d with objs := d.objs.set a { o with perms := (ps.map Perm2.string).foldl addStr o.perms } } := by
  unfold addPermission at h
  split at h
  · cases h
  · rename_i o ho; cases h; exact ⟨o, ho, rfl⟩

theorem removePermission_eq {a : Nat} {ps : List Perm2} (h : d.removePermission a ps = .ok d') :
    ∃ o, d.objs[a]? = some o ∧ d' = { d with objs := d.objs.set a { o with
      perms := (ps.map Perm2.string).foldl (fun s x => s.filter (· ≠ x)) o.perms } } := by
  unfold removePermission at h
  split at h
  · cases h
  · rename_i o ho; cases h; exact ⟨o, ho, rfl⟩

theorem dinv_addPermission (inv : DInv d) {a : Nat} {ps : List Perm2} (h : d.addPermission a ps = .ok d') : DInv d' := by
  obtain ⟨o, ho, rfl⟩ := addPermission_eq h
  exact dinv_setObj inv ho (nodup_addStrs (inv.perms o (List.mem_of_getElem? ho)))

theorem dinv_removePermission (inv : DInv d) {a : Nat} {ps : List Perm2} (h : d.removePermission a ps = .ok d') : DInv d' := by
  obtain ⟨o, ho, rfl⟩ := removePermission_eq h
  exact dinv_setObj inv ho (nodup_removeStrs (inv.perms o (List.mem_of_getElem? ho)))

theorem addRole_same {as : List Nat} (h : d.addRole as = .ok d') :
    d'.objs = d.objs ∧ d'.edges = d.edges ∧ d'.resolved = d.resolved := by
  unfold addRole at h
  refine Out.loop_inv (P := fun x => x.objs = d.objs ∧ x.edges = d.edges ∧ x.resolved = d.resolved) ?_ ⟨rfl, rfl, rfl⟩ h
  intro s s' a _ hs hf
  split at hf
  · cases hf
  · cases hf; exact hs

theorem dinv_addRole (inv : DInv d) {as : List Nat} (h : d.addRole as = .ok d') : DInv d' := by
  unfold addRole at h
  refine Out.loop_inv (P := DInv) ?_ inv h
  intro s s' a _ hs hf
  split at hf
  · cases hf
  · rename_i o ho
    cases hf
    refine ⟨GoMap.wf_set hs.rolesWF .., hs.edgesWF, hs.resolvedWF, fun k b hb => ?_, hs.perms⟩
    rcases (GoMap.mem_set_iff hs.rolesWF).1 hb with h | h
    · cases h; exact ⟨o, ho, rfl⟩
    · exact hs.keyed k b h.2

theorem addChildRole_cases {fuel : Nat} {p : Str} {cs : List Str} {b : Bool} (h : d.addChildRole fuel p cs = .ok (b, d')) :
    d.checkCircular fuel p cs = .ok b ∧
    ((b = true ∧ d' = d) ∨ (b = false ∧ d' = { d with edges := d.edges.set p (d.children p ++ cs) })) := by
  obtain ⟨e, h1, h2⟩ := Out.map_eq_ok.1 h
  cases e
  · cases h2; exact ⟨h1, .inr ⟨rfl, rfl⟩⟩
  · cases h2; exact ⟨h1, .inl ⟨rfl, rfl⟩⟩

theorem dinv_addChildRole (inv : DInv d) {fuel : Nat} {p : Str} {cs : List Str} {b : Bool}
    (h : d.addChildRole fuel p cs = .ok (b, d')) : DInv d' := by
  rcases (addChildRole_cases h).2 with ⟨_, rfl⟩ | ⟨_, rfl⟩
  · exact inv
  · exact ⟨inv.rolesWF, GoMap.wf_set inv.edgesWF .., inv.resolvedWF, inv.keyed, inv.perms⟩

end Dag

namespace V2
variable {w w' : V2}

/-! ### `RemovePrincipalRole` -/

/-- What `matches` answers. -/
def sel (w : V2) (target : PR) (x : Option Nat) : Bool :=
  match w.matchesAt target x with
  | .ok b => b
  | _ => false

theorem sel_eq {target : PR} {x : Option Nat} {b : Bool} (h : w.matchesAt target x = .ok b) : w.sel target x = b := by
  unfold sel; rw [h]

/-- The entries with the selected ones replaced by nil. -/
def blank (w : V2) (target : PR) (l : List (Option Nat)) : List (Option Nat) := l.map fun x => if w.sel target x then none else x

/-- The entries that are not selected. -/
def kept (w : V2) (target : PR) (l : List (Option Nat)) : List (Option Nat) := l.filter fun x => !w.sel target x

theorem removeLoop_eq {target : PR} {R P : List (Option Nat)} (h : ∀ x ∈ R, ∃ b, w.matchesAt target x = .ok b) :
    Out.loop (w.removeStep target) (w.blank target P ++ List.replicate R.length none, (w.kept target P).length, P.any (w.sel target))
      (R.zipIdx P.length) =
    .ok (w.blank target (P ++ R), (w.kept target (P ++ R)).length, (P ++ R).any (w.sel target)) := by
  induction R generalizing P with
  | nil => simp [Out.loop]
  | cons x R ih =>
    obtain ⟨b, hb⟩ := h x (List.mem_cons_self ..)
    have ih := ih (P := P ++ [x]) fun y hy => h y (List.mem_cons_of_mem _ hy)
    have hlen : (w.blank target P).length = P.length := by simp [blank]
    rw [List.zipIdx_cons, Out.loop]
    unfold removeStep
    simp only [hb]
    rw [List.append_assoc, List.singleton_append] at ih
    have hs := sel_eq hb
    rw [show (P ++ [x]).length = P.length + 1 by simp] at ih
    cases b with
    | true =>
      rw [← ih]
      simp only [Out.map, Out.bind, if_true]
      congr 2
      · simp [blank, hs, List.replicate_succ]
      · simp [kept, hs]
    | false =>
      rw [← ih]
      simp only [Out.map, Out.bind, Bool.false_eq_true, if_false]
      congr 2
      · simp only [List.length_cons, List.replicate_succ]
        rw [List.set_append_right _ _ (by omega), hlen]
        simp [blank, hs]
      · simp [kept, hs]

theorem removeLoop_spec {target : PR} {s : List (Option Nat) × Nat × Bool}
    (h : Out.loop (w.removeStep target) (List.replicate w.userRoles.length none, 0, false) w.userRoles.zipIdx = .ok s) :
    (∀ x ∈ w.userRoles, ∃ b, w.matchesAt target x = .ok b) ∧
    s = (w.blank target w.userRoles, (w.kept target w.userRoles).length, w.userRoles.any (w.sel target)) := by
  have hm : ∀ x ∈ w.userRoles, ∃ b, w.matchesAt target x = .ok b := by
    intro x hx
    obtain ⟨i, hi⟩ := List.mem_iff_getElem?.1 hx
    obtain ⟨s1, s2, h1⟩ := Out.loop_ok_mem h (x, i) (mem_zipIdx_iff.2 hi)
    obtain ⟨b, hb, _⟩ := Out.map_eq_ok.1 h1
    exact ⟨b, hb⟩
  refine ⟨hm, ?_⟩
  have := removeLoop_eq (P := []) hm
  simp only [blank, kept, List.map_nil, List.nil_append, List.filter_nil, List.length_nil, List.any_nil] at this
  rw [this] at h
  cases h; rfl

/-- Keep a list of the index unless nothing of it stays. -/
def keepIds (w : V2) (target : PR) (is : List Nat) : Option (List Nat) :=
  if (is.filter fun i => !w.sel target (some i)) = [] then none else some (is.filter fun i => !w.sel target (some i))

def keepMap (w : V2) (target : PR) (m : GoMap Str (List Nat)) : Option (GoMap Str (List Nat)) :=
  if m.keep (w.keepIds target) = [] then none else some (m.keep (w.keepIds target))

theorem keepTenant_eq {target : PR} {is r : List Nat} (h : w.keepTenant target is = .ok r) :
    r = is.filter fun i => !w.sel target (some i) := by
  rw [Out.collectI_flatMap (k := fun i => if w.sel target (some i) then [] else [i]) _ h]
  · induction is with
    | nil => rfl
    | cons i is ih =>
      obtain ⟨ys, h1, h2⟩ := Out.bind_eq_ok.1 h
      rw [List.flatMap_cons, List.filter_cons]
      have : is.flatMap (fun i => if w.sel target (some i) then [] else [i]) = is.filter fun i => !w.sel target (some i) := by
        clear ih h h1 h2
        induction is with
        | nil => rfl
        | cons i is ih =>
          rw [List.flatMap_cons, List.filter_cons, ih]
          cases w.sel target (some i) <;> simp
      rw [this]
      cases w.sel target (some i) <;> simp
  · intro j i _ ys h
    obtain ⟨b, h1, h2⟩ := Out.map_eq_ok.1 h
    rw [sel_eq h1, h2]

theorem flatMap_keep {κ ν : Type} {m : GoMap κ ν} {g : ν → Option ν} {k : κ × ν → List (κ × ν)}
    (h : ∀ e, k e = match g e.2 with | none => [] | some v => [(e.1, v)]) : m.flatMap k = m.keep g := by
  unfold GoMap.keep
  induction m with
  | nil => rfl
  | cons e m ih =>
    rw [List.flatMap_cons, List.filterMap_cons, h, ih]
    cases g e.2 <;> rfl

theorem keepPrincipal_eq {target : PR} {m r : GoMap Str (List Nat)} (h : w.keepPrincipal target m = .ok r) :
    r = m.keep (w.keepIds target) := by
  rw [Out.collectI_flatMap (k := fun e => match w.keepIds target e.2 with | none => [] | some v => [(e.1, v)]) _ h]
  · exact flatMap_keep fun e => by split <;> simp [*]
  · intro j e _ ys h
    obtain ⟨is, h1, h2⟩ := Out.map_eq_ok.1 h
    have := keepTenant_eq h1
    subst this
    rw [← h2]
    unfold keepIds
    split
    · rename_i h3
      rw [if_pos (List.length_eq_zero_iff.1 h3)]
    · rename_i h3
      rw [if_neg (fun h => h3 (List.length_eq_zero_iff.2 h))]

theorem keepIndex_eq {target : PR} {m r : GoMap Str (GoMap Str (List Nat))} (h : w.keepIndex target m = .ok r) :
    r = m.keep (w.keepMap target) := by
  rw [Out.collectI_flatMap (k := fun e => match w.keepMap target e.2 with | none => [] | some v => [(e.1, v)]) _ h]
  · exact flatMap_keep fun e => by split <;> simp [*]
  · intro j e _ ys h
    obtain ⟨is, h1, h2⟩ := Out.map_eq_ok.1 h
    have := keepPrincipal_eq h1
    subst this
    rw [← h2]
    unfold keepMap
    split
    · rename_i h3
      rw [if_pos (List.length_eq_zero_iff.1 h3)]
    · rename_i h3
      rw [if_neg (fun h => h3 (List.length_eq_zero_iff.2 h))]

/-- What `RemovePrincipalRole` does. -/
theorem remove_eq {target : PR} {b : Bool} (h : w.removePrincipalRole target = .ok (b, w')) :
    (∀ x ∈ w.userRoles, ∃ b, w.matchesAt target x = .ok b) ∧
    ((b = true ∧ w' = w ∧ ∀ x ∈ w.userRoles, w.sel target x = false) ∨
     (b = false ∧ (∃ x ∈ w.userRoles, w.sel target x = true) ∧
      w' = { w with userRoles := (w.blank target w.userRoles).take (w.kept target w.userRoles).length
                    index := w.index.keep (w.keepMap target) })) := by
  obtain ⟨s, h1, h2⟩ := Out.bind_eq_ok.1 h
  obtain ⟨hm, rfl⟩ := removeLoop_spec h1
  refine ⟨hm, ?_⟩
  split at h2
  · rename_i h3
    cases h2
    exact .inl ⟨rfl, rfl, by simpa using h3⟩
  · rename_i h3
    obtain ⟨ix, h4, h5⟩ := Out.map_eq_ok.1 h2
    have := keepIndex_eq h4
    subst this
    cases h5
    exact .inr ⟨rfl, by simpa using h3, rfl⟩

theorem matchesAt_some {target : PR} {i : Nat} {u : PR} (h : w.prs[i]? = some u) :
    w.matchesAt target (some i) = .ok (matchesPR target u) := by
  unfold matchesAt
  rw [if_neg (by simp)]
  simp [prAt, h, Out.map, Out.bind]

theorem remove_total (inv : Inv w) (hnil : none ∉ w.userRoles) (target : PR) :
    ∃ b w', w.removePrincipalRole target = .ok (b, w') := by
  have hm : ∀ x ∈ w.userRoles, ∃ b, w.matchesAt target x = .ok b := by
    intro x hx
    cases x with
    | none => exact absurd hx hnil
    | some i =>
      obtain ⟨u, hu⟩ := inv.users i hx
      exact ⟨_, matchesAt_some hu⟩
  unfold removePrincipalRole
  have := removeLoop_eq (P := []) hm
  simp only [blank, kept, List.map_nil, List.nil_append, List.filter_nil, List.length_nil, List.any_nil] at this
  rw [this, Out.bind_ok]
  split
  · exact ⟨_, _, rfl⟩
  · have : ∃ ix, w.keepIndex target w.index = .ok ix := by
      refine Out.collectI_total fun j e he => ?_
      have : ∃ m, w.keepPrincipal target e.2 = .ok m := by
        refine Out.collectI_total fun j f hf => ?_
        have : ∃ is, w.keepTenant target f.2 = .ok is := by
          refine Out.collectI_total fun j i hi => ?_
          obtain ⟨u, hu, _⟩ := (inv.indexed e.1 e.2 f.1 f.2 he hf).2 i hi
          rw [matchesAt_some hu]
          exact ⟨_, rfl⟩
        obtain ⟨is, his⟩ := this
        rw [his]; exact ⟨_, rfl⟩
      obtain ⟨m, hm⟩ := this
      rw [hm]; exact ⟨_, rfl⟩
    obtain ⟨ix, hix⟩ := this
    rw [hix]; exact ⟨_, _, rfl⟩

theorem inv_remove (inv : Inv w) {target : PR} {b : Bool} (h : w.removePrincipalRole target = .ok (b, w')) : Inv w' := by
  rcases (remove_eq h).2 with ⟨_, rfl, _⟩ | ⟨_, _, rfl⟩
  · exact inv
  · refine ⟨inv.dag, inv.tenantsWF, inv.tenants, inv.nsWF, inv.childrenWF, inv.children, fun i hi => ?_,
      GoMap.wf_keep inv.indexWF _, ?_, ?_⟩
    · have := List.mem_of_mem_take hi
      obtain ⟨x, hx, h2⟩ := List.mem_map.1 this
      split at h2
      · cases h2
      · subst h2; exact inv.users i hx
    · rintro ⟨p, m⟩ he
      obtain ⟨m0, h1, h2⟩ := GoMap.mem_keep.1 he
      unfold keepMap at h2
      split at h2
      · cases h2
      · cases h2; exact GoMap.wf_keep (inv.indexWF2 _ h1) _
    · intro p m t is he hm
      obtain ⟨m0, h1, h2⟩ := GoMap.mem_keep.1 he
      unfold keepMap at h2
      split at h2
      · cases h2
      · cases h2
        obtain ⟨is0, h3, h4⟩ := GoMap.mem_keep.1 hm
        unfold keepIds at h4
        split at h4
        · cases h4
        · rename_i hne
          cases h4
          exact ⟨hne, fun i hi => (inv.indexed p m0 t is0 h1 h3).2 i (List.mem_filter.1 hi).1⟩

/-! ### Other calls -/

theorem inv_setT (inv : Inv w) {c : Nat} {t t' : T2} (ht : w.tobjs[c]? = some t) (hid : t'.id = t.id)
    (hn : GoMap.WF t'.namespaces) (hc : GoMap.WF t'.children)
    (hch : ∀ k d, (k, d) ∈ t'.children → ∃ td, w.tobjs[d]? = some td ∧ td.id = k) : Inv (w.setT c t') := by
  have look : ∀ (d : Nat) (td : T2), w.tobjs[d]? = some td → ∃ td' : T2, (w.setT c t').tobjs[d]? = some td' ∧ td'.id = td.id := by
    intro d td hd
    by_cases h : c = d
    · subst h
      rw [ht] at hd; cases hd
      exact ⟨t', List.getElem?_set_self (List.getElem?_eq_some_iff.1 ht).1, hid⟩
    · exact ⟨td, (List.getElem?_set_ne h).trans hd, rfl⟩
  have look' : ∀ (d : Nat) (k : Str), (∃ td : T2, w.tobjs[d]? = some td ∧ td.id = k) → ∃ td' : T2, (w.setT c t').tobjs[d]? = some td' ∧ td'.id = k := by
    rintro d k ⟨td, h1, rfl⟩
    exact look d td h1
  have mem : ∀ x ∈ (w.setT c t').tobjs, x ∈ w.tobjs ∨ x = t' := fun x hx => List.mem_or_eq_of_mem_set hx
  refine ⟨inv.dag, inv.tenantsWF, fun k d h => look' d k (inv.tenants k d h), fun x hx => ?_, fun x hx => ?_, fun x hx k d h => ?_,
    inv.users, inv.indexWF, inv.indexWF2, inv.indexed⟩
  · rcases mem x hx with h | rfl
    · exact inv.nsWF x h
    · exact hn
  · rcases mem x hx with h | rfl
    · exact inv.childrenWF x h
    · exact hc
  · rcases mem x hx with h' | rfl
    · exact look' d k (inv.children x h' k d h)
    · exact look' d k (hch k d h)

theorem inv_dag (inv : Inv w) {d : Dag} (hd : d.DInv) : Inv { w with dag := d } :=
  ⟨hd, inv.tenantsWF, inv.tenants, inv.nsWF, inv.childrenWF, inv.children, inv.users, inv.indexWF, inv.indexWF2, inv.indexed⟩

theorem inv_newTenant (inv : Inv w) (id : Str) (ns : Option Str) : Inv (w.newTenant id ns) := by
  have look : ∀ (d : Nat) (k : Str), (∃ td : T2, w.tobjs[d]? = some td ∧ td.id = k) → ∃ td : T2, (w.newTenant id ns).tobjs[d]? = some td ∧ td.id = k := by
    rintro d k ⟨td, h1, h2⟩
    exact ⟨td, List.getElem?_append_left (List.getElem?_eq_some_iff.1 h1).1 ▸ h1, h2⟩
  refine ⟨inv.dag, inv.tenantsWF, fun k c h => look c k (inv.tenants k c h), fun t ht => ?_, fun t ht => ?_, fun t ht k c h => ?_,
    inv.users, inv.indexWF, inv.indexWF2, inv.indexed⟩
  · rcases List.mem_append.1 ht with h | h
    · exact inv.nsWF t h
    · rw [List.mem_singleton] at h; subst h
      cases ns
      · exact GoMap.wf_nil
      · simp [GoMap.WF]
  · rcases List.mem_append.1 ht with h | h
    · exact inv.childrenWF t h
    · rw [List.mem_singleton] at h; subst h
      cases ns <;> exact GoMap.wf_nil
  · rcases List.mem_append.1 ht with h' | h'
    · exact look c k (inv.children t h' k c h)
    · rw [List.mem_singleton] at h'; subst h'
      cases ns <;> cases h

theorem inv_tAddNamespace (inv : Inv w) {c : Nat} {n : Str} {d : Bool} (h : w.tAddNamespace c n d = .ok w') : Inv w' := by
  obtain ⟨t, ht, h1⟩ := withT_eq_ok.1 h
  cases h1
  have hm := List.mem_of_getElem? ht
  refine inv_setT inv ht ?_ ?_ ?_ ?_
  · rfl
  · show GoMap.WF (match t.namespaces.get n with
        | some _ => t.namespaces
        | none => t.namespaces.set n [])
    split
    · exact inv.nsWF t hm
    · exact GoMap.wf_set (inv.nsWF t hm) ..
  · exact inv.childrenWF t hm
  · exact inv.children t hm

theorem inv_tAddScope (inv : Inv w) {c : Nat} {n : Str} {scs : List Str} {b : Bool} (h : w.tAddScope c n scs = .ok (b, w')) :
    Inv w' := by
  obtain ⟨t, ht, h1⟩ := withT_eq_ok.1 h
  have hm := List.mem_of_getElem? ht
  split at h1
  · cases h1; exact inv
  · cases h1
    exact inv_setT inv ht rfl (GoMap.wf_set (inv.nsWF t hm) ..) (inv.childrenWF t hm) (inv.children t hm)

theorem inv_tAddChild (inv : Inv w) {c : Nat} {ds : List Nat} (h : w.tAddChild c ds = .ok w') : Inv w' := by
  refine Out.loop_inv (P := Inv) ?_ inv h
  intro s s' d _ hs hf
  obtain ⟨t, ht, h1⟩ := withT_eq_ok.1 hf
  obtain ⟨dt, hdt, h2⟩ := withT_eq_ok.1 h1
  cases h2
  have hm := List.mem_of_getElem? ht
  refine inv_setT hs ht rfl (hs.nsWF t hm) (GoMap.wf_set (hs.childrenWF t hm) ..) fun k b hb => ?_
  rcases (GoMap.mem_set_iff (hs.childrenWF t hm)).1 hb with h | h
  · cases h; exact ⟨dt, hdt, rfl⟩
  · exact hs.children t hm k b h.2

theorem inv_setStatus (inv : Inv w) {c : Nat} {st : Int} (h : w.setStatus c st = .ok w') : Inv w' := by
  obtain ⟨t, ht, h1⟩ := withT_eq_ok.1 h
  cases h1
  have hm := List.mem_of_getElem? ht
  exact inv_setT inv ht rfl (inv.nsWF t hm) (inv.childrenWF t hm) (inv.children t hm)

theorem addTenant_eq {c : Nat} (h : w.addTenant c = .ok w') :
    ∃ t ps, w.tobjs[c]? = some t ∧ w' = { w with tenants := w.tenants.set t.id c, parents := ps } := by
  obtain ⟨t, ht, h1⟩ := withT_eq_ok.1 h
  obtain ⟨ps, hp⟩ := Out.loop_inv (P := fun (x : V2) => ∃ ps, x = { w with tenants := w.tenants.set t.id c, parents := ps })
    (fun s s' x _ hs hf => by
      obtain ⟨ps, rfl⟩ := hs
      obtain ⟨d, hd, h2⟩ := withT_eq_ok.1 hf
      cases h2
      exact ⟨_, rfl⟩) ⟨w.parents, rfl⟩ h1
  exact ⟨t, ps, ht, hp⟩

theorem inv_addTenant (inv : Inv w) {c : Nat} (h : w.addTenant c = .ok w') : Inv w' := by
  obtain ⟨t, ps, ht, rfl⟩ := addTenant_eq h
  refine ⟨inv.dag, GoMap.wf_set inv.tenantsWF .., fun k d hd => ?_, inv.nsWF, inv.childrenWF, inv.children, inv.users,
    inv.indexWF, inv.indexWF2, inv.indexed⟩
  rcases (GoMap.mem_set_iff inv.tenantsWF).1 hd with h | h
  · cases h; exact ⟨t, ht, rfl⟩
  · exact inv.tenants k d h.2

theorem inv_addPrincipalRole (inv : Inv w) {is : List Nat} (h : w.addPrincipalRole is = .ok w') : Inv w' := by
  refine Out.loop_inv (P := Inv) ?_ inv h
  intro s s' i _ hs hf
  obtain ⟨u, hu, h1⟩ := Out.bind_eq_ok.1 hf
  obtain ⟨j, hj, hu⟩ := prAt_eq_ok.1 hu
  cases hj
  cases h1
  have wfm : GoMap.WF ((s.index.get u.principal).getD []) := by
    cases h : s.index.get u.principal with
    | none => exact GoMap.wf_nil
    | some m => exact hs.indexWF2 _ (GoMap.get_some_mem h)
  refine ⟨hs.dag, hs.tenantsWF, hs.tenants, hs.nsWF, hs.childrenWF, hs.children, fun j hj => ?_,
    GoMap.wf_set hs.indexWF .., ?_, ?_⟩
  · rcases List.mem_append.1 hj with h | h
    · exact hs.users j h
    · rw [List.mem_singleton] at h; cases h; exact ⟨u, hu⟩
  · intro e he
    rcases (GoMap.mem_set_iff hs.indexWF).1 he with h | h
    · subst h; exact GoMap.wf_set wfm ..
    · exact hs.indexWF2 e h.2
  · intro p m t is he hm
    rcases (GoMap.mem_set_iff hs.indexWF).1 he with h | h
    · cases h
      rcases (GoMap.mem_set_iff wfm).1 hm with h | h
      · cases h
        refine ⟨by simp, fun j hj => ?_⟩
        rcases List.mem_append.1 hj with h | h
        · cases hg : s.index.get u.principal with
          | none => rw [hg] at h; simp at h
          | some m =>
            rw [hg] at h
            cases hg2 : m.get u.tenant with
            | none => simp [hg2] at h
            | some is0 =>
              simp only [Option.getD_some, hg2] at h
              exact (hs.indexed _ _ _ _ (GoMap.get_some_mem hg) (GoMap.get_some_mem hg2)).2 j h
        · rw [List.mem_singleton] at h; subst h; exact ⟨u, hu, rfl, rfl⟩
      · have h3 := h.2
        cases hg : s.index.get u.principal with
        | none => rw [hg] at h3; simp at h3
        | some m =>
          rw [hg] at h3
          exact hs.indexed _ _ _ _ (GoMap.get_some_mem hg) h3
    · exact hs.indexed p m t is h.2 hm

/-- Replace the expiry of an assignment object. -/
theorem inv_expiry (inv : Inv w) {i : Nat} {u : PR} (hu : w.prs[i]? = some u) (x : Option Int) :
    Inv { w with prs := w.prs.set i { u with expiry := x } } := by
  have look : ∀ (j : Nat) (v : PR), w.prs[j]? = some v → ∃ v' : PR, (w.prs.set i { u with expiry := x })[j]? = some v' ∧ v'.principal = v.principal ∧
      v'.tenant = v.tenant := by
    intro j v hv
    by_cases h : i = j
    · subst h
      rw [hu] at hv; cases hv
      exact ⟨_, List.getElem?_set_self (List.getElem?_eq_some_iff.1 hu).1, rfl, rfl⟩
    · exact ⟨v, (List.getElem?_set_ne h).trans hv, rfl, rfl⟩
  refine ⟨inv.dag, inv.tenantsWF, inv.tenants, inv.nsWF, inv.childrenWF, inv.children, fun j hj => ?_, inv.indexWF, inv.indexWF2,
    fun p m t is h1 h2 => ⟨(inv.indexed p m t is h1 h2).1, fun j hj => ?_⟩⟩
  · obtain ⟨v, hv⟩ := inv.users j hj
    obtain ⟨v', h, _⟩ := look j v hv
    exact ⟨v', h⟩
  · obtain ⟨v, hv, g1, g2⟩ := (inv.indexed p m t is h1 h2).2 j hj
    obtain ⟨v', h, h3, h4⟩ := look j v hv
    exact ⟨v', h, h3.trans g1, h4.trans g2⟩

theorem inv_newPR (inv : Inv w) (u : PR) : Inv { w with prs := w.prs ++ [u] } := by
  have look : ∀ {j : Nat} {v : PR}, w.prs[j]? = some v → (w.prs ++ [u])[j]? = some v := fun {j v} h =>
    (List.getElem?_append_left (List.getElem?_eq_some_iff.1 h).1).trans h
  refine ⟨inv.dag, inv.tenantsWF, inv.tenants, inv.nsWF, inv.childrenWF, inv.children, fun j hj => ?_, inv.indexWF, inv.indexWF2,
    fun p m t is h1 h2 => ⟨(inv.indexed p m t is h1 h2).1, fun j hj => ?_⟩⟩
  · obtain ⟨v, hv⟩ := inv.users j hj
    exact ⟨v, look hv⟩
  · obtain ⟨v, hv, g⟩ := (inv.indexed p m t is h1 h2).2 j hj
    exact ⟨v, look hv, g⟩

end V2

/-- The exported calls of package `v2` on one authorizer, its roles, tenants and assignments. -/
inductive V2Op where
  | newRole (name : Str)
  | addPermission (a : Nat) (ps : List Perm2)
  | removePermission (a : Nat) (ps : List Perm2)
  | addRoles (as : List Nat)
  | addChildRole (fuel : Nat) (parent : Str) (cs : List Str)
  | newTenant (id : Str) (ns : Option Str)
  | addNamespace (c : Nat) (n : Str) (isDefault : Bool)
  | addScopes (c : Nat) (n : Str) (scs : List Str)
  | addChildTenant (c : Nat) (ds : List Nat)
  | setStatus (c : Nat) (s : Int)
  | addTenant (c : Nat)
  | setDefaultTenant (t : Str)
  | newPrincipalRole (u : PR)
  | setExpiry (i : Nat) (now e : Int)
  | setExpiryDuration (i : Nat) (parse : Str → Option Int) (now : Int) (a : DurArg)
  | clearExpiry (i : Nat)
  | addPrincipalRole (is : List Nat)
  | removePrincipalRole (target : PR)
  | authorize (e : Env) (fuel : Nat) (site : List Val) (r : Req2)
  | can (e : Env) (fuel : Nat) (site : List Val) (r : Req2) (roles : List Str)

namespace V2Op

/-- Change an assignment object. -/
def onPR (w : V2) (i : Nat) (f : PR → PR) : Out V2 := (w.prAt (some i)).map fun u => { w with prs := w.prs.set i (f u) }

/-- The effect of a call (results dropped). -/
def apply (w : V2) : V2Op → Out V2
  | newRole n => .ok { w with dag := w.dag.newRole n }
  | addPermission a ps => (w.dag.addPermission a ps).map fun d => { w with dag := d }
  | removePermission a ps => (w.dag.removePermission a ps).map fun d => { w with dag := d }
  | addRoles as => w.addRoles as
  | addChildRole fuel p cs => (w.dag.addChildRole fuel p cs).map fun r => { w with dag := r.2 }
  | newTenant id ns => .ok (w.newTenant id ns)
  | addNamespace c n d => w.tAddNamespace c n d
  | addScopes c n scs => (w.tAddScope c n scs).map (·.2)
  | addChildTenant c ds => w.tAddChild c ds
  | setStatus c s => w.setStatus c s
  | addTenant c => w.addTenant c
  | setDefaultTenant t => .ok (w.setDefaultTenant t)
  | newPrincipalRole u => .ok { w with prs := w.prs ++ [u] }
  | setExpiry i now e => onPR w i fun u => (u.setExpiry now e).2
  | setExpiryDuration i parse now a => onPR w i fun u => u.setExpiryDuration parse now a
  | clearExpiry i => onPR w i fun u => u.clearExpiry
  | addPrincipalRole is => w.addPrincipalRole is
  | removePrincipalRole target => (w.removePrincipalRole target).map (·.2)
  | authorize e fuel site r => (w.authorize e fuel site r).map (·.2)
  | can e fuel site r roles => (w.can e fuel site r roles).map (·.2)

/-- A history of calls. -/
def run (w : V2) (ops : List V2Op) : Out V2 := Out.loop apply w ops

end V2Op

namespace V2
variable {w w' : V2}

theorem inv_onPR (inv : Inv w) {i : Nat} {f : PR → PR} (hf : ∀ u, ∃ x, f u = { u with expiry := x })
    (h : V2Op.onPR w i f = .ok w') : Inv w' := by
  obtain ⟨u, hu, rfl⟩ := Out.map_eq_ok.1 h
  obtain ⟨j, hj, hu⟩ := prAt_eq_ok.1 hu
  cases hj
  obtain ⟨x, hx⟩ := hf u
  rw [hx]
  exact inv_expiry inv hu x

theorem inv_apply (inv : Inv w) {op : V2Op} (h : op.apply w = .ok w') : Inv w' := by
  cases op with
  | newRole n => cases h; exact inv_dag inv (Dag.dinv_newRole inv.dag n)
  | addPermission a ps =>
    obtain ⟨d, h1, rfl⟩ := Out.map_eq_ok.1 h
    exact inv_dag inv (Dag.dinv_addPermission inv.dag h1)
  | removePermission a ps =>
    obtain ⟨d, h1, rfl⟩ := Out.map_eq_ok.1 h
    exact inv_dag inv (Dag.dinv_removePermission inv.dag h1)
  | addRoles as =>
    obtain ⟨d, h1, rfl⟩ := Out.map_eq_ok.1 h
    exact inv_dag inv (Dag.dinv_addRole inv.dag h1)
  | addChildRole fuel p cs =>
    obtain ⟨⟨b, d⟩, h1, rfl⟩ := Out.map_eq_ok.1 h
    exact inv_dag inv (Dag.dinv_addChildRole inv.dag h1)
  | newTenant id ns => cases h; exact inv_newTenant inv id ns
  | addNamespace c n d => exact inv_tAddNamespace inv h
  | addScopes c n scs =>
    obtain ⟨⟨b, d⟩, h1, rfl⟩ := Out.map_eq_ok.1 h
    exact inv_tAddScope inv h1
  | addChildTenant c ds => exact inv_tAddChild inv h
  | setStatus c s => exact inv_setStatus inv h
  | addTenant c => exact inv_addTenant inv h
  | setDefaultTenant t =>
    cases h
    exact ⟨inv.dag, inv.tenantsWF, inv.tenants, inv.nsWF, inv.childrenWF, inv.children, inv.users, inv.indexWF, inv.indexWF2,
      inv.indexed⟩
  | newPrincipalRole u => cases h; exact inv_newPR inv u
  | setExpiry i now e =>
    refine inv_onPR inv (fun u => ?_) h
    unfold PR.setExpiry
    split
    · exact ⟨u.expiry, rfl⟩
    · exact ⟨_, rfl⟩
  | setExpiryDuration i parse now a =>
    refine inv_onPR inv (fun u => ?_) h
    cases a with
    | str s =>
      cases hp : parse s with
      | none => exact ⟨u.expiry, by simp [PR.setExpiryDuration, hp]⟩
      | some d => exact ⟨some (now + d), by simp [PR.setExpiryDuration, hp]⟩
    | dur d => exact ⟨_, rfl⟩
    | other => exact ⟨_, rfl⟩
  | clearExpiry i => exact inv_onPR inv (fun u => ⟨_, rfl⟩) h
  | addPrincipalRole is => exact inv_addPrincipalRole inv h
  | removePrincipalRole target =>
    obtain ⟨⟨b, d⟩, h1, rfl⟩ := Out.map_eq_ok.1 h
    exact inv_remove inv h1
  | authorize e fuel site r =>
    obtain ⟨⟨b, d⟩, h1, rfl⟩ := Out.map_eq_ok.1 h
    exact (authorize_run inv h1).inv inv
  | can e fuel site r roles =>
    obtain ⟨⟨b, d⟩, h1, rfl⟩ := Out.map_eq_ok.1 h
    exact (can_run inv h1).inv inv

theorem inv_init (l : Bool) : Inv { logger := l } where
  dag := ⟨GoMap.wf_nil, GoMap.wf_nil, GoMap.wf_nil, by simp, by simp⟩
  tenantsWF := GoMap.wf_nil
  tenants := by simp
  nsWF := by simp
  childrenWF := by simp
  children := by simp
  users := by simp
  indexWF := GoMap.wf_nil
  indexWF2 := by simp
  indexed := by simp

/-- Every state an authorizer can reach (`NewAuthorizer`, with or without logger, v2/v2.go:84-96). -/
theorem reachable_inv {l : Bool} {ops : List V2Op} (h : V2Op.run { logger := l } ops = .ok w) : Inv w :=
  Out.loop_inv (P := Inv) (fun _ _ _ _ hs hf => inv_apply hs hf) (inv_init l) h

end V2
end Verif
