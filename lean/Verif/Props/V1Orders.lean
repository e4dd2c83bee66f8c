import Verif.Props.V1Returns

/-!
# Package v1: the map orders of past calls do not matter, C98

`AddPrincipalInNamespace`, `AssignScopesToPrincipal` and `AssignScopesWithRole` walk through the set of assignments while
they add to it; Go picks the order of that walk.
-/

namespace Verif
open Spec V1

/-- The same call, perhaps with another order of the walk through the assignments. -/
inductive V1Op.Alike : V1Op → V1Op → Prop
  | refl (op : V1Op) : V1Op.Alike op op
  | inNamespace (o o' : Ord) (site site' : List Val) (c : Nat) (p n : Str) (rs : List Str) :
    V1Op.Alike (.tAddPrincipalInNamespace o site c p n rs) (.tAddPrincipalInNamespace o' site' c p n rs)
  | scopes (o o' : Ord) (site site' : List Val) (c : Nat) (p : Str) (ss : List Str) :
    V1Op.Alike (.tAssignScopesToPrincipal o site c p ss) (.tAssignScopesToPrincipal o' site' c p ss)
  | withRole (o o' : Ord) (site site' : List Val) (c : Nat) (p r : Str) (ss : List Str) :
    V1Op.Alike (.tAssignScopesWithRole o site c p r ss) (.tAssignScopesWithRole o' site' c p r ss)

namespace V1
variable {w v : V1} {o : Ord} {site : List Val}

/-- The states differ at most in the order of the set of assignments. -/
structure Same (w v : V1) : Prop where
  rest : v = { w with tps := v.tps, log := v.log }
  tps : ∀ h, h ∈ w.tps ↔ h ∈ v.tps

/-- Both calls end the same way, in states that differ at most in the order of the set of assignments. -/
def SameOut : Out V1 → Out V1 → Prop
  | .ok w, .ok v => Same w v
  | .panic, .panic => True
  | .diverge, .diverge => True
  | _, _ => False

theorem Same.mk' {T : List Str} {L : List TP} (h : ∀ k, k ∈ w.tps ↔ k ∈ T) : Same w { w with tps := T, log := L } :=
  ⟨rfl, h⟩

theorem Same.elim (s : Same w v) : ∃ T L, v = { w with tps := T, log := L } ∧ ∀ k, k ∈ w.tps ↔ k ∈ T :=
  ⟨v.tps, v.log, s.rest, s.tps⟩

theorem SameOut.bind {x y : Out V1} {f g : V1 → Out V1} (h : SameOut x y) (hf : ∀ w v, Same w v → SameOut (f w) (g v)) :
    SameOut (x.bind f) (y.bind g) := by
  cases x <;> cases y <;> first | exact h.elim | exact trivial | exact hf _ _ h

theorem SameOut.loop {α : Type} {f g : V1 → α → Out V1} {xs : List α}
    (hf : ∀ w v, Same w v → ∀ x ∈ xs, SameOut (f w x) (g v x)) (s : Same w v) : SameOut (Out.loop f w xs) (Out.loop g v xs) := by
  induction xs generalizing w v with
  | nil => exact s
  | cons x xs ih =>
    exact (hf w v s x (List.mem_cons_self ..)).bind fun w v s =>
      ih (fun w v s y hy => hf w v s y (List.mem_cons_of_mem _ hy)) s

theorem Same.store (s : Same w v) (x : TP) : Same (w.store x) (v.store x) := by
  obtain ⟨T, L, rfl, h⟩ := s.elim
  refine ⟨rfl, fun k => ?_⟩
  rw [mem_store, mem_store]
  exact or_congr (h k) Iff.rfl

theorem sameOut_withT (s : Same w v) {c : Nat} {f g : T1Obj → Out V1}
    (h : ∀ t, w.tobjs[c]? = some t → SameOut (f t) (g t)) : SameOut (w.withT c f) (v.withT c g) := by
  obtain ⟨T, L, rfl, _⟩ := s.elim
  unfold withT
  simp only
  cases ht : w.tobjs[c]? with
  | none => trivial
  | some t => exact h t ht

theorem sameOut_addPrincipalRole (s : Same w v) {p r : Str} {c : Nat} {ns : Option Nat} {sc : Option Str} {m : List Bool} :
    SameOut (w.addPrincipalRole p r c ns sc m) (v.addPrincipalRole p r c ns sc m) := by
  have hn : v.nsID ns = w.nsID ns := by rw [s.rest]; rfl
  have ht : v.tobjs = w.tobjs := by rw [s.rest]
  unfold addPrincipalRole
  rw [hn, ht]
  cases w.tobjs[c]? with
  | none => trivial
  | some t =>
    simp only
    cases w.nsID ns with
    | ok n => exact s.store _
    | panic => trivial
    | diverge => trivial

theorem sameOut_tAddPrincipalRole (s : Same w v) {c : Nat} {p r : Str} {d : Nat} {ns : Option Nat} {sc : Option Str}
    {m : List Bool} : SameOut (w.tAddPrincipalRole c p r d ns sc m) (v.tAddPrincipalRole c p r d ns sc m) := by
  refine sameOut_withT s fun t _ => ?_
  split
  · exact sameOut_addPrincipalRole s
  · trivial

theorem sameOut_addWithDefault (s : Same w v) {c : Nat} {t : T1Obj} {p r : Str} {sc : Option Str} :
    SameOut (w.addWithDefault c t p r sc) (v.addWithDefault c t p r sc) := by
  refine (sameOut_tAddPrincipalRole s).bind fun w v s => ?_
  cases t.defNs with
  | none => exact s
  | some a => exact sameOut_tAddPrincipalRole s

theorem Same.setT (s : Same w v) (c : Nat) (t : T1Obj) : Same (w.setT c t) (v.setT c t) := by
  obtain ⟨T, L, rfl, h⟩ := s.elim
  exact ⟨rfl, h⟩

theorem Same.setNs (s : Same w v) (a : Nat) (no : NsObj) : Same (w.setNs a no) (v.setNs a no) := by
  obtain ⟨T, L, rfl, h⟩ := s.elim
  exact ⟨rfl, h⟩

theorem Same.tobjs (s : Same w v) : v.tobjs = w.tobjs := by rw [s.rest]
theorem Same.nsobjs (s : Same w v) : v.nsobjs = w.nsobjs := by rw [s.rest]
theorem Same.heap (s : Same w v) : v.heap = w.heap := by rw [s.rest]

theorem sameOut_tAddScopesToNamespace (s : Same w v) {c : Nat} {n : Str} {ss : List Str} :
    SameOut (w.tAddScopesToNamespace c n ss) (v.tAddScopesToNamespace c n ss) := by
  induction ss generalizing w v with
  | nil => exact s
  | cons x ss ih =>
    unfold tAddScopesToNamespace
    refine sameOut_withT s fun t _ => ?_
    split
    · exact s
    · split
      · exact ih s
      · rw [s.nsobjs]
        split
        · trivial
        · exact (sameOut_tAddPrincipalRole (s.setNs _ _)).bind fun _ _ s => ih s

theorem sameOut_tAddRolesToNamespace (s : Same w v) {c : Nat} {n : Str} {rs : List Str} :
    SameOut (w.tAddRolesToNamespace c n rs) (v.tAddRolesToNamespace c n rs) := by
  induction rs generalizing w v with
  | nil => exact s
  | cons x rs ih =>
    unfold tAddRolesToNamespace
    refine sameOut_withT s fun t _ => ?_
    split
    · exact s
    · split
      · exact s
      · rw [s.nsobjs]
        split
        · trivial
        · exact ih (s.setNs _ _)

/-- Two lists of assignments with the same elements. -/
theorem Same.stores (s : Same w v) {L M : List TP} (h : ∀ x, x ∈ L ↔ x ∈ M) : Same (w.stores L) (v.stores M) := by
  refine ⟨?_, fun k => ?_⟩
  · have e1 := stores_frame w L
    have e2 := stores_frame v M
    have e3 := s.rest
    generalize w.stores L = a at *
    generalize v.stores M = b at *
    obtain ⟨T, L, rfl, _⟩ := s.elim
    rw [e1, e2]
  · rw [mem_stores, mem_stores, s.tps]
    simp [h]

/-! The calls that walk through the assignments return for tenants that have a manager. -/

theorem tAddPrincipalRole_total {c : Nat} {t : T1Obj} (ht : w.tobjs[c]? = some t) (hm : t.managed = true) {p r : Str}
    {ns : Option Nat} {sc : Option Str} (hn : ∀ a, ns = some a → ∃ no, w.nsobjs[a]? = some no) :
    ∃ w', w.tAddPrincipalRole c p r c ns sc [] = .ok w' := by
  unfold tAddPrincipalRole withT addPrincipalRole nsID
  rw [ht]
  simp only [hm, if_true]
  cases ns with
  | none => exact ⟨_, rfl⟩
  | some a => obtain ⟨no, h⟩ := hn a rfl; simp only [h]; exact ⟨_, rfl⟩

theorem addWithDefault_total {c : Nat} {t : T1Obj} (ht : w.tobjs[c]? = some t) (hm : t.managed = true)
    (hd : ∀ a, t.defNs = some a → ∃ no, w.nsobjs[a]? = some no) {p r : Str} {sc : Option Str} :
    ∃ w', w.addWithDefault c t p r sc = .ok w' := by
  obtain ⟨w1, h1⟩ := tAddPrincipalRole_total (w := w) (p := p) (r := r) (ns := none) (sc := sc) ht hm (fun _ h => by cases h)
  unfold addWithDefault
  rw [h1, Out.bind_ok]
  cases e : t.defNs with
  | none => exact ⟨_, rfl⟩
  | some a =>
    obtain ⟨_, _, _, rfl⟩ := tAddPrincipalRole_eq ht h1
    exact tAddPrincipalRole_total (by simpa using ht) hm (fun b hb => by cases hb; simpa using hd a e)

theorem loop_total {α : Type} {f : V1 → α → Out V1} {g : α → List TP} {xs : List α}
    (hf : ∀ L, ∀ x ∈ xs, f (w.stores L) x = .ok ((w.stores L).stores (g x))) (L : List TP) :
    ∃ w', Out.loop f (w.stores L) xs = .ok w' := by
  induction xs generalizing L with
  | nil => exact ⟨_, rfl⟩
  | cons x xs ih =>
    unfold Out.loop
    rw [hf L x (List.mem_cons_self ..), Out.bind_ok, ← stores_append]
    exact ih (fun L y hy => hf L y (List.mem_cons_of_mem _ hy)) _

theorem defNs_total (inv : Inv w) {c : Nat} {t : T1Obj} (ht : w.tobjs[c]? = some t) (a : Nat) (h : t.defNs = some a) :
    ∃ no, w.nsobjs[a]? = some no := by
  have tok := inv.tobjs t (mem_of_get ht)
  obtain ⟨k, hk⟩ := tok.defNs a h
  obtain ⟨no, h, _⟩ := tok.namespaces _ hk
  exact ⟨no, h⟩

/-- One step of the loops: the default-namespace pair. -/
theorem addWithDefault_ok (inv : Inv w) {c : Nat} {t : T1Obj} (ht : w.tobjs[c]? = some t) (hm : t.managed = true) {p r : Str}
    {sc : Option Str} (L : List TP) :
    (w.stores L).addWithDefault c t p r sc = .ok ((w.stores L).stores (withDefault t (w.defId t) p r sc)) := by
  obtain ⟨w1, h1⟩ := addWithDefault_total (w := w.stores L) (p := p) (r := r) (sc := sc) (by simpa using ht) hm
    (by simpa using defNs_total inv ht)
  rw [h1, (addWithDefault_eq (by simpa using ht) h1).2, stores_defId]

theorem tAssignScopesToPrincipal_total (inv : Inv w) {c : Nat} {t : T1Obj} (ht : w.tobjs[c]? = some t)
    (hm : t.managed = true) (o : Ord) (site : List Val) (p : Str) (ss : List Str) :
    ∃ w', w.tAssignScopesToPrincipal o site c p ss = .ok w' := by
  unfold tAssignScopesToPrincipal withT
  rw [ht]
  simp only [hm, if_true]
  obtain ⟨l, hl⟩ := principalRoles_total inv o site t.id p
  rw [hl, Out.bind_ok]
  split
  · exact ⟨_, rfl⟩
  · refine loop_total (w := w) (L := []) (g := fun s => if (t.scopes.get s).isSome then
        (l.flatMap fun x => withDefault t (w.defId t) p x.role (some s)) ++ [tp t p [] [] (some s)] else []) fun L s _ => ?_
    split
    · have hstep : ∀ M, ∀ x ∈ l, (fun w (x : TP) => w.addWithDefault c t p x.role (some s)) (w.stores M) x =
          .ok ((w.stores M).stores (withDefault t (w.defId t) p x.role (some s))) :=
        fun M x _ => addWithDefault_ok inv ht hm M
      obtain ⟨w1, h1⟩ := loop_total (w := w) (f := fun w (x : TP) => w.addWithDefault c t p x.role (some s))
        (g := fun x => withDefault t (w.defId t) p x.role (some s)) hstep L
      rw [h1, Out.bind_ok]
      have e1 := loop_stores (w := w) (g := fun x : TP => withDefault t (w.defId t) p x.role (some s))
        (fun M w' x hx h => Out.ok.inj (h.symm.trans (hstep M x hx))) h1
      subst e1
      obtain ⟨w2, h2⟩ := tAddPrincipalRole_total (w := w.stores (L ++ l.flatMap fun x => withDefault t (w.defId t) p x.role (some s)))
        (p := p) (r := []) (ns := none) (sc := some s) (by simpa using ht) hm (fun _ h => by cases h)
      obtain ⟨_, n', hn', e'⟩ := tAddPrincipalRole_eq (by simpa using ht) h2
      cases hn'
      rw [h2, e', ← stores_append, ← stores_append, List.append_assoc]
    · rfl

theorem tAssignScopesWithRole_total (inv : Inv w) {c : Nat} {t : T1Obj} (ht : w.tobjs[c]? = some t)
    (hm : t.managed = true) (o : Ord) (site : List Val) (p r : Str) (ss : List Str) :
    ∃ w', w.tAssignScopesWithRole o site c p r ss = .ok w' := by
  unfold tAssignScopesWithRole withT
  split
  · exact ⟨_, rfl⟩
  · rw [ht]
    simp only [hm, if_true]
    obtain ⟨l, hl⟩ := principalRoles_total inv o site t.id p
    rw [hl, Out.bind_ok]
    split
    · exact ⟨_, rfl⟩
    · split
      · refine loop_total (w := w) (L := []) (g := fun s => if (t.scopes.get s).isSome then
            withDefault t (w.defId t) p r (some s) else []) fun L s _ => ?_
        split
        · exact addWithDefault_ok inv ht hm L
        · rfl
      · exact ⟨_, rfl⟩

theorem tAddPrincipalInNamespace_copy_total (inv : Inv w) {c : Nat} {t : T1Obj} (ht : w.tobjs[c]? = some t)
    (hm : t.managed = true) (o : Ord) (site : List Val) (p n : Str) :
    ∃ w', w.tAddPrincipalInNamespace o site c p n [] = .ok w' := by
  unfold tAddPrincipalInNamespace
  simp only [withT, ht]
  cases ha : t.namespaces.get n with
  | none => exact ⟨_, rfl⟩
  | some a =>
    obtain ⟨no, hno, hid⟩ := (inv.tobjs t (mem_of_get ht)).namespaces _ (GoMap.get_some_mem ha)
    obtain ⟨l, hl⟩ := tenantRoles_total inv o site t.id
    have hns : w.nsID (some a) = .ok n := by simp only [nsID, hno]; rw [hid]
    have step : ∀ L r, (w.stores L).tAddPrincipalRole c p r c (some a) none [] = .ok ((w.stores L).stores [tp t p r n none]) := by
      intro L r
      obtain ⟨w2, h2⟩ := tAddPrincipalRole_total (w := w.stores L) (p := p) (r := r) (ns := some a) (sc := none)
        (by simpa using ht) hm (fun b h => by cases h; exact ⟨no, by simpa using hno⟩)
      obtain ⟨_, n', hn', e'⟩ := tAddPrincipalRole_eq (by simpa using ht) h2
      rw [stores_nsID, hns] at hn'
      cases hn'
      rw [h2, e']
    simp only [List.length_nil, Nat.lt_irrefl, if_false, hm, if_true]
    rw [hl, Out.bind_ok]
    have hstep : ∀ M, ∀ x ∈ l, (fun w (x : TP) => if x.principal = p ∧ x.namespace_ ≠ [] ∧ x.namespace_ ≠ n then
          w.tAddPrincipalRole c p x.role c (some a) none [] else Out.ok w) (w.stores M) x =
        .ok ((w.stores M).stores (if x.principal = p ∧ x.namespace_ ≠ [] ∧ x.namespace_ ≠ n then [tp t p x.role n none] else [])) := by
      intro M x _
      simp only
      split
      · exact step M _
      · rfl
    obtain ⟨w1, h1⟩ := loop_total (w := w) (f := fun w (x : TP) => if x.principal = p ∧ x.namespace_ ≠ [] ∧ x.namespace_ ≠ n then
        w.tAddPrincipalRole c p x.role c (some a) none [] else Out.ok w) (g := fun x : TP => if x.principal = p ∧ x.namespace_ ≠ [] ∧ x.namespace_ ≠ n then
        [tp t p x.role n none] else []) hstep []
    have h1' : Out.loop _ w l = .ok w1 := h1
    rw [h1', Out.bind_ok]
    have e1 := loop_stores (w := w) (L := []) (g := fun x : TP => if x.principal = p ∧ x.namespace_ ≠ [] ∧ x.namespace_ ≠ n then
        [tp t p x.role n none] else []) (fun M w' x hx h => Out.ok.inj (h.symm.trans (hstep M x hx))) h1
    subst e1
    exact ⟨_, step _ _⟩

theorem Same.rows (s : Same w v) : Row v = Row w := by
  funext x
  exact propext ⟨fun ⟨h, hh, f⟩ => ⟨h, (s.tps h).2 hh, f⟩, fun ⟨h, hh, f⟩ => ⟨h, (s.tps h).1 hh, f⟩⟩

theorem Same.defId (s : Same w v) (t : T1Obj) : v.defId t = w.defId t := by
  unfold V1.defId; rw [s.nsobjs]

theorem mem_flatMap_congr {α β : Type} {l m : List α} {f : α → List β} (h : ∀ x, x ∈ l ↔ x ∈ m) (y : β) :
    y ∈ l.flatMap f ↔ y ∈ m.flatMap f := by simp [h]

theorem nil_congr {α : Type} {l m : List α} (h : ∀ x, x ∈ l ↔ x ∈ m) : l = [] ↔ m = [] := by
  simp only [List.eq_nil_iff_forall_not_mem, h]

theorem sameOut_inNamespace {c : Nat} {p n : Str} {rs : List Str} (o o' : Ord) (site site' : List Val)
    (iw : Inv w) (iv : Inv v) (s : Same w v) :
    SameOut (w.tAddPrincipalInNamespace o site c p n rs) (v.tAddPrincipalInNamespace o' site' c p n rs) := by
  by_cases hrs : rs = []
  · subst hrs
    cases ht : w.tobjs[c]? with
    | none =>
      unfold tAddPrincipalInNamespace withT
      rw [s.tobjs, ht]; trivial
    | some t =>
      have ht' : v.tobjs[c]? = some t := by rw [s.tobjs, ht]
      by_cases hm : t.managed = true
      · obtain ⟨w1, h1⟩ := tAddPrincipalInNamespace_copy_total iw ht hm o site p n
        obtain ⟨v1, h2⟩ := tAddPrincipalInNamespace_copy_total iv ht' hm o' site' p n
        rw [h1, h2]
        rcases tAddPrincipalInNamespace_eq iw ht h1 with ⟨k1, rfl⟩ | ⟨_, k1, _⟩ | ⟨k1, _, l, hl, rfl⟩
        · rcases tAddPrincipalInNamespace_eq iv ht' h2 with ⟨_, rfl⟩ | ⟨_, k2, _⟩ | ⟨k2, _⟩
          · exact s
          · exact absurd rfl k2
          · rw [k1] at k2; cases k2
        · exact absurd rfl k1
        · rcases tAddPrincipalInNamespace_eq iv ht' h2 with ⟨k2, _⟩ | ⟨_, k2, _⟩ | ⟨_, _, m, hm, rfl⟩
          · rw [k2] at k1; cases k1
          · exact absurd rfl k2
          · have e : ∀ x, x ∈ l ↔ x ∈ m := fun x => by rw [tenantRoles_mem hl, tenantRoles_mem hm, s.rows]
            refine s.stores fun x => ?_
            rw [List.mem_append, List.mem_append, mem_flatMap_congr e]
      · unfold tAddPrincipalInNamespace withT
        simp only [ht, ht']
        cases t.namespaces.get n with
        | none => exact s
        | some a =>
          simp only [List.length_nil, Nat.lt_irrefl, if_false]
          rw [if_neg hm, if_neg hm]; trivial
  · have hl : 0 < rs.length := List.length_pos_of_ne_nil hrs
    unfold tAddPrincipalInNamespace
    refine sameOut_withT s fun t _ => ?_
    cases t.namespaces.get n with
    | none => exact s
    | some a =>
      simp only [if_pos hl]
      refine SameOut.loop (fun w v s r _ => ?_) s
      split
      · exact s
      · rw [s.heap]
        split
        · trivial
        · exact sameOut_tAddPrincipalRole s

theorem sameOut_scopes {c : Nat} {p : Str} {ss : List Str} (o o' : Ord) (site site' : List Val)
    (iw : Inv w) (iv : Inv v) (s : Same w v) :
    SameOut (w.tAssignScopesToPrincipal o site c p ss) (v.tAssignScopesToPrincipal o' site' c p ss) := by
  cases ht : w.tobjs[c]? with
  | none =>
    unfold tAssignScopesToPrincipal withT
    rw [s.tobjs, ht]; trivial
  | some t =>
    have ht' : v.tobjs[c]? = some t := by rw [s.tobjs, ht]
    by_cases hm : t.managed = true
    · obtain ⟨w1, h1⟩ := tAssignScopesToPrincipal_total iw ht hm o site p ss
      obtain ⟨v1, h2⟩ := tAssignScopesToPrincipal_total iv ht' hm o' site' p ss
      rw [h1, h2]
      obtain ⟨l, hl, rfl⟩ := tAssignScopesToPrincipal_eq ht h1
      obtain ⟨m, hm, rfl⟩ := tAssignScopesToPrincipal_eq ht' h2
      have e : ∀ x, x ∈ l ↔ x ∈ m := fun x => by
        rw [principalRoles_mem hl, principalRoles_mem hm]; unfold RowsOf; rw [s.rows]
      refine s.stores fun x => ?_
      rw [s.defId]
      by_cases h0 : l = []
      · rw [if_pos h0, if_pos ((nil_congr e).1 h0)]
      · rw [if_neg h0, if_neg (fun h => h0 ((nil_congr e).2 h)), List.mem_flatMap, List.mem_flatMap]
        refine exists_congr fun k => and_congr Iff.rfl ?_
        split
        · rw [List.mem_append, List.mem_append, mem_flatMap_congr e]
        · exact Iff.rfl
    · unfold tAssignScopesToPrincipal withT
      simp only [ht, ht', if_neg hm]; trivial

theorem sameOut_withRole {c : Nat} {p r : Str} {ss : List Str} (o o' : Ord) (site site' : List Val)
    (iw : Inv w) (iv : Inv v) (s : Same w v) :
    SameOut (w.tAssignScopesWithRole o site c p r ss) (v.tAssignScopesWithRole o' site' c p r ss) := by
  by_cases hs : ss.length = 0
  · unfold tAssignScopesWithRole; rw [if_pos hs, if_pos hs]; exact s
  cases ht : w.tobjs[c]? with
  | none =>
    unfold tAssignScopesWithRole withT
    rw [if_neg hs, if_neg hs, s.tobjs, ht]; trivial
  | some t =>
    have ht' : v.tobjs[c]? = some t := by rw [s.tobjs, ht]
    by_cases hm : t.managed = true
    · obtain ⟨w1, h1⟩ := tAssignScopesWithRole_total iw ht hm o site p r ss
      obtain ⟨v1, h2⟩ := tAssignScopesWithRole_total iv ht' hm o' site' p r ss
      rw [h1, h2]
      obtain ⟨L, rfl, hL⟩ := tAssignScopesWithRole_eq ht h1
      obtain ⟨M, rfl, hM⟩ := tAssignScopesWithRole_eq ht' h2
      rcases hL with ⟨h0, _⟩ | ⟨l, hl, rfl⟩
      · exact absurd (by rw [h0]; rfl) hs
      rcases hM with ⟨h0, _⟩ | ⟨m, hm, rfl⟩
      · exact absurd (by rw [h0]; rfl) hs
      have e : ∀ x, x ∈ l ↔ x ∈ m := fun x => by
        rw [principalRoles_mem hl, principalRoles_mem hm]; unfold RowsOf; rw [s.rows]
      refine s.stores fun x => ?_
      rw [s.defId]
      by_cases h0 : l = []
      · have h1 := (nil_congr e).1 h0
        rw [if_neg (fun h => h.1 h0), if_neg (fun h => h.1 h1)]
      · have h1 : ¬ m = [] := fun h => h0 ((nil_congr e).2 h)
        simp only [ne_eq, h0, h1, not_false_eq_true, true_and]
    · unfold tAssignScopesWithRole withT
      simp only [ht, ht', if_neg hm, if_neg hs]; trivial

/-- C98. One call: the order of the walk changes neither how it ends nor what is stored. -/
theorem C98_call {op op' : V1Op} (ha : op.Alike op') (iw : Inv w) (iv : Inv v) (s : Same w v) :
    SameOut (op.apply w) (op'.apply v) := by
  cases ha with
  | inNamespace o o' site site' c p n rs => exact sameOut_inNamespace o o' site site' iw iv s
  | scopes o o' site site' c p ss => exact sameOut_scopes o o' site site' iw iv s
  | withRole o o' site site' c p r ss => exact sameOut_withRole o o' site site' iw iv s
  | refl =>
    cases op with
    | tAddPrincipalInNamespace o site c p n rs => exact sameOut_inNamespace o o site site iw iv s
    | tAssignScopesToPrincipal o site c p ss => exact sameOut_scopes o o site site iw iv s
    | tAssignScopesWithRole o site c p r ss => exact sameOut_withRole o o site site iw iv s
    | tAddScopesToNamespace c n ss => exact sameOut_tAddScopesToNamespace s
    | tAddRolesToNamespace c n rs => exact sameOut_tAddRolesToNamespace s
    | addPrincipalRole p r c ns sc m => exact sameOut_addPrincipalRole s
    | tAddPrincipalRole c p r d ns sc m => exact sameOut_tAddPrincipalRole s
    | tAddPrincipal c p rs =>
      refine sameOut_withT s fun t _ => SameOut.loop (fun w v s r _ => ?_) s
      split
      · exact sameOut_addWithDefault s
      · exact s
    | tAddDescendent c ds =>
      refine SameOut.loop (fun w v s d _ => sameOut_withT s fun t _ => sameOut_withT s fun dt _ => s.setT _ _) s
    | tSetDefaultNamespace c n =>
      refine sameOut_withT s fun t _ => ?_
      split
      · exact s.setT _ _
      · exact s
    | tAddNamespace c ns =>
      refine SameOut.loop (fun w v s d _ => sameOut_withT s fun t _ => ?_) s
      rw [s.nsobjs]
      split
      · trivial
      · exact s.setT _ _
    | tAddRole c rs =>
      refine SameOut.loop (fun w v s d _ => sameOut_withT s fun t _ => ?_) s
      rw [s.heap]
      split
      · trivial
      · exact s.setT _ _
    | tAddScopes c ss =>
      refine SameOut.loop (fun w v s d _ => sameOut_withT s fun t _ => ?_) s
      simp only
      split
      · exact s.setT _ _
      · rw [(s.setT c _).nsobjs]
        split
        · trivial
        · exact (s.setT _ _).setNs _ _
    | nsAddRoles n rs =>
      refine SameOut.loop (fun w v s d _ => ?_) s
      rw [s.nsobjs, s.heap]
      split
      · exact s.setNs _ _
      · trivial
    | nsAddScopes n ss =>
      refine SameOut.loop (fun w v s d _ => ?_) s
      rw [s.nsobjs]
      split
      · exact s.setNs _ _
      · trivial
    | role op =>
      obtain ⟨T, L, rfl, h⟩ := s.elim
      unfold V1Op.apply
      simp only
      cases op.apply w.heap <;> first | trivial | exact ⟨rfl, h⟩
    | addPermissionsToRole r g as =>
      obtain ⟨T, L, rfl, h⟩ := s.elim
      unfold V1Op.apply
      simp only
      cases w.heap.addPermissionsToRole w.roles w.attrGroups r g as <;> first | trivial | exact ⟨rfl, h⟩
    | addTenant a =>
      obtain ⟨T, L, rfl, h⟩ := s.elim
      unfold V1Op.apply V1.addTenant
      simp only
      cases w.tobjs[a]? with
      | none => trivial
      | some t => cases e : w.tenants.get t.id <;> simp only [e] <;> exact ⟨rfl, h⟩
    | addNamespace a =>
      obtain ⟨T, L, rfl, h⟩ := s.elim
      unfold V1Op.apply V1.addNamespace
      simp only
      cases w.nsobjs[a]? with
      | none => trivial
      | some t => cases e : w.namespaces.get t.id <;> simp only [e] <;> exact ⟨rfl, h⟩
    | addRole a =>
      obtain ⟨T, L, rfl, h⟩ := s.elim
      unfold V1Op.apply V1.addRole
      simp only
      cases w.heap.roles[a]? with
      | none => trivial
      | some t => cases e : w.roles.get t.id <;> simp only [e] <;> exact ⟨rfl, h⟩
    | addAttributeGroup a =>
      obtain ⟨T, L, rfl, h⟩ := s.elim
      unfold V1Op.apply V1.addAttributeGroup
      simp only
      cases w.heap.groups[a]? with
      | none => trivial
      | some t => cases e : w.attrGroups.get t.id <;> simp only [e] <;> exact ⟨rfl, h⟩
    | addScope id obj =>
      obtain ⟨T, L, rfl, h⟩ := s.elim
      unfold V1Op.apply V1.addScope
      cases e : w.scopes.get id <;> simp only [e] <;> exact ⟨rfl, h⟩
    | addPrincipal id obj =>
      obtain ⟨T, L, rfl, h⟩ := s.elim
      unfold V1Op.apply V1.addPrincipal
      cases e : w.principals.get id <;> simp only [e] <;> exact ⟨rfl, h⟩
    | addAttribute a obj =>
      obtain ⟨T, L, rfl, h⟩ := s.elim
      unfold V1Op.apply V1.addAttribute
      cases e : w.attrs.get a.toStr <;> simp only [e] <;> exact ⟨rfl, h⟩
    | newTenant id =>
      obtain ⟨T, L, rfl, h⟩ := s.elim
      exact ⟨rfl, h⟩
    | newNamespace id =>
      obtain ⟨T, L, rfl, h⟩ := s.elim
      exact ⟨rfl, h⟩

/-- C98. Two histories of the same calls, with whatever orders, end the same way with the same assignments. -/
theorem C98_histories {ops ops' : List V1Op} (h : List.Forall₂ V1Op.Alike ops ops') :
    SameOut (V1Op.run {} ops) (V1Op.run {} ops') := by
  have key : ∀ w v, Inv w → Inv v → Same w v → SameOut (V1Op.run w ops) (V1Op.run v ops') := by
    induction h with
    | nil => exact fun w v _ _ s => s
    | cons ha _ ih =>
      rename_i op op' ops ops' _
      intro w v iw iv s
      have hs := C98_call ha iw iv s
      unfold V1Op.run
      cases h1 : op.apply w <;> cases h2 : op'.apply v <;> rw [h1, h2] at hs <;>
        first | exact hs.elim | exact trivial | exact ih _ _ (V1Op.good h1 iw).1 (V1Op.good h2 iv).1 hs
  exact key _ _ .empty .empty ⟨rfl, fun _ => Iff.rfl⟩

/-- C98. States that differ in the order of the set of assignments answer alike. -/
theorem C98_answers (iw : Inv w) (iv : Inv v) (s : Same w v) {o o' : Ord} {fuel fuel' : Nat} {site site' : List Val} {p : Str}
    {opts : List Opt} {b c : Bool} (h1 : w.authorize o fuel site p opts = .ok b)
    (h2 : v.authorize o' fuel' site' p opts = .ok c) : b = c := by
  rw [Bool.eq_iff_iff]
  obtain ⟨T, L, rfl, h⟩ := s.elim
  have hr := s.rows
  by_cases hres : ResourceRequest (requestOf opts)
  · rw [C37_exact iw hres h1, C37_exact iv hres h2]
    unfold Grants1 TenantAt
    rw [hr]
  · rw [C41_exact iw hres h1, C41_exact iv hres h2]
    unfold ActivityGrant ComplexGrant AllowIn Refused Candidate NsRole NsScope RowsOf TenantAt
    rw [hr]

/-- C98. The condition under which requests are answered (C97) does not depend on the order either. -/
theorem C98_returns (s : Same w v) {p : Str} {r : Request} (h : Answers w p r) : Answers v p r := by
  have hr := s.rows
  obtain ⟨T, L, rfl, _⟩ := s.elim
  refine ⟨fun k x hx => h.tenants k x (by rw [← hr]; exact hx), fun id a hid ha => h.roles id a ?_ ha⟩
  unfold Asked AllowIn Refused Candidate NsRole NsScope RowsOf TenantAt at hid ⊢
  rw [← hr]
  exact hid

/-- C98. The answers after two histories of the same calls agree, whatever the orders in the calls and in the requests. -/
theorem C98_decisions {ops ops' : List V1Op} (h : List.Forall₂ V1Op.Alike ops ops') (hw : V1Op.run {} ops = .ok w)
    {o o' : Ord} {fuel fuel' : Nat} {site site' : List Val} {p : Str} {opts : List Opt} {b c : Bool}
    (h1 : w.authorize o fuel site p opts = .ok b) :
    ∃ v, V1Op.run {} ops' = .ok v ∧ (v.authorize o' fuel' site' p opts = .ok c → b = c) := by
  have hs := C98_histories h
  rw [hw] at hs
  cases hv : V1Op.run {} ops' with
  | ok v =>
    rw [hv] at hs
    exact ⟨v, rfl, C98_answers (V1Op.reachable_inv hw) (V1Op.reachable_inv hv) hs h1⟩
  | panic => rw [hv] at hs; exact hs.elim
  | diverge => rw [hv] at hs; exact hs.elim

/-- `p` has roles "r" and "q" in tenant "t"; the scopes are added in both orders of the walk. -/
def exOrders (o : Ord) : List V1Op := [.newTenant (str "t"), .addTenant 0, .role (.newRole (str "r")), .role (.newRole (str "q")),
  .addRole 0, .addRole 1, .role (.addPerm 1 (str "g") [⟨str "/b", str "GET"⟩]), .tAddRole 0 [0, 1], .tAddScopes 0 [(str "s", 0)],
  .addPrincipal (str "p") 0, .tAddPrincipal 0 (str "p") [str "r", str "q"], .tAssignScopesToPrincipal o [] 0 (str "p") [str "s"]]

/-- The two walks store the assignments in different orders; the answers agree. -/
theorem C98_example : List.Forall₂ V1Op.Alike (exOrders .fwd) (exOrders .rev) ∧
    ∃ w v, V1Op.run {} (exOrders .fwd) = .ok w ∧ V1Op.run {} (exOrders .rev) = .ok v ∧ w.tps ≠ v.tps ∧ Same w v ∧
      w.authorize .fwd 9 [] (str "p") [.tenant (.str (str "t")), .scope (.str (str "s")), .group (.str (str "g")),
        .activity (.str (str "/b GET"))] = .ok true ∧
      v.authorize .rev 9 [] (str "p") [.tenant (.str (str "t")), .scope (.str (str "s")), .group (.str (str "g")),
        .activity (.str (str "/b GET"))] = .ok true := by
  have ha : List.Forall₂ V1Op.Alike (exOrders .fwd) (exOrders .rev) := by
    unfold exOrders
    repeat' first | exact .refl _ | exact .scopes .. | constructor
  have hs := C98_histories ha
  obtain ⟨w, hw, h1⟩ := Out.chk_ok (x := V1Op.run {} (exOrders .fwd)) (P := fun w => w.tps.getLast? =
      some (str "p__t__s_true") ∧ w.tps[2]? = some (str "p_r_t__s_true") ∧
      w.authorize .fwd 9 [] (str "p") [.tenant (.str (str "t")), .scope (.str (str "s")), .group (.str (str "g")),
        .activity (.str (str "/b GET"))] = .ok true) (by decide +kernel)
  obtain ⟨v, hv, h2⟩ := Out.chk_ok (x := V1Op.run {} (exOrders .rev)) (P := fun w =>
      w.tps[2]? = some (str "p_q_t__s_true") ∧
      w.authorize .rev 9 [] (str "p") [.tenant (.str (str "t")), .scope (.str (str "s")), .group (.str (str "g")),
        .activity (.str (str "/b GET"))] = .ok true) (by decide +kernel)
  rw [hw, hv] at hs
  refine ⟨ha, w, v, hw, hv, fun e => ?_, hs, h1.2.2, h2.2⟩
  have h3 := h1.2.1
  rw [e, h2.1] at h3
  exact absurd h3 (by decide)

end V1
end Verif
