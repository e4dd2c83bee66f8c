import Verif.Props.V2

/-!
# Package v2: `RemovePrincipalRole` (C48)
-/

namespace Verif
open Spec
namespace V2
variable {w w' : V2} {e : Env} {fuel : Nat} {site : List Val}

/-- The target selects the assignment: every field the target names agrees. -/
def Selects (target u : PR) : Prop :=
  (target.principal = [] ∨ u.principal = target.principal) ∧ (target.tenant = [] ∨ u.tenant = target.tenant) ∧
  (target.namespace_ = [] ∨ u.namespace_ = target.namespace_) ∧ (target.scope = [] ∨ u.scope = target.scope) ∧
  (target.role = [] ∨ u.role = target.role)

/-- Entry `x` of the assignment list is selected. -/
def SelectsAt (w : V2) (target : PR) (x : Option Nat) : Prop := ∃ i u, x = some i ∧ w.prs[i]? = some u ∧ Selects target u

/-- Every selected entry comes after every other one. -/
def AtEnd (w : V2) (target : PR) : Prop :=
  ∀ (i j : Nat) x y, i < j → w.userRoles[i]? = some x → w.userRoles[j]? = some y → SelectsAt w target x → SelectsAt w target y

/-- The assignments the index has for principal `p` in tenant `t`. -/
def indexAt (w : V2) (p t : Str) : List Nat :=
  match w.index.get p with
  | none => []
  | some m => match m.get t with
    | none => []
    | some is => is

theorem matchesPR_iff {target u : PR} : matchesPR target u = true ↔ Selects target u := by
  unfold matchesPR Selects
  simp only [Bool.not_eq_true', Bool.or_eq_false_iff, decide_eq_false_iff_not, and_assoc]
  have key : ∀ (a b : Str), ¬ (a ≠ [] ∧ b ≠ a) ↔ (a = [] ∨ b = a) := fun a b => by
    by_cases h1 : a = [] <;> by_cases h2 : b = a <;> simp [h1, h2]
  simp only [key]

theorem sel_iff (inv : Inv w) (hnil : none ∉ w.userRoles) {target : PR} {x : Option Nat} (hx : x ∈ w.userRoles) :
    w.sel target x = true ↔ SelectsAt w target x := by
  cases x with
  | none => exact absurd hx hnil
  | some i =>
    obtain ⟨u, hu⟩ := inv.users i hx
    rw [sel_eq (matchesAt_some hu), matchesPR_iff]
    constructor
    · exact fun h => ⟨i, u, rfl, hu, h⟩
    · rintro ⟨j, v, h1, h2, h3⟩
      cases h1
      rw [hu] at h2; cases h2; exact h3

/-! ### The list left behind -/

section lists
variable {α : Type} (s : Option α → Bool)

/-- With the selected entries last, what is left is the entries that stay. -/
theorem take_blank_suffix : ∀ {l : List (Option α)}, (∀ (i j : Nat) x y, i < j → l[i]? = some x → l[j]? = some y → s x = true → s y = true) →
    (l.map fun x => if s x then none else x).take (l.filter fun x => !s x).length = l.filter fun x => !s x
  | [], _ => rfl
  | a :: l, h => by
    cases ha : s a with
    | false =>
      have ih := take_blank_suffix (l := l) fun i j x y hij hi hj => h (i + 1) (j + 1) x y (by omega) (by simpa using hi) (by simpa using hj)
      simp [ha, ih]
    | true =>
      have hall : ∀ y ∈ a :: l, s y = true := by
        intro y hy
        obtain ⟨j, hj⟩ := List.mem_iff_getElem?.1 hy
        cases j with
        | zero => simp at hj; rw [← hj, ha]
        | succ j => exact h 0 (j + 1) a y (by omega) (by simp) hj ha
      have hf : ((a :: l).filter fun x => !s x) = [] := by
        rw [List.filter_eq_nil_iff]
        intro y hy; simp [hall y hy]
      rw [hf]; rfl

/-- A selected entry before one that stays leaves a nil entry. -/
theorem none_mem_take {l : List (Option α)} {i j : Nat} {x y : Option α} (hij : i < j) (hi : l[i]? = some x) (hj : l[j]? = some y)
    (hx : s x = true) (hy : s y = false) :
    none ∈ (l.map fun x => if s x then none else x).take (l.filter fun x => !s x).length := by
  induction l generalizing i j with
  | nil => simp at hi
  | cons a l ih =>
    cases i with
    | zero =>
      simp at hi; subst hi
      have : 0 < (l.filter fun x => !s x).length := by
        refine List.length_pos_of_mem (a := y) (List.mem_filter.2 ⟨?_, by simp [hy]⟩)
        cases j with
        | zero => omega
        | succ j => exact List.mem_of_getElem? (by simpa using hj)
      simp only [List.map_cons, hx, if_true, List.filter_cons, Bool.not_true, Bool.false_eq_true, if_false]
      rw [List.take_cons this]; exact List.mem_cons_self ..
    | succ i =>
      cases j with
      | zero => omega
      | succ j =>
        cases ha : s a with
        | false =>
          have ih := ih (i := i) (j := j) (by omega) (by simpa using hi) (by simpa using hj)
          simp only [List.map_cons, ha, Bool.false_eq_true, if_false, List.filter_cons, Bool.not_false, if_true, List.length_cons,
            List.take_succ_cons]
          exact List.mem_cons_of_mem _ ih
        | true =>
          have : 0 < (l.filter fun x => !s x).length := List.length_pos_of_mem (a := y)
            (List.mem_filter.2 ⟨List.mem_of_getElem? (by simpa using hj), by simp [hy]⟩)
          simp only [List.map_cons, ha, if_true, List.filter_cons, Bool.not_true, Bool.false_eq_true, if_false]
          rw [List.take_cons this]; exact List.mem_cons_self ..

end lists

/-! ### The index -/

theorem keep_get {κ ν : Type} [DecidableEq κ] {m : GoMap κ ν} (wf : GoMap.WF m) (g : ν → Option ν) (k : κ) :
    (m.keep g).get k = (m.get k).bind g := GoMap.get_keep wf g k

/-! ### C48 -/

/-- C48. The call returns on every list without nil entries. -/
theorem C48_returns (inv : Inv w) (hnil : none ∉ w.userRoles) (target : PR) :
    ∃ b w', w.removePrincipalRole target = .ok (b, w') := remove_total inv hnil target

/-- C48. It reports an error exactly when it selects nothing, and then changes nothing. -/
theorem C48_error (inv : Inv w) (hnil : none ∉ w.userRoles) {target : PR} {b : Bool}
    (h : w.removePrincipalRole target = .ok (b, w')) :
    (b = true ↔ ∀ u, Assigned w u → ¬ Selects target u) ∧ (b = true → w' = w) := by
  have key : (∀ u, Assigned w u → ¬ Selects target u) ↔ ∀ x ∈ w.userRoles, w.sel target x = false := by
    constructor
    · intro g x hx
      cases hs : w.sel target x with
      | false => rfl
      | true =>
        obtain ⟨i, u, rfl, h2, h3⟩ := (sel_iff inv hnil hx).1 hs
        exact absurd h3 (g u ⟨i, hx, h2⟩)
    · rintro g u ⟨i, hi, hu⟩ hs
      have := (sel_iff inv hnil hi).2 ⟨i, u, rfl, hu, hs⟩
      rw [g _ hi] at this; cases this
  rcases (remove_eq h).2 with ⟨rfl, rfl, h1⟩ | ⟨rfl, ⟨x, h1, h2⟩, _⟩
  · exact ⟨iff_of_true rfl (key.2 h1), fun _ => rfl⟩
  · refine ⟨iff_of_false (by simp) fun g => ?_, fun g => by cases g⟩
    rw [key.1 g x h1] at h2; cases h2

/-- C48. Only the assignment list and the index change. -/
theorem C48_frame {target : PR} {b : Bool} (h : w.removePrincipalRole target = .ok (b, w')) :
    w' = { w with userRoles := w'.userRoles, index := w'.index } := by
  rcases (remove_eq h).2 with ⟨_, rfl, _⟩ | ⟨_, _, rfl⟩ <;> rfl

theorem nil_iff_not_atEnd (inv : Inv w) (hnil : none ∉ w.userRoles) {target : PR} {b : Bool}
    (h : w.removePrincipalRole target = .ok (b, w')) :
    (AtEnd w target → w'.userRoles = w.userRoles.filter fun x => !w.sel target x) ∧
    (¬ AtEnd w target → none ∈ w'.userRoles) := by
  rcases (remove_eq h).2 with ⟨_, rfl, h1⟩ | ⟨_, _, rfl⟩
  · refine ⟨fun _ => (List.filter_eq_self.2 fun x hx => by simp [h1 x hx]).symm, fun g => ?_⟩
    refine absurd (fun i j x y _ hi _ hs => ?_) g
    have hx := List.mem_of_getElem? hi
    have := (sel_iff inv hnil hx).2 hs
    rw [h1 x hx] at this; cases this
  · constructor
    · intro g
      refine take_blank_suffix (w.sel target) fun i j x y hij hi hj hs => ?_
      exact (sel_iff inv hnil (List.mem_of_getElem? hj)).2
        (g i j x y hij hi hj ((sel_iff inv hnil (List.mem_of_getElem? hi)).1 hs))
    · intro g
      have : ∃ (i j : Nat) (x y : Option Nat), i < j ∧ w.userRoles[i]? = some x ∧ w.userRoles[j]? = some y ∧
          SelectsAt w target x ∧ ¬ SelectsAt w target y := by
        refine Classical.byContradiction fun hc => g fun i j x y hij hi hj hs => ?_
        refine Classical.byContradiction fun hy => hc ⟨i, j, x, y, hij, hi, hj, hs, hy⟩
      obtain ⟨i, j, x, y, hij, hi, hj, hx, hy⟩ := this
      refine none_mem_take (w.sel target) hij hi hj ((sel_iff inv hnil (List.mem_of_getElem? hi)).2 hx) ?_
      cases hs : w.sel target y with
      | false => rfl
      | true => exact absurd ((sel_iff inv hnil (List.mem_of_getElem? hj)).1 hs) hy

/-- C48. When the selected assignments are the last ones, exactly they are removed, and the others keep their order. -/
theorem C48_exact_partial (inv : Inv w) (hnil : none ∉ w.userRoles) {target : PR} (hend : AtEnd w target) {b : Bool}
    (h : w.removePrincipalRole target = .ok (b, w')) :
    none ∉ w'.userRoles ∧ w'.userRoles.Sublist w.userRoles ∧ ∀ x,
      (SelectsAt w target x → x ∉ w'.userRoles) ∧ (¬ SelectsAt w target x → w'.userRoles.count x = w.userRoles.count x) := by
  have h1 := (nil_iff_not_atEnd inv hnil h).1 hend
  rw [h1]
  refine ⟨fun hm => hnil (List.mem_filter.1 hm).1, List.filter_sublist, fun x => ?_⟩
  by_cases hx : x ∈ w.userRoles
  · have hs := sel_iff inv hnil (target := target) hx
    refine ⟨fun g hm => by have := (List.mem_filter.1 hm).2; simp [hs.2 g] at this, fun g => List.count_filter ?_⟩
    cases k : w.sel target x with
    | false => rfl
    | true => exact absurd (hs.1 k) g
  · refine ⟨fun _ hm => hx (List.mem_filter.1 hm).1, fun _ => ?_⟩
    rw [List.count_eq_zero.2 hx, List.count_eq_zero.2 fun hm => hx (List.mem_filter.1 hm).1]

/-- C48. In that case the current assignments are those that were not selected. -/
theorem C48_assigned_partial (inv : Inv w) (hnil : none ∉ w.userRoles) {target : PR} (hend : AtEnd w target) {b : Bool}
    (h : w.removePrincipalRole target = .ok (b, w')) (u : PR) : Assigned w' u ↔ Assigned w u ∧ ¬ Selects target u := by
  have h1 := (nil_iff_not_atEnd inv hnil h).1 hend
  have h2 : w'.prs = w.prs := by rw [C48_frame h]
  unfold Assigned
  rw [h1, h2]
  constructor
  · rintro ⟨i, hi, hu⟩
    obtain ⟨g1, g2⟩ := List.mem_filter.1 hi
    refine ⟨⟨i, g1, hu⟩, fun hs => ?_⟩
    rw [(sel_iff inv hnil g1).2 ⟨i, u, rfl, hu, hs⟩] at g2
    simp at g2
  · rintro ⟨⟨i, hi, hu⟩, hs⟩
    refine ⟨i, List.mem_filter.2 ⟨hi, ?_⟩, hu⟩
    cases k : w.sel target (some i) with
    | false => rfl
    | true =>
      obtain ⟨j, v, g1, g2, g3⟩ := (sel_iff inv hnil hi).1 k
      cases g1
      rw [hu] at g2; cases g2
      exact absurd g3 hs

/-- C48. A nil entry is left exactly when a selected assignment comes before one that stays; then some assignment
that should stay is lost as well. -/
theorem C48_nil_iff (inv : Inv w) (hnil : none ∉ w.userRoles) {target : PR} {b : Bool}
    (h : w.removePrincipalRole target = .ok (b, w')) :
    (none ∈ w'.userRoles ↔ ¬ AtEnd w target) ∧
    (¬ AtEnd w target → ∃ i, some i ∈ w.userRoles ∧ ¬ SelectsAt w target (some i) ∧
      w'.userRoles.count (some i) < w.userRoles.count (some i)) := by
  have key := nil_iff_not_atEnd inv hnil h
  refine ⟨⟨fun hm hend => (C48_exact_partial inv hnil hend h).1 hm, key.2⟩, fun hend => ?_⟩
  have hn := key.2 hend
  refine Classical.byContradiction fun hc => ?_
  -- otherwise all entries that stay survive, and with the nil entry the list is too long
  have hall : ∀ x ∈ w.userRoles.filter (fun x => !w.sel target x), (w.userRoles.filter fun x => !w.sel target x).count x ≤ w'.userRoles.count x := by
    intro x hx
    obtain ⟨g1, g2⟩ := List.mem_filter.1 hx
    cases x with
    | none => exact absurd g1 hnil
    | some i =>
      have hns : ¬ SelectsAt w target (some i) := fun hs => by rw [(sel_iff inv hnil g1).2 hs] at g2; simp at g2
      refine Classical.byContradiction fun hlt => hc ⟨i, g1, hns, ?_⟩
      have := (List.filter_sublist (l := w.userRoles) (p := fun x => !w.sel target x)).count_le (some i)
      omega
  rcases (remove_eq h).2 with ⟨_, rfl, h1⟩ | ⟨_, _, rfl⟩
  · exact hnil hn
  · have hlen := List.length_take_le (w.kept target w.userRoles).length (w.blank target w.userRoles)
    have hsub : (w.userRoles.filter fun x => !w.sel target x).Subperm
        (((w.blank target w.userRoles).take (w.kept target w.userRoles).length).erase none) := by
      refine List.subperm_ext_iff.2 fun x hx => ?_
      rw [List.count_erase_of_ne]
      · exact hall x hx
      · rintro rfl
        exact hnil (List.mem_filter.1 hx).1
    have h2 := hsub.length_le
    rw [List.length_erase_of_mem hn] at h2
    have h3 := List.length_pos_of_mem hn
    have h4 : (w.kept target w.userRoles).length = (w.userRoles.filter fun x => !w.sel target x).length := rfl
    simp only [] at h2 h3
    omega

/-- C48. After that, every decision that reaches resolution panics, whatever the request. -/
theorem C48_panics (inv : Inv w) (hnil : none ∉ w.userRoles) {target : PR} (hend : ¬ AtEnd w target) {b : Bool}
    (h : w.removePrincipalRole target = .ok (b, w')) (hf : w'.roleFuel ≤ fuel) {r : Req2}
    (hr : named w' r = [] ∨ ∃ c t ns, Target w' r c ∧ w'.tobjs[c]? = some t ∧ Place t r ns) :
    w'.authorize e fuel site r = .panic ∧ ∀ roles, w'.can e fuel site r roles = .panic :=
  have hn := (C48_nil_iff inv hnil h).1.2 hend
  have inv' := inv_remove inv h
  ⟨authorize_panic inv' hn hf hr, fun _ => can_panic inv' hn hf hr⟩

theorem index_removed (inv : Inv w) {target : PR} (h : w.removePrincipalRole target = .ok (false, w')) (p t : Str) :
    indexAt w' p t = (indexAt w p t).filter fun i => !w.sel target (some i) := by
  rcases (remove_eq h).2 with ⟨h0, _⟩ | ⟨_, _, rfl⟩
  · cases h0
  · unfold indexAt
    simp only []
    rw [keep_get inv.indexWF]
    cases hm : w.index.get p with
    | none => rfl
    | some m =>
      simp only [Option.bind_some]
      unfold keepMap
      have hwf := inv.indexWF2 _ (GoMap.get_some_mem hm)
      have hk := keep_get hwf (w.keepIds target) t
      split
      · rename_i k1 k2
        split at k2
        · rename_i k3
          rw [k3] at hk
          cases hi : m.get t with
          | none => rfl
          | some is =>
            rw [hi] at hk
            simp only [Option.bind_some, keepIds] at hk
            simp only []
            split at hk
            · rename_i k4; rw [k4]
            · cases hk
        · cases k2
      · rename_i m' k2
        split at k2
        · cases k2
        · cases k2
          rw [hk]
          cases hi : m.get t with
          | none => rfl
          | some is =>
            simp only [Option.bind_some, keepIds]
            split
            · rename_i k3; split at k3
              · rename_i k4; rw [k4]
              · cases k3
            · rename_i k3; split at k3
              · cases k3
              · cases k3; rfl

/-- C48. In every case the index loses exactly the selected assignments. -/
theorem C48_index (inv : Inv w) {target : PR} (h : w.removePrincipalRole target = .ok (false, w')) (p t : Str) :
    (indexAt w' p t).Sublist (indexAt w p t) ∧
    ∀ i, (SelectsAt w target (some i) → i ∉ indexAt w' p t) ∧
      (¬ SelectsAt w target (some i) → (indexAt w' p t).count i = (indexAt w p t).count i) := by
  rw [index_removed inv h p t]
  refine ⟨List.filter_sublist, fun i => ?_⟩
  by_cases hi : i ∈ indexAt w p t
  · have hu : ∃ u, w.prs[i]? = some u := by
      unfold indexAt at hi
      split at hi
      · cases hi
      · rename_i m hm
        split at hi
        · cases hi
        · rename_i is his
          obtain ⟨u, hu, _⟩ := (inv.indexed p m t is (GoMap.get_some_mem hm) (GoMap.get_some_mem his)).2 i hi
          exact ⟨u, hu⟩
    obtain ⟨u, hu⟩ := hu
    have hs : w.sel target (some i) = true ↔ SelectsAt w target (some i) := by
      rw [sel_eq (matchesAt_some hu), matchesPR_iff]
      constructor
      · exact fun h => ⟨i, u, rfl, hu, h⟩
      · rintro ⟨j, v, h1, h2, h3⟩
        cases h1
        rw [hu] at h2; cases h2; exact h3
    refine ⟨fun g hm => by have := (List.mem_filter.1 hm).2; simp [hs.2 g] at this, fun g => List.count_filter ?_⟩
    cases k : w.sel target (some i) with
    | false => rfl
    | true => exact absurd (hs.1 k) g
  · refine ⟨fun _ hm => hi (List.mem_filter.1 hm).1, fun _ => ?_⟩
    rw [List.count_eq_zero.2 hi, List.count_eq_zero.2 fun hm => hi (List.mem_filter.1 hm).1]

/-! ### Lists with nil entries, as an earlier removal leaves them -/

/-- The target names no field. -/
def NamesNothing (target : PR) : Prop :=
  target.principal = [] ∧ target.tenant = [] ∧ target.namespace_ = [] ∧ target.scope = [] ∧ target.role = []

theorem loop_ne_diverge {σ α : Type} {f : σ → α → Out σ} (hf : ∀ s a, f s a ≠ .diverge) (s : σ) (xs : List α) :
    Out.loop f s xs ≠ .diverge := by
  induction xs generalizing s with
  | nil => simp [Out.loop]
  | cons a xs ih =>
    rw [Out.loop]
    cases h : f s a with
    | ok s' => rw [Out.bind_ok]; exact ih s'
    | panic => simp
    | diverge => exact absurd h (hf s a)

theorem matchesAt_ne_diverge (w : V2) (target : PR) (x : Option Nat) : w.matchesAt target x ≠ .diverge := by
  unfold matchesAt prAt
  split
  · simp
  · cases x with
    | none => simp
    | some i => cases h : w.prs[i]? <;> simp [h]

/-- C48. With a nil entry in the list, a target that names any field makes the call panic. -/
theorem C48_nil_panic (hn : none ∈ w.userRoles) {target : PR} (ht : ¬ NamesNothing target) :
    w.removePrincipalRole target = .panic := by
  have h1 : ∀ s, Out.loop (w.removeStep target) (List.replicate w.userRoles.length none, 0, false) w.userRoles.zipIdx ≠ .ok s := by
    intro s h
    obtain ⟨b, hb⟩ := (removeLoop_spec h).1 none hn
    unfold matchesAt at hb
    rw [if_neg fun h => ht h.2] at hb
    simp [prAt] at hb
  have h2 : Out.loop (w.removeStep target) (List.replicate w.userRoles.length none, 0, false) w.userRoles.zipIdx ≠ .diverge := by
    refine loop_ne_diverge (fun s a h => ?_) _ _
    unfold removeStep at h
    cases hm : w.matchesAt target a.1 with
    | ok b => rw [hm] at h; simp at h
    | panic => rw [hm] at h; simp at h
    | diverge => exact matchesAt_ne_diverge w target a.1 hm
  unfold removePrincipalRole
  cases h : Out.loop (w.removeStep target) (List.replicate w.userRoles.length none, 0, false) w.userRoles.zipIdx with
  | ok s => exact absurd h (h1 s)
  | panic => rfl
  | diverge => exact absurd h h2

/-- C48. A target that names nothing removes every entry of the list, nil or not, and empties the index. -/
theorem C48_remove_all (inv : Inv w) (hne : w.userRoles ≠ []) {target : PR} (ht : NamesNothing target) :
    w.removePrincipalRole target = .ok (false, { w with userRoles := [], index := [] }) := by
  obtain ⟨t1, t2, t3, t4, t5⟩ := ht
  have hpr : ∀ u, matchesPR target u = true := fun u => matchesPR_iff.2 ⟨.inl t1, .inl t2, .inl t3, .inl t4, .inl t5⟩
  have hm : ∀ x ∈ w.userRoles, w.matchesAt target x = .ok true := by
    intro x hx
    cases x with
    | none => unfold matchesAt; rw [if_pos ⟨rfl, t1, t2, t3, t4, t5⟩]
    | some i =>
      obtain ⟨u, hu⟩ := inv.users i hx
      rw [matchesAt_some hu, hpr]
  have hl := removeLoop_eq (P := []) (R := w.userRoles) (target := target) fun x hx => ⟨_, hm x hx⟩
  simp only [blank, kept, List.map_nil, List.nil_append, List.filter_nil, List.length_nil, List.any_nil] at hl
  have hk : (w.userRoles.filter fun x => !w.sel target x) = [] := by
    rw [List.filter_eq_nil_iff]; intro x hx; simp [sel_eq (hm x hx)]
  have ha : w.userRoles.any (w.sel target) = true := by
    obtain ⟨x, hx⟩ := List.exists_mem_of_ne_nil _ hne
    exact List.any_eq_true.2 ⟨x, hx, sel_eq (hm x hx)⟩
  have hi : w.keepIndex target w.index = .ok [] := by
    have : ∃ ix, w.keepIndex target w.index = .ok ix := by
      refine Out.collectI_total fun j e he => ?_
      have : ∃ m, w.keepPrincipal target e.2 = .ok m := by
        refine Out.collectI_total fun j f hf => ?_
        have : ∃ is, w.keepTenant target f.2 = .ok is := by
          refine Out.collectI_total fun j i hi => ?_
          obtain ⟨u, hu, _⟩ := (inv.indexed e.1 e.2 f.1 f.2 he hf).2 i hi
          rw [matchesAt_some hu]
          exact ⟨_, rfl⟩
        obtain ⟨is, his⟩ := this
        rw [his]; exact ⟨_, rfl⟩
      obtain ⟨m, hm⟩ := this
      rw [hm]; exact ⟨_, rfl⟩
    obtain ⟨ix, hix⟩ := this
    rw [hix, keepIndex_eq hix]
    congr 1
    unfold GoMap.keep
    rw [List.filterMap_eq_nil_iff]
    intro e he
    have h1 : w.keepMap target e.2 = none := by
      have : GoMap.keep e.2 (w.keepIds target) = [] := by
        unfold GoMap.keep
        rw [List.filterMap_eq_nil_iff]
        intro f hf
        have : (f.2.filter fun i => !w.sel target (some i)) = [] := by
          rw [List.filter_eq_nil_iff]
          intro i hi
          obtain ⟨u, hu, _⟩ := (inv.indexed e.1 e.2 f.1 f.2 he hf).2 i hi
          simp [sel_eq (matchesAt_some (target := target) hu), hpr]
        simp [keepIds, this]
      simp [keepMap, this]
    simp [h1]
  unfold removePrincipalRole
  rw [hl, Out.bind_ok]
  simp only [ha, Bool.true_eq_false, if_false, hi, hk]
  rfl

/-- C48 as intended: exactly the selected assignments are removed. -/
def C48_full : Prop := ∀ (l : Bool) ops w target w', V2Op.run { logger := l } ops = .ok w →
  w.removePrincipalRole target = .ok (false, w') → ∀ u, Assigned w' u ↔ Assigned w u ∧ ¬ Selects target u

/-- `p` has role "r", `z` has role "q"; the assignment of `p` is removed. -/
def exRemove : List V2Op := exRoles ++ exTenant ++ [
  .newPrincipalRole { principal := str "p", tenant := str "t", role := str "r" },
  .newPrincipalRole { principal := str "z", tenant := str "t", role := str "q" }, .addPrincipalRole [0, 1]]

/-- C48. Removing the assignment of `p` removes that of `z` from the list and leaves a nil entry; the next decision panics. -/
theorem C48_counterexample : ∃ w, V2Op.run {} exRemove = .ok w ∧
    (w.removePrincipalRole { principal := str "p" }).Chk fun x => x.1 = false ∧ x.2.userRoles = [none] ∧
      x.2.authorize exEnv 9 [] { exReq with principal := str "z", resource := str "y" } = .panic ∧
      w.userRoles = [some 0, some 1] ∧ w.prs.map (·.principal) = [str "p", str "z"] := Out.chk_ok (by decide +kernel)

/-- C48. So the intended property fails. -/
theorem C48_full_false : ¬ C48_full := by
  intro h
  obtain ⟨w, h1, h2⟩ := C48_counterexample
  obtain ⟨⟨b, w'⟩, h3, rfl, h4, _, h5, h6⟩ := Out.chk_ok h2
  have hw := h false _ w _ w' h1 h3
  have : ∃ u, w.prs[1]? = some u ∧ u.principal = str "z" := by
    have : (w.prs.map (·.principal))[1]? = some (str "z") := by rw [h6]; rfl
    rw [List.getElem?_map] at this
    obtain ⟨u, g1, g2⟩ := Option.map_eq_some_iff.1 this
    exact ⟨u, g1, g2⟩
  obtain ⟨u, g1, g2⟩ := this
  obtain ⟨i, hi, _⟩ := (hw u).2 ⟨⟨1, by rw [h5]; simp, g1⟩, fun hs => by
    have := hs.1
    rw [g2] at this
    exact absurd this (by decide)⟩
  rw [show w'.userRoles = [none] from h4] at hi
  simp at hi

/-- C48. With the nil entry left by a removal, the next removal panics, and one that names nothing clears everything. -/
example : ∃ w, V2Op.run {} (exRemove ++ [.removePrincipalRole { principal := str "p" }]) = .ok w ∧
    none ∈ w.userRoles ∧ w.removePrincipalRole { role := str "q" } = .panic ∧
    (w.removePrincipalRole {}).Chk fun x => x.1 = false ∧ x.2.userRoles = [] ∧ x.2.index = [] := Out.chk_ok (by decide +kernel)

/-- C48. Removing the last assignment works: `z` loses its access, `p` keeps it. -/
example : ∃ w, V2Op.run {} (exRemove ++ [.removePrincipalRole { principal := str "z" }]) = .ok w ∧
    w.userRoles = [some 0] ∧ (w.authorize exEnv 9 [] exReq).map (·.1) = .ok true ∧
    (w.authorize exEnv 9 [] { exReq with principal := str "z", resource := str "y" }).map (·.1) = .ok false ∧
    indexAt w (str "p") (str "t") = [0] ∧ indexAt w (str "z") (str "t") = [] := Out.chk_ok (by decide +kernel)

end V2
end Verif
