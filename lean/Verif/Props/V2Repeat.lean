import Verif.Props.V2Isolation
import Verif.Props.V2Revoke
import Verif.Props.V1Repeat

/-!
# Repeating a call (v2)

A call that changes something, made a second time, changes nothing more, except `AddChildRole` and `AddPrincipalRole`.
-/

set_option linter.unusedSimpArgs false

namespace Verif

/-! ## Statement -/

namespace Spec

/-- A call that changes something; the constructors make a new object each time. -/
def Change2 : V2Op → Prop
  | .newRole _ | .newTenant _ _ | .newPrincipalRole _ | .authorize .. | .can .. => False
  | _ => True

/-- A call that appends to a list. -/
def Appends : V2Op → Prop
  | .addChildRole .. | .addPrincipalRole _ => True
  | _ => False

end Spec

open Spec V2

namespace Rep2

open Rep (set_get_same lt_of_get set_set set_same)
open Rep1 (put put_twice)

variable {w v v' : V2}

theorem addStrs_same {xs s : List Str} (h : ∀ x ∈ xs, x ∈ s) : xs.foldl addStr s = s := by
  induction xs with
  | nil => rfl
  | cons x xs ih =>
    rw [List.foldl_cons]
    have : addStr s x = s := by unfold addStr; rw [if_pos (h x (List.mem_cons_self ..))]
    rw [this]
    exact ih fun y hy => h y (List.mem_cons_of_mem _ hy)

theorem addStrs_twice (xs s : List Str) : xs.foldl addStr (xs.foldl addStr s) = xs.foldl addStr s :=
  addStrs_same fun _ hx => mem_addStrs.2 (.inr hx)

theorem removeStrs_same {xs s : List Str} (h : ∀ x ∈ xs, x ∉ s) : xs.foldl (fun s x => s.filter (· ≠ x)) s = s := by
  induction xs with
  | nil => rfl
  | cons x xs ih =>
    rw [List.foldl_cons]
    have : s.filter (· ≠ x) = s := by
      rw [List.filter_eq_self]
      intro y hy
      simp only [decide_eq_true_eq]
      rintro rfl
      exact h y (List.mem_cons_self ..) hy
    rw [this]
    exact ih fun y hy => h y (List.mem_cons_of_mem _ hy)

theorem removeStrs_twice (xs s : List Str) :
    xs.foldl (fun s x => s.filter (· ≠ x)) (xs.foldl (fun s x => s.filter (· ≠ x)) s) = xs.foldl (fun s x => s.filter (· ≠ x)) s :=
  removeStrs_same fun _ hx h => (mem_removeStrs.1 h).2 hx

theorem get_set {α : Type} {l : List α} {i : Nat} {x y : α} (h : l[i]? = some x) : (l.set i y)[i]? = some y :=
  List.getElem?_set_self (lt_of_get h)

/-! ## Roles -/

theorem addPermission_twice {d d' : Dag} {a : Nat} {ps : List Perm2} (h : d.addPermission a ps = .ok d') : d'.addPermission a ps = .ok d' := by
  unfold Dag.addPermission at h ⊢
  cases ho : d.objs[a]? with
  | none => rw [ho] at h; cases h
  | some o =>
    rw [ho] at h; cases h
    simp only [get_set ho, addStrs_twice, List.set_set]

theorem removePermission_twice {d d' : Dag} {a : Nat} {ps : List Perm2} (h : d.removePermission a ps = .ok d') :
    d'.removePermission a ps = .ok d' := by
  unfold Dag.removePermission at h ⊢
  cases ho : d.objs[a]? with
  | none => rw [ho] at h; cases h
  | some o =>
    rw [ho] at h; cases h
    simp only [get_set ho, removeStrs_twice, List.set_set]

theorem addRole_put (as : List Nat) : ∀ {d d' : Dag}, d.addRole as = .ok d' →
    ∃ ps, ∀ d2 : Dag, d2.objs = d.objs → d2.addRole as = .ok { d2 with roles := put d2.roles ps } := by
  induction as with
  | nil => exact fun _ => ⟨[], fun _ _ => rfl⟩
  | cons a as ih =>
    intro d d' h
    obtain ⟨d1, h1, h2⟩ := Out.bind_eq_ok.1 h
    cases ho : d.objs[a]? with
    | none => simp only [ho] at h1; cases h1
    | some o =>
      simp only [ho] at h1; cases h1
      obtain ⟨ps, hp⟩ := ih h2
      refine ⟨(o.name, a) :: ps, fun d2 h => ?_⟩
      unfold Dag.addRole Out.loop
      have h3 : d2.objs[a]? = some o := by rw [h]; exact ho
      simp only [h3, Out.bind_ok]
      exact hp { d2 with roles := d2.roles.set o.name a } h

theorem addRole_twice {d d' : Dag} {as : List Nat} (h : d.addRole as = .ok d') : d'.addRole as = .ok d' := by
  obtain ⟨ps, hp⟩ := addRole_put as h
  have h1 := hp d rfl
  rw [h] at h1; cases h1
  refine (hp { d with roles := put d.roles ps } rfl).trans ?_
  simp only [put_twice]

theorem dag_twice {f : Dag → Out Dag} (hf : ∀ {d d'}, f d = .ok d' → f d' = .ok d')
    (h : (f w.dag).map (fun d => { w with dag := d }) = .ok v) : (f v.dag).map (fun d => { v with dag := d }) = .ok v := by
  obtain ⟨d, h1, rfl⟩ := Out.map_eq_ok.1 h
  rw [show f d = .ok d from hf h1]; rfl

/-! ## Tenants -/

theorem update_twice {c : Nat} {f : T2 → T2} (hf : ∀ t, f (f t) = f t) (h : w.withT c (fun t => .ok (w.setT c (f t))) = .ok v) :
    v.withT c (fun t => .ok (v.setT c (f t))) = .ok v := by
  obtain ⟨t, ht, h1⟩ := withT_eq_ok.1 h
  cases h1
  refine withT_eq_ok.2 ⟨f t, get_set ht, ?_⟩
  rw [hf]
  simp only [V2.setT, List.set_set]

theorem addNamespace_twice {c : Nat} {n : Str} {d : Bool} (h : w.tAddNamespace c n d = .ok v) : v.tAddNamespace c n d = .ok v := by
  refine update_twice (f := fun t => { t with
    namespaces := match t.namespaces.get n with
      | some _ => t.namespaces
      | none => t.namespaces.set n []
    defNs := if d then n else t.defNs }) (fun t => ?_) h
  cases hn : t.namespaces.get n with
  | some s => simp only [hn]; cases d <;> rfl
  | none => simp only [hn, GoMap.get_set, if_pos]; cases d <;> rfl

theorem addScope_twice {c : Nat} {n : Str} {scs : List Str} {b : Bool} (h : w.tAddScope c n scs = .ok (b, v)) :
    v.tAddScope c n scs = .ok (b, v) := by
  obtain ⟨t, ht, h1⟩ := withT_eq_ok.1 h
  cases hn : t.namespaces.get n with
  | none =>
    simp only [hn] at h1
    cases h1; exact h
  | some s =>
    simp only [hn] at h1
    cases h1
    refine withT_eq_ok.2 ⟨_, get_set ht, ?_⟩
    simp only [GoMap.get_set, if_pos, V2.setT, List.set_set, addStrs_twice, set_set]

theorem addChild_put (c : Nat) (ds : List Nat) : ∀ {w v : V2}, w.tAddChild c ds = .ok v →
    ∃ ps, ∀ (w2 : V2) (t : T2), (∀ i : Nat, w2.tobjs[i]?.map T2.id = w.tobjs[i]?.map T2.id) → w2.tobjs[c]? = some t →
      w2.tAddChild c ds = .ok (w2.setT c { t with children := put t.children ps }) := by
  induction ds with
  | nil =>
    intro w v _
    refine ⟨[], fun w2 t _ ht => ?_⟩
    show Out.ok w2 = .ok (w2.setT c t)
    unfold V2.setT
    rw [set_get_same ht]
  | cons d ds ih =>
    intro w v h
    obtain ⟨w1, h1, h2⟩ := Out.bind_eq_ok.1 h
    obtain ⟨t0, ht0, h1⟩ := withT_eq_ok.1 h1
    obtain ⟨dt, hdt, h1⟩ := withT_eq_ok.1 h1
    cases h1
    obtain ⟨ps, hp⟩ := ih h2
    refine ⟨(dt.id, d) :: ps, fun w2 t hi ht => ?_⟩
    have ids : ∀ (x : V2) (t : T2) (ch : GoMap Str Nat), x.tobjs[c]? = some t → ∀ i : Nat,
        (x.setT c { t with children := ch }).tobjs[i]?.map T2.id = x.tobjs[i]?.map T2.id := by
      intro x t ch hx i
      unfold V2.setT
      by_cases hc : c = i
      · subst hc; simp only [get_set hx, hx, Option.map_some]
      · simp only [List.getElem?_set_ne hc]
    have hd := hi d
    rw [hdt] at hd
    obtain ⟨dt2, hd2, hd3⟩ := Option.map_eq_some_iff.1 hd
    have e : w2.withT c (fun t => w2.withT d fun dt => .ok (w2.setT c { t with children := t.children.set dt.id d })) =
        .ok (w2.setT c { t with children := t.children.set dt.id d }) := by
      refine withT_eq_ok.2 ⟨t, ht, withT_eq_ok.2 ⟨dt2, hd2, ?_⟩⟩
      rw [hd3]
    unfold V2.tAddChild Out.loop
    rw [e, Out.bind_ok]
    have := hp (w2.setT c { t with children := t.children.set dt.id d }) { t with children := t.children.set dt.id d }
      (fun i => ((ids w2 t _ ht i).trans (hi i)).trans (ids w t0 _ ht0 i).symm) (get_set ht)
    refine this.trans ?_
    simp only [V2.setT, List.set_set]
    rfl

theorem addChild_twice {c : Nat} {ds : List Nat} (h : w.tAddChild c ds = .ok v) : v.tAddChild c ds = .ok v := by
  cases ht : w.tobjs[c]? with
  | none =>
    cases ds with
    | nil => rfl
    | cons d ds =>
      obtain ⟨w1, h1, _⟩ := Out.bind_eq_ok.1 h
      obtain ⟨t0, ht0, _⟩ := withT_eq_ok.1 h1
      rw [ht] at ht0; cases ht0
  | some t =>
    obtain ⟨ps, hp⟩ := addChild_put c ds h
    have h1 := hp w t (fun _ => rfl) ht
    rw [h] at h1; cases h1
    have h2 := hp (w.setT c { t with children := put t.children ps }) _ (fun i => by
      unfold V2.setT
      by_cases hc : c = i
      · subst hc; simp only [get_set ht, ht, Option.map_some]
      · simp only [List.getElem?_set_ne hc]) (get_set ht)
    refine h2.trans ?_
    simp only [V2.setT, List.set_set, put_twice]

theorem parents_put (c : Nat) (l : List (Str × Nat)) : ∀ {w v : V2},
    Out.loop (fun (w : V2) kd => w.withT kd.2 fun d => .ok { w with parents := w.parents.set d.id c }) w l = .ok v →
    ∃ ps, ∀ w2 : V2, w2.tobjs = w.tobjs →
      Out.loop (fun (w : V2) kd => w.withT kd.2 fun d => .ok { w with parents := w.parents.set d.id c }) w2 l =
        .ok { w2 with parents := put w2.parents ps } := by
  induction l with
  | nil => exact fun _ => ⟨[], fun _ _ => rfl⟩
  | cons x l ih =>
    intro w v h
    obtain ⟨w1, h1, h2⟩ := Out.bind_eq_ok.1 h
    obtain ⟨d, hd, h1⟩ := withT_eq_ok.1 h1
    cases h1
    obtain ⟨ps, hp⟩ := ih h2
    refine ⟨(d.id, c) :: ps, fun w2 hw => ?_⟩
    unfold Out.loop
    have e : w2.withT x.2 (fun d => .ok { w2 with parents := w2.parents.set d.id c }) =
        .ok { w2 with parents := w2.parents.set d.id c } := withT_eq_ok.2 ⟨d, by rw [hw]; exact hd, rfl⟩
    rw [e, Out.bind_ok]
    exact hp _ hw

theorem addTenant_twice {c : Nat} (h : w.addTenant c = .ok v) : v.addTenant c = .ok v := by
  obtain ⟨t, ht, h1⟩ := withT_eq_ok.1 h
  obtain ⟨ps, hp⟩ := parents_put c _ h1
  have h2 := hp { w with tenants := w.tenants.set t.id c } rfl
  rw [h1] at h2; cases h2
  refine withT_eq_ok.2 ⟨t, ht, ?_⟩
  refine (hp { w with tenants := (w.tenants.set t.id c).set t.id c, parents := put w.parents ps } rfl).trans ?_
  simp only [put_twice, set_set]

/-! ## Assignments -/

theorem onPR_twice {i : Nat} {f : PR → PR} (hf : ∀ u, f (f u) = f u) (h : V2Op.onPR w i f = .ok v) : V2Op.onPR v i f = .ok v := by
  obtain ⟨u, hu, rfl⟩ := Out.map_eq_ok.1 h
  obtain ⟨j, hj, hu⟩ := prAt_eq_ok.1 hu
  cases hj
  refine Out.map_eq_ok.2 ⟨f u, prAt_eq_ok.2 ⟨_, rfl, get_set hu⟩, ?_⟩
  simp only [hf, List.set_set]

theorem remove_again {target : PR} {b b' : Bool} (h : w.removePrincipalRole target = .ok (b, v))
    (h' : v.removePrincipalRole target = .ok (b', v')) : v' = v ∧ b' = true := by
  rcases (remove_eq h').2 with ⟨hb, h1, _⟩ | ⟨_, ⟨x, hx, hs⟩, _⟩
  · exact ⟨h1, hb⟩
  · exfalso
    rcases (remove_eq h).2 with ⟨_, rfl, h2⟩ | ⟨_, _, rfl⟩
    · rw [h2 x hx] at hs; cases hs
    · obtain ⟨b, hb⟩ := (remove_eq h').1 x hx
      have hx' := hx
      obtain ⟨y, hy, hxy⟩ := List.mem_map.1 (List.mem_of_mem_take hx')
      have hse : ∀ z, V2.sel { w with userRoles := (w.blank target w.userRoles).take (w.kept target w.userRoles).length
                                      index := w.index.keep (w.keepMap target) } target z = w.sel target z := fun z => by cases z <;> rfl
      rw [hse] at hs
      split at hxy
      · subst hxy
        -- a nil entry is looked at: the target names nothing, so nothing was kept
        unfold V2.matchesAt at hb
        split at hb
        · rename_i hc
          have hall : ∀ z ∈ w.userRoles, w.sel target z = true := by
            intro z hz
            obtain ⟨bz, hbz⟩ := (remove_eq h).1 z hz
            rw [sel_eq hbz]
            unfold V2.matchesAt at hbz
            split at hbz
            · cases hbz; rfl
            · obtain ⟨u, _, rfl⟩ := Out.map_eq_ok.1 hbz
              simp [V2.matchesPR, hc.2.1, hc.2.2.1, hc.2.2.2.1, hc.2.2.2.2.1, hc.2.2.2.2.2]
          have : w.kept target w.userRoles = [] := by
            unfold V2.kept
            rw [List.filter_eq_nil_iff]
            intro z hz
            simp [hall z hz]
          simp only [this, List.length_nil, List.take_zero, List.not_mem_nil] at hx
        · obtain ⟨u, hu, _⟩ := Out.map_eq_ok.1 hb
          obtain ⟨_, hu, _⟩ := prAt_eq_ok.1 hu
          cases hu
      · subst hxy
        rename_i hn
        exact hn hs

/-! ## Appending calls -/

theorem assigned_add (is : List Nat) : ∀ {w v : V2}, w.addPrincipalRole is = .ok v →
    v.dag = w.dag ∧ v.tobjs = w.tobjs ∧ v.tenants = w.tenants ∧ v.defTenant = w.defTenant ∧ v.prs = w.prs ∧
    ∀ x, Assigned v x ↔ Assigned w x ∨ ∃ i ∈ is, w.prs[i]? = some x := by
  induction is with
  | nil =>
    intro w v h
    cases h
    exact ⟨rfl, rfl, rfl, rfl, rfl, fun x => ⟨.inl, fun h => h.elim id fun ⟨_, h, _⟩ => (List.not_mem_nil h).elim⟩⟩
  | cons i is ih =>
    intro w v h
    obtain ⟨w1, h1, h2⟩ := Out.bind_eq_ok.1 h
    have h1' : w.addPrincipalRole [i] = .ok w1 := Out.bind_eq_ok.2 ⟨w1, h1, rfl⟩
    have hp : w1.prs = w.prs := by
      obtain ⟨u, _, h4⟩ := Out.bind_eq_ok.1 h1
      cases h4; rfl
    obtain ⟨u, hu, a1, a2, a3, a4, a5⟩ := add_one h1'
    obtain ⟨b1, b2, b3, b4, b5, b6⟩ := ih h2
    refine ⟨b1.trans a1, b2.trans a2, b3.trans a3, b4.trans a4, b5.trans hp, fun x => ?_⟩
    rw [b6, a5, hp]
    constructor
    · rintro ((h | rfl) | ⟨j, hj, h⟩)
      · exact .inl h
      · exact .inr ⟨i, List.mem_cons_self .., hu⟩
      · exact .inr ⟨j, List.mem_cons_of_mem _ hj, h⟩
    · rintro (g | ⟨j, hj, g⟩)
      · exact .inl (.inl g)
      · rcases List.mem_cons.1 hj with rfl | hj
        · rw [hu] at g; cases g; exact .inl (.inr rfl)
        · exact .inr ⟨j, hj, g⟩

theorem fewer_again {d d1 d2 : Dag} (inv : d.DInv) {n m : Nat} {p : Str} {cs : List Str} {b b' : Bool}
    (h : d.addChildRole n p cs = .ok (b, d1)) (h' : d1.addChildRole m p cs = .ok (b', d2)) : b = true ∨ Fewer d2 d1 := by
  have inv1 := Dag.dinv_addChildRole inv h
  have inv2 := Dag.dinv_addChildRole inv1 h'
  rcases (Dag.addChildRole_cases h).2 with ⟨hb, _⟩ | ⟨_, rfl⟩
  · exact .inl hb
  right
  rcases (Dag.addChildRole_cases h').2 with ⟨_, rfl⟩ | ⟨_, rfl⟩
  · exact ⟨rfl, rfl, fun _ _ h => h, fun _ _ h => h⟩
  · refine ⟨rfl, rfl, fun x y hxy => ?_, fun _ _ h => h⟩
    rw [Dag.edge_iff inv2.edgesWF] at hxy
    rw [Dag.edge_iff inv1.edgesWF]
    unfold Dag.children at hxy ⊢
    simp only [GoMap.get_set] at hxy ⊢
    split at hxy
    · rename_i hx
      simp only [if_pos hx, if_pos, Option.getD_some, List.mem_append] at hxy ⊢
      exact hxy.elim id .inr
    · rename_i hx
      rw [if_neg hx]
      exact hxy

end Rep2

open Rep2

/-! ## C146 -/

/-- C146 as intended: after a call that changes something, the same call made once more changes no decision, now or later. -/
def C146_full : Prop := ∀ (l : Bool) pre op post w v e fuel site r b b' w' v', Change2 op →
  V2Op.run { logger := l } (pre ++ op :: post) = .ok w → V2Op.run { logger := l } (pre ++ op :: op :: post) = .ok v →
  w.authorize e fuel site r = .ok (b, w') → v.authorize e fuel site r = .ok (b', v') → b = b'

/-- Role "z" gets child "q"; then "r" gets child "z". `n` says how often the first is done. -/
def exTwiceRole (n : Nat) : List V2Op := exRoles ++ exTenant ++ exUser ++ [.newRole (str "z"), .addRoles [2]] ++
  List.replicate n (.addChildRole 9 (str "z") [str "q"]) ++ [.addChildRole 9 (str "r") [str "z"]]

/-- C146. If "q" was made a child of "z" twice, "z" cannot become a child of "r": the two links count as a cycle. So `p` does
not get what "q" may do. -/
theorem C146_counterexample :
    (∃ w, V2Op.run {} (exTwiceRole 1) = .ok w ∧ (w.authorize exEnv 9 [] { exReq with resource := str "y" }).map (·.1) = .ok true) ∧
    ∃ w, V2Op.run {} (exTwiceRole 2) = .ok w ∧ (w.authorize exEnv 9 [] { exReq with resource := str "y" }).map (·.1) = .ok false :=
  ⟨Out.chk_ok (by decide +kernel), Out.chk_ok (by decide +kernel)⟩

/-- C146. So the intended property fails. -/
theorem C146_full_false : ¬ C146_full := by
  intro h
  obtain ⟨⟨w, h1, h2⟩, v, h3, h4⟩ := C146_counterexample
  obtain ⟨⟨b1, w1⟩, g1, g2⟩ := Out.map_eq_ok.1 h2
  obtain ⟨⟨b2, w2⟩, g3, g4⟩ := Out.map_eq_ok.1 h4
  simp only at g2 g4; subst g2; subst g4
  have := h false (exRoles ++ exTenant ++ exUser ++ [.newRole (str "z"), .addRoles [2]]) (.addChildRole 9 (str "z") [str "q"])
    [.addChildRole 9 (str "r") [str "z"]] w v exEnv 9 [] _ true false w1 w2 trivial h1 h3 g1 g3
  cases this

/-- C146. Every other call, made once more, leaves the state as it is, so nothing later is different. `RemovePrincipalRole` may
fail the second time, at a nil entry the first one left. Missing: the two calls that append to a list. -/
theorem C146_partial {w v : V2} {op : V2Op} (hc : Change2 op) (ha : ¬ Appends op) (h : op.apply w = .ok v) :
    (∀ v', op.apply v = .ok v' → v' = v) ∧ ((∀ target, op ≠ .removePrincipalRole target) → op.apply v = .ok v) ∧
    (Inv w → none ∉ v.userRoles → op.apply v = .ok v) := by
  suffices H : (∀ v', op.apply v = .ok v' → v' = v) ∧ ((∀ target, op ≠ .removePrincipalRole target) → op.apply v = .ok v) by
    refine ⟨H.1, H.2, fun inv hn => ?_⟩
    cases op with
    | removePrincipalRole target =>
      obtain ⟨b, v', h'⟩ := remove_total (inv_apply inv h) hn target
      have : V2Op.apply v (.removePrincipalRole target) = .ok v' := Out.map_eq_ok.2 ⟨_, h', rfl⟩
      rw [H.1 v' this] at this
      exact this
    | _ => exact H.2 fun _ h => by cases h
  suffices H : (∀ target, op ≠ .removePrincipalRole target) → op.apply v = .ok v by
    refine ⟨fun v' h' => ?_, H⟩
    cases op with
    | removePrincipalRole target =>
      obtain ⟨⟨b, x⟩, h1, rfl⟩ := Out.map_eq_ok.1 h
      obtain ⟨⟨b', x'⟩, h2, rfl⟩ := Out.map_eq_ok.1 h'
      exact (remove_again h1 h2).1
    | _ =>
      have := (H fun _ h => by cases h).symm.trans h'
      cases this; rfl
  intro hr
  cases op with
  | newRole | newTenant | newPrincipalRole | authorize | can => exact hc.elim
  | addChildRole | addPrincipalRole => exact (ha trivial).elim
  | removePrincipalRole target => exact (hr target rfl).elim
  | addPermission a ps => exact dag_twice (f := fun d => d.addPermission a ps) addPermission_twice h
  | removePermission a ps => exact dag_twice (f := fun d => d.removePermission a ps) removePermission_twice h
  | addRoles as => exact dag_twice (f := fun d => d.addRole as) addRole_twice h
  | addNamespace c n d => exact addNamespace_twice h
  | addScopes c n scs =>
    obtain ⟨⟨b, x⟩, h1, rfl⟩ := Out.map_eq_ok.1 h
    exact Out.map_eq_ok.2 ⟨_, addScope_twice h1, rfl⟩
  | addChildTenant c ds => exact addChild_twice h
  | setStatus c s => exact update_twice (f := fun t => { t with status := s }) (fun _ => rfl) h
  | addTenant c => exact addTenant_twice h
  | setDefaultTenant t => cases h; rfl
  | setExpiry i now e =>
    refine onPR_twice (fun u => ?_) h
    unfold PR.setExpiry
    by_cases hl : e < now
    · simp only [if_pos hl]
    · simp only [if_neg hl]
  | setExpiryDuration i parse now a =>
    refine onPR_twice (fun u => ?_) h
    unfold PR.setExpiryDuration
    cases a with
    | str s => cases hp : parse s <;> simp only [hp]
    | dur d => rfl
    | other => rfl
  | clearExpiry i => exact onPR_twice (fun _ => rfl) h

/-- C146. Removing what was just removed is reported as an error. -/
theorem C146_removed {w v v' : V2} {target : PR} {b b' : Bool} (h : w.removePrincipalRole target = .ok (b, v))
    (h' : v.removePrincipalRole target = .ok (b', v')) : v' = v ∧ b' = true := remove_again h h'

/-- C146. The decisions made right after the second call are those made right after the first one, also for the two calls that
append to a list, if tenant ids identify tenants and no assignment expires while the decision is made. -/
theorem C146_now {w v v' : V2} {op : V2Op} (hc : Change2 op) (inv : Inv w) (h : op.apply w = .ok v) (h' : op.apply v = .ok v')
    {e : Env} {now : Int} (st : Steady v e now) {r : Req2} (tw : ∀ c, Target v r c → NoTwins v r.principal c)
    {fuel fuel' : Nat} {site site' : List Val} {b b' : Bool} {x x' : V2} :
    (v.authorize e fuel site r = .ok (b, x) → v'.authorize e fuel' site' r = .ok (b', x') → b = b') ∧
    ∀ roles, v.can e fuel site r roles = .ok (b, x) → v'.can e fuel' site' r roles = .ok (b', x') → b = b' := by
  have invv := inv_apply inv h
  have invv' := inv_apply invv h'
  suffices H : (∀ p, SameFor p v v') ∧ SamePerms v v' ∧ SameBelow v v' by
    obtain ⟨hs, hp, hb⟩ := H
    have st' : Steady v' e now := fun u hu => st u (((hs u.principal).own u rfl).2 hu)
    have tw' : ∀ c, Target v' r c → NoTwins v' r.principal c := fun c hc =>
      (hs r.principal).noTwins (tw c ((hs r.principal).symm.target hc))
    refine ⟨fun h1 h2 => ?_, fun roles h1 h2 => ?_⟩
    · rw [Bool.eq_iff_iff, V2.authorize_exact invv st tw h1, V2.authorize_exact invv' st' tw' h2]
      exact ⟨(hs _).grants hp, (hs _).symm.grants fun r x => (hp r x).symm⟩
    · rw [Bool.eq_iff_iff, V2.can_exact invv st tw h1, V2.can_exact invv' st' tw' h2]
      exact ⟨(hs _).can hb, (hs _).symm.can fun r x => (hb r x).symm⟩
  by_cases ha : Appends op
  · cases op with
    | addPrincipalRole is =>
      obtain ⟨-, -, -, -, a5, a6⟩ := assigned_add is h
      obtain ⟨b1, b2, b3, b4, -, b6⟩ := assigned_add is h'
      refine ⟨fun p => ⟨b2, b3, b4, fun u _ => ?_⟩, fun r x => by rw [b1], fun r x => by rw [b1]⟩
      rw [b6, a6, a5]
      exact ⟨.inl, fun h => h.elim id .inr⟩
    | addChildRole n p cs =>
      obtain ⟨⟨m1, d1⟩, h1, rfl⟩ := Out.map_eq_ok.1 h
      obtain ⟨⟨m2, d2⟩, h2, rfl⟩ := Out.map_eq_ok.1 h'
      refine ⟨fun p => ⟨rfl, rfl, rfl, fun _ _ => .rfl⟩, ?_⟩
      rcases fewer_again inv.dag h1 h2 with hm | F
      · have e : w.dag = d1 := by
          rcases (Dag.addChildRole_cases h1).2 with ⟨_, h⟩ | ⟨h, _⟩
          · exact h.symm
          · rw [h] at hm; cases hm
        subst e
        rw [h1] at h2; cases h2
        exact ⟨fun _ _ => .rfl, fun _ _ => .rfl⟩
      · have L := less_addChildRole invv h2 now
        have L' := F.less w now
        exact ⟨fun r x => ⟨L.perm r x, L'.perm r x⟩, fun r x => ⟨L.below r x, L'.below r x⟩⟩
    | _ => exact ha.elim
  · have := (C146_partial hc ha h).1 v' h'
    subst this
    exact ⟨fun p => .refl p _, fun _ _ => .rfl, fun _ _ => .rfl⟩

/-- C146. A setup in which every call is made twice decides as the one where it is made once; removing an assignment that
is followed by another leaves a nil entry, and removing it again panics. -/
example :
    (∃ w, V2Op.run {} (exRoles ++ exTenant ++ exUser ++ [.addRoles [0, 1], .addPermission 0 [⟨str "x", str "read", []⟩],
      .addScopes 0 (str "n") [str "s"], .addTenant 0, .addPrincipalRole [0], .addPrincipalRole [0]]) = .ok w ∧
      (w.authorize exEnv 9 [] { exReq with scope := str "s" }).map (·.1) = .ok true ∧
      (w.authorize exEnv 9 [] { exReq with resource := str "y" }).map (·.1) = .ok false) ∧
    (∃ w, V2Op.run {} (exRoles ++ exTenant ++ exUser ++ [.removePrincipalRole { principal := str "p" },
      .removePrincipalRole { principal := str "p" }]) = .ok w ∧ (w.authorize exEnv 9 [] exReq).map (·.1) = .ok false) ∧
    ∃ w, V2Op.run {} (exUser ++ [.newPrincipalRole { principal := str "o", tenant := str "t", role := str "r" }, .addPrincipalRole [1],
      .addPrincipalRole [1], .removePrincipalRole { principal := str "p" }]) = .ok w ∧
      (w.removePrincipalRole { principal := str "p" }).map (·.1) = .panic :=
  ⟨Out.chk_ok (by decide +kernel), Out.chk_ok (by decide +kernel), Out.chk_ok (by decide +kernel)⟩

end Verif
