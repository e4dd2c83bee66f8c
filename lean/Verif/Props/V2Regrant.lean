import Verif.Props.V2Undo

/-!
# Granting again what was taken away (v2)
-/

namespace Verif
namespace Spec

/-- The second call grants what the first one took away, which was there. -/
inductive GivesBack (w : V2) : V2Op → V2Op → Prop
  | assignment {target : PR} {is : List Nat} : (∀ i, i ∈ is ↔ some i ∈ w.userRoles ∧ V2.SelectsAt w target (some i)) →
      GivesBack w (.removePrincipalRole target) (.addPrincipalRole is)
  | permission {a : Nat} {ps : List Perm2} : (∀ r, w.dag.objs[a]? = some r → ∀ p ∈ ps, p.string ∈ r.perms) →
      GivesBack w (.removePermission a ps) (.addPermission a ps)

/-- Of the assignments, those that the call takes away are the last ones. -/
def TakesLast (w : V2) : V2Op → Prop
  | .removePrincipalRole target => V2.AtEnd w target
  | _ => True

end Spec

open Spec V2

namespace Regrant2
variable {w v v' : V2}

theorem mem_adds {y : Str} : ∀ (T l : List Str), y ∈ T.foldl addStr l ↔ y ∈ l ∨ y ∈ T
  | [], l => by simp
  | x :: T, l => by
    rw [List.foldl_cons, mem_adds T, List.mem_cons]
    unfold addStr
    split
    · rename_i h
      exact ⟨fun k => k.elim .inl (.inr ∘ .inr), fun k => k.elim .inl fun k => k.elim (fun k => .inl (k ▸ h)) .inr⟩
    · rw [List.mem_append, List.mem_singleton, or_assoc]

end Regrant2

namespace V2
open Undo2 Regrant2

/-- C153. An assignment list with the assignments taken away at its end: the same assignments are there afterwards, and nothing else
has changed but the index. -/
theorem C153_assignments {w v v' : V2} (inv : Inv w) (hnil : none ∉ w.userRoles) {target : PR} {is : List Nat} {b : Bool}
    (his : ∀ i, i ∈ is ↔ some i ∈ w.userRoles ∧ SelectsAt w target (some i)) (h1 : w.removePrincipalRole target = .ok (b, v))
    (h2 : v.addPrincipalRole is = .ok v') :
    (AtEnd w target → none ∉ v'.userRoles ∧ (∀ i, some i ∈ v'.userRoles ↔ some i ∈ w.userRoles)) ∧
    (¬ AtEnd w target → none ∈ v'.userRoles) ∧
    v' = { w with userRoles := v'.userRoles, index := v'.index } := by
  have f1 := C48_frame h1
  have hp : v.prs = w.prs := by rw [f1]
  obtain ⟨w1, a1, a2, _, a4⟩ := C73_addPrincipalRole (w := v) (is := is) fun i hi => by rw [hp]; exact inv.users i ((his i).1 hi).1
  rw [h2] at a1; cases a1
  refine ⟨fun hend => ?_, fun hend => ?_, ?_⟩
  · obtain ⟨k1, k2, k3⟩ := C48_exact_partial inv hnil hend h1
    refine ⟨fun hm => ?_, fun i => ?_⟩
    · rw [a2, List.mem_append] at hm
      rcases hm with hm | hm
      · exact k1 hm
      · obtain ⟨_, _, e⟩ := List.mem_map.1 hm; cases e
    · rw [a2, List.mem_append]
      have e : some i ∈ is.map some ↔ i ∈ is := ⟨fun hm => by obtain ⟨j, hj, e⟩ := List.mem_map.1 hm; cases e; exact hj,
        fun hm => List.mem_map.2 ⟨i, hm, rfl⟩⟩
      rw [e, his]
      constructor
      · rintro (hm | hm)
        · exact k2.subset hm
        · exact hm.1
      · intro hm
        by_cases hs : SelectsAt w target (some i)
        · exact .inr ⟨hm, hs⟩
        · left
          rw [← List.count_pos_iff, (k3 (some i)).2 hs, List.count_pos_iff]
          exact hm
  · rw [a2, List.mem_append]
    exact .inl ((C48_nil_iff inv hnil h1).1.2 hend)
  · have e : v' = { v with userRoles := v'.userRoles, index := v'.index } := by
      conv => rhs; rw [← a4]
    rw [e, f1]

/-- C153. The permissions of the role are the same set afterwards, and nothing else has changed. -/
theorem C153_permissions {d d1 d2 : Dag} {a : Nat} {ps : List Perm2} (hps : ∀ r, d.objs[a]? = some r → ∀ p ∈ ps, p.string ∈ r.perms)
    (h1 : d.removePermission a ps = .ok d1) (h2 : d1.addPermission a ps = .ok d2) :
    ∃ r L, d.objs[a]? = some r ∧ d2 = { d with objs := d.objs.set a { r with perms := L } } ∧ ∀ x, x ∈ L ↔ x ∈ r.perms := by
  unfold Dag.removePermission at h1
  cases hr : d.objs[a]? with
  | none => rw [hr] at h1; cases h1
  | some r =>
    rw [hr] at h1
    cases h1
    obtain ⟨ha, _⟩ := List.getElem?_eq_some_iff.1 hr
    simp only [Dag.addPermission, List.getElem?_set_self ha, List.set_set] at h2
    cases h2
    refine ⟨r, _, rfl, rfl, fun x => ?_⟩
    rw [mem_adds, filters, List.mem_filter, decide_eq_true_eq]
    constructor
    · rintro (h | h)
      · exact h.1
      · obtain ⟨p, hp, rfl⟩ := List.mem_map.1 h
        exact hps r hr p hp
    · intro h
      by_cases hx : x ∈ ps.map Perm2.string
      · exact .inr hx
      · exact .inl ⟨h, hx⟩

/-- C153 as intended: granting again what was taken away leads to the answers of before. -/
def C153_full : Prop := ∀ (ops : List V2Op) (w v' : V2) (op op' : V2Op) (e : Env) (now : Int) (r : Req2) (fuel : Nat)
    (site : List Val) (b : Bool) (x : V2), V2Op.run {} ops = .ok w → none ∉ w.userRoles → GivesBack w op op' → V2Op.run w [op, op'] = .ok v' →
  Steady w e now → (∀ c, Target w r c → NoTwins w r.principal c) →
  w.authorize e fuel site r = .ok (b, x) → ∃ y, v'.authorize e fuel site r = .ok (b, y)

/-- Both states have the same assignments, permissions and roles below, and no nil entry. -/
theorem regrant_same {w v v' : V2} (inv : Inv w) (hnil : none ∉ w.userRoles) {op op' : V2Op} (t : GivesBack w op op')
    (hl : TakesLast w op) (h1 : op.apply w = .ok v) (h2 : op'.apply v = .ok v') (now : Int) :
    none ∉ v'.userRoles ∧ (∀ p, SameFor p w v') ∧ SamePerms w v' ∧ SameBelow w v' := by
  cases t with
  | assignment his =>
    obtain ⟨⟨b, x⟩, h3, rfl⟩ := Out.map_eq_ok.1 h1
    obtain ⟨k1, _, k3⟩ := C153_assignments inv hnil his h3 h2
    obtain ⟨k1, k2⟩ := k1 hl
    have e : v'.prs = w.prs := by rw [k3]
    refine ⟨k1, fun p => ⟨by rw [k3], by rw [k3], by rw [k3], fun u _ => ?_⟩, fun r x => by rw [k3], fun r x => by rw [k3]⟩
    unfold Assigned
    rw [e]
    exact exists_congr fun i => and_congr (k2 i).symm .rfl
  | permission hps =>
    obtain ⟨d1, h3, rfl⟩ := Out.map_eq_ok.1 h1
    obtain ⟨d2, h4, rfl⟩ := Out.map_eq_ok.1 h2
    obtain ⟨o, L, ho, rfl, hL⟩ := C153_permissions hps h3 h4
    have F1 : Fewer { w.dag with objs := w.dag.objs.set _ { o with perms := L } } w.dag :=
      ⟨rfl, rfl, fun _ _ h => h, fun r x => hasPerm_set' ho fun y hy => (hL y).1 hy⟩
    have F2 : Fewer w.dag { w.dag with objs := w.dag.objs.set _ { o with perms := L } } :=
      ⟨rfl, rfl, fun _ _ h => h, fun r x => hasPerm_set ho fun y hy => (hL y).2 hy⟩
    have L1 := F1.less w now
    have L2 := F2.less w now
    exact ⟨hnil, fun p => ⟨rfl, rfl, rfl, fun _ _ => .rfl⟩, fun r x => ⟨L2.perm r x, L1.perm r x⟩, fun r x => ⟨L2.below r x, L1.below r x⟩⟩

/-- C153, partial: the answers are those of before, and no nil entry is in the list.  Missing: assignments taken away that are not the
last ones, see `C153_panics`; that the calls return with the stack of before, `C153_returns_partial` asks for enough stack afterwards and
that no permission of the principal makes the matcher hang. -/
theorem C153_partial {w v' : V2} (inv : Inv w) (hnil : none ∉ w.userRoles) {op op' : V2Op} (t : GivesBack w op op')
    (hl : TakesLast w op) (h : V2Op.run w [op, op'] = .ok v') {e : Env} {now : Int} (st : Steady w e now) {r : Req2}
    (tw : ∀ c, Target w r c → NoTwins w r.principal c) {fuel fuel' : Nat} {site site' : List Val} {b b' : Bool} {x x' : V2} :
    none ∉ v'.userRoles ∧ (w.authorize e fuel site r = .ok (b, x) → v'.authorize e fuel' site' r = .ok (b', x') → b = b') ∧
    ∀ roles, w.can e fuel site r roles = .ok (b, x) → v'.can e fuel' site' r roles = .ok (b', x') → b = b' := by
  obtain ⟨v, h1, h2⟩ := run_two h
  have invv := inv_apply (inv_apply inv h1) h2
  obtain ⟨hn, hs, hp, hb⟩ := regrant_same inv hnil t hl h1 h2 now
  have st' : Steady v' e now := fun u hu => st u (((hs u.principal).own u rfl).2 hu)
  have tw' : ∀ c, Target v' r c → NoTwins v' r.principal c := fun c hc =>
    (hs r.principal).noTwins (tw c ((hs r.principal).symm.target hc))
  refine ⟨hn, fun h1 h2 => ?_, fun roles h1 h2 => ?_⟩
  · rw [Bool.eq_iff_iff, V2.authorize_exact inv st tw h1, V2.authorize_exact invv st' tw' h2]
    exact ⟨(hs _).grants hp, (hs _).symm.grants fun r x => (hp r x).symm⟩
  · rw [Bool.eq_iff_iff, V2.can_exact inv st tw h1, V2.can_exact invv st' tw' h2]
    exact ⟨(hs _).can hb, (hs _).symm.can fun r x => (hb r x).symm⟩

/-- C153, partial: the calls return afterwards, given enough stack for the new state, unless the matcher hangs on a permission of the
principal.  Missing: the stack with which the call returned before, and calls that returned before without coming to such a permission. -/
theorem C153_returns_partial {w v' : V2} (inv : Inv w) (hnil : none ∉ w.userRoles) {op op' : V2Op} (t : GivesBack w op op')
    (hl : TakesLast w op) (h : V2Op.run w [op, op'] = .ok v') {e : Env} {fuel : Nat} (hf : v'.needs ≤ fuel) {site : List Val} {r : Req2} :
    ((∀ u x, Assigned w u → u.principal = r.principal → RolePerm w.dag u.role x → ¬ Hangs x (r.resource ++ [32] ++ r.action)) →
      ∃ b y, v'.authorize e fuel site r = .ok (b, y)) ∧ ∀ roles, ∃ b y, v'.can e fuel site r roles = .ok (b, y) := by
  obtain ⟨v, h1, h2⟩ := run_two h
  have invv := inv_apply (inv_apply inv h1) h2
  obtain ⟨hn, hs, hp, _⟩ := regrant_same inv hnil t hl h1 h2 0
  exact ⟨fun hx => authorize_total invv hn hf fun c tid u x _ _ h3 h4 _ h6 => hx u x (((hs _).own u rfl).2 h3) h4 ((hp _ _).2 h6),
    fun roles => can_total invv hn hf⟩

/-- C153. If an assignment taken away is not among the last ones, every decision that comes to the assignments panics afterwards,
whoever it is about. -/
theorem C153_panics {w v' : V2} (inv : Inv w) (hnil : none ∉ w.userRoles) {target : PR} {is : List Nat}
    (t : GivesBack w (.removePrincipalRole target) (.addPrincipalRole is)) (hl : ¬ AtEnd w target)
    (h : V2Op.run w [.removePrincipalRole target, .addPrincipalRole is] = .ok v') {e : Env} {fuel : Nat} {site : List Val}
    (hf : v'.roleFuel ≤ fuel) {r : Req2} (hr : named v' r = [] ∨ ∃ c t ns, Target v' r c ∧ v'.tobjs[c]? = some t ∧ Place t r ns) :
    v'.authorize e fuel site r = .panic ∧ ∀ roles, v'.can e fuel site r roles = .panic := by
  obtain ⟨v, h1, h2⟩ := run_two h
  have invv := inv_apply (inv_apply inv h1) h2
  obtain ⟨⟨b, x⟩, h3, rfl⟩ := Out.map_eq_ok.1 h1
  cases t with
  | assignment his =>
    have hn := (C153_assignments inv hnil his h3 h2).2.1 hl
    exact ⟨authorize_panic invv hn hf hr, fun _ => can_panic invv hn hf hr⟩

/-- `p` has the roles "r" and "q". -/
def exBoth : List V2Op := exRoles ++ exTenant ++ exUser ++ [.newPrincipalRole { exBack with role := str "q" }, .addPrincipalRole [1]]

theorem exBoth_back {w : V2} {u v : PR} {target : PR} {i : Nat} (h1 : w.userRoles = [some 0, some 1]) (h2 : w.prs[0]? = some u)
    (h3 : w.prs[1]? = some v) (h4 : ∀ j, j = i ↔ j = 0 ∧ Selects target u ∨ j = 1 ∧ Selects target v) :
    GivesBack w (.removePrincipalRole target) (.addPrincipalRole [i]) := by
  refine .assignment fun j => ?_
  rw [List.mem_singleton, h4, h1]
  constructor
  · rintro (⟨rfl, h⟩ | ⟨rfl, h⟩)
    · exact ⟨by simp, 0, u, rfl, h2, h⟩
    · exact ⟨by simp, 1, v, rfl, h3, h⟩
  · rintro ⟨hj, k, x, e, hx, hs⟩
    cases e
    simp only [List.mem_cons, Option.some.injEq, List.not_mem_nil, or_false] at hj
    rcases hj with rfl | rfl
    · rw [h2] at hx; cases hx; exact .inl ⟨rfl, hs⟩
    · rw [h3] at hx; cases hx; exact .inr ⟨rfl, hs⟩

/-- C153. `p` has the roles "r" and "q". Role "r" is taken away and given again: the next decision panics. -/
theorem C153_counterexample : ∃ w v', V2Op.run {} exBoth = .ok w ∧ none ∉ w.userRoles ∧
    GivesBack w (.removePrincipalRole exBack) (.addPrincipalRole [0]) ∧
    V2Op.run w [.removePrincipalRole exBack, .addPrincipalRole [0]] = .ok v' ∧ w.tobjs.length = 1 ∧
    (w.authorize exEnv 9 [] exReq).map (·.1) = .ok true ∧ v'.authorize exEnv 9 [] exReq = .panic := by
  obtain ⟨w, h, h1, h2, h3, h4, h5, h6⟩ := Out.chk_ok (x := V2Op.run {} exBoth) (P := fun w =>
    (V2Op.run w [.removePrincipalRole exBack, .addPrincipalRole [0]]).map (fun v => decide ((v.authorize exEnv 9 [] exReq).map (·.1) = .panic)) =
      .ok true ∧ w.tobjs.length = 1 ∧ (w.authorize exEnv 9 [] exReq).map (·.1) = .ok true ∧ w.userRoles = [some 0, some 1] ∧
      w.prs[0]? = some exBack ∧ w.prs[1]? = some { exBack with role := str "q" }) (by decide +kernel)
  obtain ⟨v, g1, g2⟩ := Out.map_eq_ok.1 h1
  refine ⟨w, v, h, by rw [h4]; simp, exBoth_back h4 h5 h6 fun j => ?_, g1, h2, h3, ?_⟩
  · constructor
    · rintro rfl
      exact .inl ⟨rfl, by unfold Selects; decide⟩
    · rintro (⟨rfl, _⟩ | ⟨_, h⟩)
      · rfl
      · exact absurd h (by unfold Selects; decide)
  · have g3 := of_decide_eq_true g2
    cases hv : v.authorize exEnv 9 [] exReq with
    | ok y => rw [hv] at g3; cases g3
    | panic => rfl
    | diverge => rw [hv] at g3; cases g3

/-- C153. So the intended property fails. -/
theorem C153_full_false : ¬ C153_full := by
  intro hf
  obtain ⟨w, v', h1, h2, h3, h4, h5, h6, h7⟩ := C153_counterexample
  obtain ⟨⟨b, x⟩, h8, h9⟩ := Out.map_eq_ok.1 h6
  obtain ⟨y, h10⟩ := hf _ _ _ _ _ exEnv 100 exReq 9 [] _ _ h1 h2 h3 h4 (steady_const fun _ => rfl) (fun c _ => noTwins_single h5 _ c) h8
  rw [h7] at h10; cases h10

/-- C153_partial is not about nothing: role "q", assigned last, is taken away and given again. -/
theorem C153_example : ∃ w v v', V2Op.run {} exBoth = .ok w ∧ none ∉ w.userRoles ∧
    GivesBack w (.removePrincipalRole { exBack with role := str "q" }) (.addPrincipalRole [1]) ∧
    TakesLast w (.removePrincipalRole { exBack with role := str "q" }) ∧
    V2Op.run w [.removePrincipalRole { exBack with role := str "q" }] = .ok v ∧
    V2Op.run w [.removePrincipalRole { exBack with role := str "q" }, .addPrincipalRole [1]] = .ok v' ∧
    (w.authorize exEnv 9 [] { exReq with resource := str "y" }).map (·.1) = .ok true ∧
    (v.authorize exEnv 9 [] { exReq with resource := str "y" }).map (·.1) = .ok false ∧
    v'.needs ≤ 30 ∧ (v'.authorize exEnv 9 [] { exReq with resource := str "y" }).map (·.1) = .ok true := by
  obtain ⟨w, h, h1, h2, h3, h4, h5, h6⟩ := Out.chk_ok (x := V2Op.run {} exBoth) (P := fun w =>
    (V2Op.run w [.removePrincipalRole { exBack with role := str "q" }]).bind (fun v =>
      (v.authorize exEnv 9 [] { exReq with resource := str "y" }).map (·.1)) = .ok false ∧
    (V2Op.run w [.removePrincipalRole { exBack with role := str "q" }, .addPrincipalRole [1]]).bind (fun v =>
      (v.authorize exEnv 9 [] { exReq with resource := str "y" }).map fun y => (y.1, decide (v.needs ≤ 30))) = .ok (true, true) ∧
    (w.authorize exEnv 9 [] { exReq with resource := str "y" }).map (·.1) = .ok true ∧ w.userRoles = [some 0, some 1] ∧
      w.prs[0]? = some exBack ∧ w.prs[1]? = some { exBack with role := str "q" }) (by decide +kernel)
  obtain ⟨v, g1, g2⟩ := Out.bind_eq_ok.1 h1
  obtain ⟨v', g3, g4⟩ := Out.bind_eq_ok.1 h2
  obtain ⟨y, g5, g6⟩ := Out.map_eq_ok.1 g4
  obtain ⟨g6, g7⟩ := Prod.mk.inj g6
  refine ⟨w, v, v', h, by rw [h4]; simp, exBoth_back h4 h5 h6 fun j => ?_, ?_, g1, g3, h3, g2, of_decide_eq_true g7, Out.map_eq_ok.2 ⟨y, g5, g6⟩⟩
  · constructor
    · rintro rfl
      exact .inr ⟨rfl, by unfold Selects; decide⟩
    · rintro (⟨_, h⟩ | ⟨rfl, _⟩)
      · exact absurd h (by unfold Selects; decide)
      · rfl
  · intro i j x y hij hi hj hs
    rw [h4] at hi hj
    have hj2 : j < 2 := by have := (List.getElem?_eq_some_iff.1 hj).1; simpa using this
    obtain rfl : i = 0 := by omega
    obtain rfl : j = 1 := by omega
    simp only [List.getElem?_cons_zero, Option.some.injEq] at hi
    subst hi
    obtain ⟨k, u, e, hu, hs⟩ := hs
    cases e
    rw [h5] at hu; cases hu
    exact absurd hs (by unfold Selects; decide)

end V2
end Verif
