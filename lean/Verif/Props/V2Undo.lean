import Verif.Props.V2GrantOrder
import Verif.Props.V2Remove

/-!
# Taking back what was granted (v2)
-/

namespace Verif
namespace Spec

/-- The second call takes back the first one. -/
inductive TakesBack (w : V2) : V2Op → V2Op → Prop
  | assignment {i : Nat} {u target : PR} : w.prs[i]? = some u → target.principal = u.principal → target.tenant = u.tenant →
      target.namespace_ = u.namespace_ → target.scope = u.scope → target.role = u.role →
      TakesBack w (.addPrincipalRole [i]) (.removePrincipalRole target)
  | permission (a : Nat) (ps : List Perm2) : TakesBack w (.addPermission a ps) (.removePermission a ps)
  | expiry (i : Nat) (now e : Int) : TakesBack w (.setExpiry i now e) (.clearExpiry i)

/-- Nothing that the call takes back is there already. -/
def NothingOlder (w : V2) : V2Op → Prop
  | .removePrincipalRole target => ∀ u, Assigned w u → ¬ V2.Selects target u
  | .removePermission a ps => ∀ r, w.dag.objs[a]? = some r → ∀ p ∈ ps, p.string ∉ r.perms
  | .clearExpiry i => ∀ u, w.prs[i]? = some u → u.expiry = none
  | _ => True

end Spec

open Spec V2

namespace Undo2
variable {w v v' : V2}

theorem set_back {α : Type} {l : List α} {i : Nat} {x : α} (h : l[i]? = some x) (y : α) : l.set i y = l ↔ y = x := by
  obtain ⟨hi, rfl⟩ := List.getElem?_eq_some_iff.1 h
  constructor
  · intro e
    have : (l.set i y)[i]? = l[i]? := by rw [e]
    rw [List.getElem?_set_self hi, h] at this
    exact Option.some.inj this
  · rintro rfl
    exact List.set_getElem_self hi

theorem filters : ∀ (S l : List Str), S.foldl (fun s x => s.filter (· ≠ x)) l = l.filter (· ∉ S)
  | [], l => by simp
  | x :: S, l => by
    rw [List.foldl_cons, filters S, List.filter_filter]
    congr 1
    funext y
    by_cases h1 : y = x <;> by_cases h2 : y ∈ S <;> simp [h1, h2]

theorem adds (S : List Str) : ∀ (T l : List Str), (∀ x ∈ T, x ∈ S) → (T.foldl addStr l).filter (· ∉ S) = l.filter (· ∉ S)
  | [], _, _ => rfl
  | x :: T, l, h => by
    rw [List.foldl_cons, adds S T _ fun y hy => h y (List.mem_cons_of_mem _ hy)]
    unfold addStr
    split
    · rfl
    · simp [h x (List.mem_cons_self ..)]

theorem run_two {op op' : V2Op} (h : V2Op.run w [op, op'] = .ok v') : ∃ v, op.apply w = .ok v ∧ op'.apply v = .ok v' := by
  obtain ⟨v, h1, h2⟩ := Out.bind_eq_ok.1 h
  obtain ⟨v1, h2, h3⟩ := Out.bind_eq_ok.1 h2
  cases h3
  exact ⟨v, h1, h2⟩

theorem assignment (inv : Inv w) (hnil : none ∉ w.userRoles) {i : Nat} {u target : PR} (hu : w.prs[i]? = some u) (hs : Selects target u)
    (h1 : w.addPrincipalRole [i] = .ok v) {b : Bool} (h2 : v.removePrincipalRole target = .ok (b, v')) :
    b = false ∧ (v' = { w with index := v'.index } ↔ ∀ u, Assigned w u → ¬ Selects target u) := by
  have e1 : v = { w with
      userRoles := w.userRoles ++ [some i]
      index := w.index.set u.principal (((w.index.get u.principal).getD []).set u.tenant
        ((((w.index.get u.principal).getD []).get u.tenant).getD [] ++ [i])) } := by
    unfold addPrincipalRole Out.loop at h1
    simp only [prAt, hu, Out.bind_ok, Out.loop] at h1
    exact (Out.ok.inj h1).symm
  have hsel : v.sel target = w.sel target := by
    subst e1; funext z; cases z <;> rfl
  have hi : w.sel target (some i) = true := by rw [sel_eq (matchesAt_some hu), matchesPR_iff]; exact hs
  have hur : v.userRoles = w.userRoles ++ [some i] := by rw [e1]
  rcases (remove_eq h2).2 with ⟨_, _, h3⟩ | ⟨rfl, _, h3⟩
  · have := h3 (some i) (by rw [hur]; simp)
    rw [hsel, hi] at this; cases this
  refine ⟨rfl, ?_⟩
  have hb : v.blank target v.userRoles = w.blank target w.userRoles ++ [none] := by
    simp only [blank, hsel, hur, List.map_append, List.map_cons, List.map_nil, hi, if_true]
  have hk : v.kept target v.userRoles = w.kept target w.userRoles := by
    simp only [kept, hsel, hur, List.filter_append, List.filter_cons, List.filter_nil, hi, Bool.not_true, Bool.false_eq_true, if_false,
      List.append_nil]
  rw [hb, hk] at h3
  have key : v' = { w with index := v'.index } ↔ v'.userRoles = w.userRoles := by
    constructor
    · intro e
      rw [e]
    · intro e
      rw [h3] at e ⊢
      subst e1
      simp only at e ⊢
      rw [e]
  rw [key]
  have hv' : v'.userRoles = (w.blank target w.userRoles ++ [none]).take (w.kept target w.userRoles).length := by rw [h3]
  rw [hv']
  constructor
  · rintro e u' ⟨j, hj, hu'⟩ hs'
    have hsj := (sel_iff inv hnil hj).2 ⟨j, u', rfl, hu', hs'⟩
    obtain ⟨k, hk⟩ := List.mem_iff_getElem?.1 hj
    have hlt := (List.getElem?_eq_some_iff.1 hk).1
    have h5 : ((w.blank target w.userRoles ++ [none]).take (w.kept target w.userRoles).length)[k]? = some (some j) := by rw [e, hk]
    rw [List.getElem?_take] at h5
    split at h5
    · rw [List.getElem?_append_left (by simpa [blank] using hlt)] at h5
      simp only [blank, List.getElem?_map, hk, Option.map_some, hsj, if_true] at h5
      cases h5
    · cases h5
  · intro hn
    have h0 : ∀ x ∈ w.userRoles, w.sel target x = false := by
      intro x hx
      cases hx' : w.sel target x with
      | false => rfl
      | true =>
        obtain ⟨j, u', rfl, h6, h7⟩ := (sel_iff inv hnil hx).1 hx'
        exact absurd h7 (hn u' ⟨j, hx, h6⟩)
    have e2 : w.blank target w.userRoles = w.userRoles := by
      unfold blank
      conv => rhs; rw [← List.map_id w.userRoles]
      exact List.map_congr_left fun x hx => by simp [h0 x hx]
    have e3 : w.kept target w.userRoles = w.userRoles := List.filter_eq_self.2 fun x hx => by simp [h0 x hx]
    rw [e2, e3, List.take_left]

theorem state (inv : Inv w) (hnil : none ∉ w.userRoles) {op op' : V2Op} (t : TakesBack w op op') (h : V2Op.run w [op, op'] = .ok v') :
    v' = { w with index := v'.index } ↔ NothingOlder w op' := by
  obtain ⟨v, h1, h2⟩ := run_two h
  cases t with
  | assignment hu a1 a2 a3 a4 a5 =>
    obtain ⟨⟨b, x⟩, h3, rfl⟩ := Out.map_eq_ok.1 h2
    exact (assignment inv hnil hu ⟨.inr a1.symm, .inr a2.symm, .inr a3.symm, .inr a4.symm, .inr a5.symm⟩ h1 h3).2
  | permission a ps =>
    obtain ⟨d1, h3, rfl⟩ := Out.map_eq_ok.1 h1
    obtain ⟨d2, h4, rfl⟩ := Out.map_eq_ok.1 h2
    unfold Dag.addPermission at h3
    cases hr : w.dag.objs[a]? with
    | none => rw [hr] at h3; cases h3
    | some r =>
      rw [hr] at h3
      cases h3
      obtain ⟨ha, _⟩ := List.getElem?_eq_some_iff.1 hr
      simp only [Dag.removePermission, List.getElem?_set_self ha] at h4
      cases h4
      simp only [List.set_set, filters, adds _ _ _ fun _ h => h]
      have key : (w.dag.objs.set a { r with perms := r.perms.filter (· ∉ ps.map Perm2.string) } = w.dag.objs) ↔ NothingOlder w (.removePermission a ps) := by
        rw [set_back hr]
        constructor
        · intro e r' hr' p hp hm
          rw [hr] at hr'; cases hr'
          have e2 : r.perms.filter (· ∉ ps.map Perm2.string) = r.perms := congrArg (·.perms) e
          have := List.filter_eq_self.1 e2 _ hm
          simp only [decide_eq_true_eq] at this
          exact this (List.mem_map.2 ⟨p, hp, rfl⟩)
        · intro hn
          have e2 : r.perms.filter (· ∉ ps.map Perm2.string) = r.perms := List.filter_eq_self.2 fun x hx => by
            simp only [decide_eq_true_eq]
            intro hm
            obtain ⟨p, hp, rfl⟩ := List.mem_map.1 hm
            exact hn r hr p hp hx
          rw [e2]
      rw [← key]
      constructor
      · intro e
        exact congrArg (fun x : V2 => x.dag.objs) e
      · intro e
        rw [e]
  | expiry i now e =>
    obtain ⟨u, h3, rfl⟩ := Out.map_eq_ok.1 h1
    obtain ⟨u2, h4, rfl⟩ := Out.map_eq_ok.1 h2
    obtain ⟨j, hj, hu⟩ := prAt_eq_ok.1 h3
    cases hj
    obtain ⟨j, hj, hu2⟩ := prAt_eq_ok.1 h4
    cases hj
    obtain ⟨hi, _⟩ := List.getElem?_eq_some_iff.1 hu
    simp only [List.getElem?_set_self hi] at hu2
    cases hu2
    have hc : (u.setExpiry now e).2.clearExpiry = { u with expiry := none } := by
      unfold PR.setExpiry PR.clearExpiry; split <;> rfl
    simp only [List.set_set, hc]
    have key : w.prs.set i { u with expiry := none } = w.prs ↔ NothingOlder w (.clearExpiry i) := by
      rw [set_back hu]
      constructor
      · intro k u' hu'
        rw [hu] at hu'; cases hu'
        rw [← k]
      · intro hn
        have := hn u hu
        cases u; simp only at this; subst this; rfl
    rw [← key]
    exact ⟨fun k => congrArg V2.prs k, fun k => by rw [k]⟩

end Undo2

namespace V2
open Undo2

/-- C152 as intended: taking back right away what was granted leads to the answers of before. -/
def C152_full : Prop := ∀ (ops : List V2Op) (w v' : V2) (op op' : V2Op) (e : Env) (now : Int) (r : Req2) (fuel fuel' : Nat)
    (site site' : List Val) (b b' : Bool) (x x' : V2), V2Op.run {} ops = .ok w → TakesBack w op op' → V2Op.run w [op, op'] = .ok v' →
  Steady w e now → (∀ c, Target w r c → NoTwins w r.principal c) →
  w.authorize e fuel site r = .ok (b, x) → v'.authorize e fuel' site' r = .ok (b', x') → b = b'

/-- C152. The authorizer is as before, but for the index, which no call reads, exactly if nothing that is taken back was there
already. -/
theorem C152_state {w v' : V2} (inv : Inv w) (hnil : none ∉ w.userRoles) {op op' : V2Op} (t : TakesBack w op op')
    (h : V2Op.run w [op, op'] = .ok v') : v' = { w with index := v'.index } ↔ NothingOlder w op' := state inv hnil t h

/-- C152, partial: the answers are those of before.  Missing: something of the kind was there already. -/
theorem C152_partial {w v' : V2} (inv : Inv w) (hnil : none ∉ w.userRoles) {op op' : V2Op} (t : TakesBack w op op')
    (ho : NothingOlder w op') (h : V2Op.run w [op, op'] = .ok v') {e : Env} {now : Int} (st : Steady w e now) {r : Req2}
    (tw : ∀ c, Target w r c → NoTwins w r.principal c) {fuel fuel' : Nat} {site site' : List Val} {b b' : Bool} {x x' : V2} :
    (w.authorize e fuel site r = .ok (b, x) → v'.authorize e fuel' site' r = .ok (b', x') → b = b') ∧
    ∀ roles, w.can e fuel site r roles = .ok (b, x) → v'.can e fuel' site' r roles = .ok (b', x') → b = b' := by
  have hv := (C152_state inv hnil t h).2 ho
  obtain ⟨v, h1, h2⟩ := run_two h
  have invv := inv_apply (inv_apply inv h1) h2
  generalize v'.index = ix at hv
  subst hv
  have hs : ∀ p, SameFor p w { w with index := ix } := fun p => ⟨rfl, rfl, rfl, fun _ _ => .rfl⟩
  have st' : Steady { w with index := ix } e now := st
  have tw' : ∀ c, Target { w with index := ix } r c → NoTwins { w with index := ix } r.principal c := fun c hc =>
      (hs r.principal).noTwins (tw c ((hs r.principal).symm.target hc))
  refine ⟨fun h1 h2 => ?_, fun roles h1 h2 => ?_⟩
  · rw [Bool.eq_iff_iff, V2.authorize_exact inv st tw h1, V2.authorize_exact invv st' tw' h2]
    exact ⟨(hs _).grants fun _ _ => .rfl, (hs _).symm.grants fun _ _ => .rfl⟩
  · rw [Bool.eq_iff_iff, V2.can_exact inv st tw h1, V2.can_exact invv st' tw' h2]
    exact ⟨(hs _).can fun _ _ => .rfl, (hs _).symm.can fun _ _ => .rfl⟩

/-- The target that names the assignment of `exUser`. -/
def exBack : PR := { principal := str "p", tenant := str "t", role := str "r" }

/-- An assignment of `p` that ended at 50. -/
def exEnded : List V2Op := [.newPrincipalRole { exBack with expiry := some 50 }, .addPrincipalRole [0]]

/-- C152. `p` has role "r", which may read "x". The role is assigned again and that is taken back: `p` may not read "x" any more.
The same if the permission is given again and that is taken back. An expiry set and cleared makes an assignment that had ended
count again. -/
theorem C152_counterexample :
    (∃ w v', V2Op.run {} (exRoles ++ exTenant ++ exUser ++ [.newPrincipalRole exBack]) = .ok w ∧
      V2Op.run w [.addPrincipalRole [1], .removePrincipalRole exBack] = .ok v' ∧ w.prs[1]? = some exBack ∧ w.tobjs.length = 1 ∧
      (w.authorize exEnv 9 [] exReq).map (·.1) = .ok true ∧ (v'.authorize exEnv 9 [] exReq).map (·.1) = .ok false) ∧
    (∃ w v', V2Op.run {} (exRoles ++ exTenant ++ exUser) = .ok w ∧
      V2Op.run w [.addPermission 0 [⟨str "x", str "read", []⟩], .removePermission 0 [⟨str "x", str "read", []⟩]] = .ok v' ∧
      (w.authorize exEnv 9 [] exReq).map (·.1) = .ok true ∧ (v'.authorize exEnv 9 [] exReq).map (·.1) = .ok false) ∧
    ∃ w v', V2Op.run {} (exRoles ++ exTenant ++ exEnded) = .ok w ∧
      V2Op.run w [.setExpiry 0 100 200, .clearExpiry 0] = .ok v' ∧
      (w.authorize exEnv 9 [] exReq).map (·.1) = .ok false ∧ (v'.authorize exEnv 9 [] exReq).map (·.1) = .ok true := by
  refine ⟨?_, ?_, ?_⟩
  · obtain ⟨w, h, h1, h2, h3, h4⟩ := Out.chk_ok (x := V2Op.run {} (exRoles ++ exTenant ++ exUser ++ [.newPrincipalRole exBack])) (P := fun w =>
      (V2Op.run w [.addPrincipalRole [1], .removePrincipalRole exBack]).bind (fun v => (v.authorize exEnv 9 [] exReq).map (·.1)) = .ok false ∧
      w.prs[1]? = some exBack ∧ w.tobjs.length = 1 ∧ (w.authorize exEnv 9 [] exReq).map (·.1) = .ok true) (by decide +kernel)
    obtain ⟨v, g1, g2⟩ := Out.bind_eq_ok.1 h1
    exact ⟨w, v, h, g1, h2, h3, h4, g2⟩
  · obtain ⟨w, h, h1, h2⟩ := Out.chk_ok (x := V2Op.run {} (exRoles ++ exTenant ++ exUser)) (P := fun w =>
      (V2Op.run w [.addPermission 0 [⟨str "x", str "read", []⟩], .removePermission 0 [⟨str "x", str "read", []⟩]]).bind
        (fun v => (v.authorize exEnv 9 [] exReq).map (·.1)) = .ok false ∧
      (w.authorize exEnv 9 [] exReq).map (·.1) = .ok true) (by decide +kernel)
    obtain ⟨v, g1, g2⟩ := Out.bind_eq_ok.1 h1
    exact ⟨w, v, h, g1, h2, g2⟩
  · obtain ⟨w, h, h1, h2⟩ := Out.chk_ok (x := V2Op.run {} (exRoles ++ exTenant ++ exEnded)) (P := fun w =>
      (V2Op.run w [.setExpiry 0 100 200, .clearExpiry 0]).bind (fun v => (v.authorize exEnv 9 [] exReq).map (·.1)) = .ok true ∧
      (w.authorize exEnv 9 [] exReq).map (·.1) = .ok false) (by decide +kernel)
    obtain ⟨v, g1, g2⟩ := Out.bind_eq_ok.1 h1
    exact ⟨w, v, h, g1, h2, g2⟩

/-- C152. So the intended property fails. -/
theorem C152_full_false : ¬ C152_full := by
  intro hf
  obtain ⟨⟨w, v', h1, h2, h3, h4, h5, h6⟩, _⟩ := C152_counterexample
  obtain ⟨⟨b, x⟩, h7, h8⟩ := Out.map_eq_ok.1 h5
  obtain ⟨⟨b', y⟩, h9, h10⟩ := Out.map_eq_ok.1 h6
  simp only at h8 h10
  subst h8; subst h10
  cases hf _ _ _ _ _ exEnv 100 exReq 9 9 [] [] _ _ _ _ h1 (.assignment h3 rfl rfl rfl rfl rfl) h2 (steady_const fun _ => rfl)
    (fun c _ => noTwins_single h4 _ c) h7 h9

/-- C152_partial is not about nothing: role "q" assigned to `p` and taken back; the permission it gives is there in between. -/
theorem C152_example : ∃ w v v', V2Op.run {} (exRoles ++ exTenant ++ exUser ++ [.newPrincipalRole { exBack with role := str "q" }]) = .ok w ∧
    none ∉ w.userRoles ∧ TakesBack w (.addPrincipalRole [1]) (.removePrincipalRole { exBack with role := str "q" }) ∧
    NothingOlder w (.removePrincipalRole { exBack with role := str "q" }) ∧ w.addPrincipalRole [1] = .ok v ∧
    V2Op.run w [.addPrincipalRole [1], .removePrincipalRole { exBack with role := str "q" }] = .ok v' ∧
    (v.authorize exEnv 9 [] { exReq with resource := str "y" }).map (·.1) = .ok true ∧
    (w.authorize exEnv 9 [] { exReq with resource := str "y" }).map (·.1) = .ok false ∧
    (v'.authorize exEnv 9 [] { exReq with resource := str "y" }).map (·.1) = .ok false ∧
    (v'.authorize exEnv 9 [] exReq).map (·.1) = .ok true := by
  obtain ⟨w, h, h1, h2, h3, h4, h5, h6, h7⟩ := Out.chk_ok
    (x := V2Op.run {} (exRoles ++ exTenant ++ exUser ++ [.newPrincipalRole { exBack with role := str "q" }])) (P := fun w =>
      (V2Op.run w [.addPrincipalRole [1], .removePrincipalRole { exBack with role := str "q" }]).bind (fun v =>
        (v.authorize exEnv 9 [] { exReq with resource := str "y" }).bind fun x => (v.authorize exEnv 9 [] exReq).map fun y => (x.1, y.1)) =
          .ok (false, true) ∧
      (w.addPrincipalRole [1]).bind (fun v => (v.authorize exEnv 9 [] { exReq with resource := str "y" }).map (·.1)) = .ok true ∧
      (w.authorize exEnv 9 [] { exReq with resource := str "y" }).map (·.1) = .ok false ∧
      w.userRoles = [some 0] ∧ w.prs[0]? = some exBack ∧ w.prs[1]? = some { exBack with role := str "q" } ∧ w.tobjs.length = 1)
    (by decide +kernel)
  obtain ⟨v', g1, g2⟩ := Out.bind_eq_ok.1 h1
  obtain ⟨x, g3, g4⟩ := Out.bind_eq_ok.1 g2
  obtain ⟨y, g5, g6⟩ := Out.map_eq_ok.1 g4
  obtain ⟨g6, g7⟩ := Prod.mk.inj g6
  obtain ⟨v, g8, g9⟩ := Out.bind_eq_ok.1 h2
  refine ⟨w, v, v', h, by rw [h4]; simp, .assignment h6 rfl rfl rfl rfl rfl, ?_, g8, g1, g9, h3, by rw [g3]; exact congrArg _ g6,
    by rw [g5]; exact congrArg _ g7⟩
  rintro u ⟨i, hi, hu⟩ hs
  rw [h4] at hi
  cases List.mem_singleton.1 hi
  rw [h5] at hu
  cases hu
  rcases hs.2.2.2.2 with k | k <;> revert k <;> decide

end V2
end Verif
