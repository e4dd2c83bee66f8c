import Verif.Props.V2Revoke
import Verif.Props.V2Setup

/-!
# Linking child tenants (v2)
-/

namespace Verif
namespace Spec

/-- None of the tenants `ds` takes the place of another child of `c` with the same id. -/
def NewChildren (w : V2) (c : Nat) (ds : List Nat) : Prop :=
  ∀ t d dt c', w.tobjs[c]? = some t → d ∈ ds → w.tobjs[d]? = some dt → (dt.id, c') ∈ t.children → c' = d

/-- Permissions for the requested scope that count in `v` and did not in `w` keep others from being used, and none of them is for the
request. -/
def Hides (w v : V2) (now : Int) (r : Req2) : Prop := r.scope ≠ [] ∧ ∃ c t ns, Target v r c ∧ v.tobjs[c]? = some t ∧ Place t r ns ∧
  (∃ y, ScopedPerm v now r c ns y) ∧ (∀ y, ScopedPerm v now r c ns y → ¬ Permits y r) ∧ ∀ y, ¬ ScopedPerm w now r c ns y

end Spec

open Spec V2

namespace Link2

theorem defined {c : Nat} : ∀ {ds : List Nat} {w v : V2}, w.tAddChild c ds = .ok v →
    (∀ d ∈ ds, ∃ dt, w.tobjs[d]? = some dt) ∧ (ds = [] ∨ ∃ t, w.tobjs[c]? = some t)
  | [], _, _, _ => ⟨by simp, .inl rfl⟩
  | d :: ds, w, v, h => by
    obtain ⟨w1, h1, h2⟩ := Out.bind_eq_ok.1 h
    obtain ⟨t, hc, h3⟩ := withT_eq_ok.1 h1
    obtain ⟨dt, hd, h4⟩ := withT_eq_ok.1 h3
    cases h4
    refine ⟨fun x hx => ?_, .inr ⟨t, hc⟩⟩
    rcases List.mem_cons.1 hx with rfl | hx
    · exact ⟨dt, hd⟩
    · obtain ⟨y, hy⟩ := (defined h2).1 x hx
      have := (List.getElem?_eq_some_iff.1 hy).1
      simp only [setT, List.length_set] at this
      exact ⟨_, List.getElem?_eq_getElem this⟩

/-- Same but for more child links. -/
structure Linked (w v : V2) : Prop where
  prs : v.prs = w.prs
  users : v.userRoles = w.userRoles
  dag : v.dag = w.dag
  default : v.defTenant = w.defTenant
  tenants : v.tenants = w.tenants
  objs : ∀ (c : Nat) t, w.tobjs[c]? = some t → ∃ t', v.tobjs[c]? = some t' ∧ t'.id = t.id ∧ t'.status = t.status ∧
    (∀ k b, (k, b) ∈ t.children → (k, b) ∈ t'.children) ∧ ∀ r ns, Place t' r ns ↔ Place t r ns

theorem linked {w v : V2} (inv : Inv w) {c : Nat} {ds : List Nat} (h : w.tAddChild c ds = .ok v) (hn : NewChildren w c ds) : Linked w v := by
  have invv : Inv v := inv_apply inv (op := .addChildTenant c ds) h
  obtain ⟨h1, rfl | ⟨t, hc⟩⟩ := defined h
  · cases h
    exact ⟨rfl, rfl, rfl, rfl, rfl, fun c t h => ⟨t, h, rfl, rfl, fun _ _ h => h, fun _ _ => .rfl⟩⟩
  obtain ⟨v1, t', g1, ⟨_, g2, g3⟩, g4, g5⟩ := C73_addChildTenant hc h1
  cases g1.symm.trans h
  have e : v = { w with tobjs := v.tobjs } := by rw [← g3]
  have hv : v.tobjs[c]? = some t' := by rw [g2]; simp
  refine ⟨by rw [e], by rw [e], by rw [e], by rw [e], by rw [e], fun i x hx => ?_⟩
  by_cases hi : i = c
  · subst hi
    rw [hc] at hx; cases hx
    refine ⟨t', hv, by rw [g4], by rw [g4], fun k b hb => ?_, fun r ns => by rw [g4]; exact .rfl⟩
    rw [GoMap.mem_iff_get (invv.childrenWF t' (List.mem_of_getElem? hv)), g5,
      (GoMap.mem_iff_get (inv.childrenWF t (List.mem_of_getElem? hc))).1 hb]
    cases hl : lastWith w ds k with
    | none => rfl
    | some d =>
      have k1 := List.mem_of_find?_eq_some hl
      have k2 := List.find?_some hl
      obtain ⟨dt, hd⟩ := h1 d (List.mem_reverse.1 k1)
      simp only [hd, Option.map_some, beq_iff_eq, Option.some.injEq] at k2
      rw [hn t d dt b hc (List.mem_reverse.1 k1) hd (k2 ▸ hb)]; rfl
  · exact ⟨x, by rw [g2, if_neg hi]; exact hx, rfl, rfl, fun _ _ h => h, fun _ _ => .rfl⟩

namespace Linked
variable {w v : V2} (L : Linked w v)
include L

theorem asg (u : PR) : Assigned v u ↔ Assigned w u := by unfold Assigned; rw [L.prs, L.users]

theorem managed {p : Str} {c c' : Nat} (h : Managed w p c c') : Managed v p c c' := by
  induction h with
  | self => exact .self
  | child _ h2 h3 h4 ih =>
    obtain ⟨t, g1, g2, _, g3, _⟩ := L.objs _ _ h2
    obtain ⟨u, h5, h6⟩ := h3
    exact .child ih g1 (g2 ▸ ⟨u, (L.asg u).2 h5, h6⟩) (g3 _ _ h4)

theorem covers {p : Str} {c : Nat} {t : Str} (h : Covers w p c t) : Covers v p c t := by
  obtain ⟨c', t', h1, h2, h3⟩ := h
  obtain ⟨t0, g1, g2, _⟩ := L.objs _ _ h2
  exact ⟨c', t0, L.managed h1, g1, g2.trans h3⟩

theorem noTwins {p : Str} {c : Nat} (h : NoTwins v p c) : NoTwins w p c := by
  intro c1 c2 t1 t2 h1 h2 h3 h4 h5
  obtain ⟨t1', g1, g2, _⟩ := L.objs _ _ h3
  obtain ⟨t2', g3, g4, _⟩ := L.objs _ _ h4
  exact h c1 c2 t1' t2' (L.managed h1) (L.managed h2) g1 g3 (by rw [g2, g4, h5])

theorem named_eq (r : Req2) : named v r = named w r := by unfold named; rw [L.default]

theorem target {r : Req2} {c : Nat} (h : Target w r c) : Target v r c := by
  have hn := L.named_eq r
  rcases h with ⟨h1, h2⟩ | ⟨h1, u, t, h2, h3, h4, h5, h6, h7⟩
  · exact .inl ⟨hn ▸ h1, hn ▸ L.tenants ▸ h2⟩
  · obtain ⟨t', g1, _, g2, _⟩ := L.objs _ _ h6
    exact .inr ⟨hn.trans h1, u, t', (L.asg u).2 h2, h3, h4, L.tenants ▸ h5, g1, g2.trans h7⟩

theorem counts {p ns t : Str} {now : Int} {u : PR} : Counts v p ns t now u ↔ Counts w p ns t now u := and_congr (L.asg u) .rfl

theorem scopedP {r : Req2} {now : Int} {c : Nat} {ns x : Str} (h : ScopedPerm w now r c ns x) : ScopedPerm v now r c ns x := by
  obtain ⟨t, u, h1, h2, h3, h4⟩ := h
  exact ⟨t, u, L.covers h1, L.counts.2 h2, h3, L.dag ▸ h4⟩

theorem unscopedP {r : Req2} {now : Int} {c : Nat} {ns x : Str} (h : UnscopedPerm w now r c ns x) : UnscopedPerm v now r c ns x := by
  obtain ⟨t, u, h1, h2, h3, h4⟩ := h
  exact ⟨t, u, L.covers h1, L.counts.2 h2, h3, L.dag ▸ h4⟩

theorem can {r : Req2} {now : Int} {roles : List Str} (h : Can2 w now r roles) : Can2 v now r roles := by
  obtain ⟨c, t, ns, x, h1, h2, h3, h4, t1, u, h5, h6, h7, h8⟩ := h
  obtain ⟨t', g1, _, _, _, g2⟩ := L.objs _ _ h2
  exact ⟨c, t', ns, x, L.target h1, g1, (g2 _ _).2 h3, h4, t1, u, L.covers h5, L.counts.2 h6, h7, by rw [L.dag]; exact h8⟩

theorem hides {r : Req2} {now : Int} (h : Grants2 w now r) (hn : ¬ Grants2 v now r) : Hides w v now r := by
  obtain ⟨c, t, ns, x, h1, h2, h3, h4, h5⟩ := h
  obtain ⟨t', g1, _, _, _, g2⟩ := L.objs _ _ h2
  have h1' := L.target h1
  have h3' := (g2 _ _).2 h3
  rcases h4 with h4 | ⟨h4, h6⟩
  · exact absurd ⟨c, t', ns, x, h1', g1, h3', .inl (L.scopedP h4), h5⟩ hn
  · refine ⟨fun hs => ?_, c, t', ns, h1', g1, h3', ?_, fun y hy hp => ?_, h4⟩
    · obtain ⟨t1, u, k1, k2, k3, k4⟩ := h6
      exact h4 x ⟨t1, u, k1, k2, k3.trans hs.symm, k4⟩
    · exact Classical.byContradiction fun hc => hn ⟨c, t', ns, x, h1', g1, h3', .inr ⟨fun y hy => hc ⟨y, hy⟩, L.unscopedP h6⟩, h5⟩
    · exact hn ⟨c, t', ns, y, h1', g1, h3', .inl hy, hp⟩

end Linked
end Link2

namespace V2
open Link2

/-- C155 as intended: linking child tenants takes no access away. -/
def C155_full : Prop := ∀ (ops : List V2Op) (w v : V2) (c : Nat) (ds : List Nat) (e : Env) (now : Int) (r : Req2) (fuel : Nat)
    (site : List Val) (b : Bool) (x y : V2), V2Op.run {} ops = .ok w → w.tAddChild c ds = .ok v → NewChildren w c ds → Steady w e now →
  (∀ c, Target v r c → NoTwins v r.principal c) →
  w.authorize e fuel site r = .ok (true, x) → v.authorize e fuel site r = .ok (b, y) → b = true

section
variable {w v : V2} (inv : Inv w) {c : Nat} {ds : List Nat} (h : w.tAddChild c ds = .ok v) (hn : NewChildren w c ds)
  {e : Env} {now : Int} (st : Steady w e now) {r : Req2} (tw : ∀ c, Target v r c → NoTwins v r.principal c)
  {fuel fuel' : Nat} {site site' : List Val} {b : Bool} {x y : V2}
include inv h hn st tw

/-- C155. A granted request is refused after the link only if permissions for its scope that count now hide others. -/
theorem C155_only (h1 : w.authorize e fuel site r = .ok (true, x)) (h2 : v.authorize e fuel' site' r = .ok (false, y)) :
    Hides w v now r := by
  have L := linked inv h hn
  have st' : Steady v e now := fun u hu => st u ((L.asg u).1 hu)
  refine L.hides ((V2.authorize_exact inv st (fun c hc => L.noTwins (tw c (L.target hc))) h1).1 rfl) fun hg => ?_
  exact Bool.false_ne_true ((V2.authorize_exact (inv_apply inv (op := .addChildTenant c ds) h) st' tw h2).2 hg)

/-- C155, partial: linking child tenants takes no access away from requests without scope.  Missing: the other requests, see `C155_exact`
and the counterexample. -/
theorem C155_partial (hs : r.scope = []) (h1 : w.authorize e fuel site r = .ok (true, x)) (h2 : v.authorize e fuel' site' r = .ok (b, y)) :
    b = true := by
  cases b with
  | true => rfl
  | false => exact absurd hs (C155_only inv h hn st tw h1 h2).1

/-- C155. About a named (or default) tenant this is exact. -/
theorem C155_exact (hm : named w r ≠ []) (h1 : w.authorize e fuel site r = .ok (true, x)) (h2 : v.authorize e fuel' site' r = .ok (b, y)) :
    b = false ↔ Hides w v now r := by
  have L := linked inv h hn
  have invv := inv_apply inv (op := .addChildTenant c ds) h
  have st' : Steady v e now := fun u hu => st u ((L.asg u).1 hu)
  constructor
  · rintro rfl; exact C155_only inv h hn st tw h1 h2
  · rintro ⟨_, c, t, ns, k1, k2, k3, k4, k5, _⟩
    have := refused_of_hidden invv (by rw [L.named_eq]; exact hm) k1 k2 k3 k4 k5
    rw [← V2.authorize_exact invv st' tw h2] at this
    simpa using this

/-- C155. `Can` never loses. -/
theorem C155_can {roles : List Str} (h1 : w.can e fuel site r roles = .ok (true, x)) (h2 : v.can e fuel' site' r roles = .ok (b, y)) :
    b = true := by
  have L := linked inv h hn
  have st' : Steady v e now := fun u hu => st u ((L.asg u).1 hu)
  exact (V2.can_exact (inv_apply inv (op := .addChildTenant c ds) h) st' tw h2).2
    (L.can ((V2.can_exact inv st (fun c hc => L.noTwins (tw c (L.target hc))) h1).1 rfl))

end

/-- C155. The calls return afterwards, given enough stack, if no nil entry is in the list of assignments, unless the matcher hangs on a
permission of the principal. -/
theorem C155_returns {w v : V2} (inv : Inv w) (hnil : none ∉ w.userRoles) {c : Nat} {ds : List Nat} (h : w.tAddChild c ds = .ok v)
    (hn : NewChildren w c ds) {e : Env} {fuel : Nat} (hf : v.needs ≤ fuel) {site : List Val} {r : Req2} :
    ((∀ u x, Assigned w u → u.principal = r.principal → RolePerm w.dag u.role x → ¬ Hangs x (r.resource ++ [32] ++ r.action)) →
      ∃ b y, v.authorize e fuel site r = .ok (b, y)) ∧ ∀ roles, ∃ b y, v.can e fuel site r roles = .ok (b, y) := by
  have W := linked inv h hn
  have invv : Inv v := inv_apply inv (op := .addChildTenant c ds) h
  have hn' : none ∉ v.userRoles := by rw [W.users]; exact hnil
  exact ⟨fun hx => authorize_total invv hn' hf fun c tid u x _ _ h3 h4 _ h6 => hx u x ((W.asg u).1 h3) h4 (W.dag ▸ h6),
    fun roles => can_total invv hn' hf⟩

/-- `p` has role "r" in tenant "t" and its children, and role "q" for scope "s" in tenant "u". -/
def exApart : List V2Op := exRoles ++ exTenant ++ [.newPrincipalRole { principal := str "p", tenant := str "t", role := str "r", manage := true },
  .newPrincipalRole { principal := str "p", tenant := str "u", role := str "q", scope := str "s" }, .addPrincipalRole [0, 1],
  .newTenant (str "u") (some (str "n"))]

/-- C155. `p` may read "x" in scope "s" of tenant "t" until "u" becomes a child of "t". The request without scope stays granted, and role
"q" is held in "t" from then on. -/
theorem C155_counterexample : ∃ w v, V2Op.run {} exApart = .ok w ∧ w.tAddChild 0 [1] = .ok v ∧ NewChildren w 0 [1] ∧
    (∀ c, NoTwins v (str "p") c) ∧
    (w.authorize exEnv 9 [] { exReq with scope := str "s" }).map (·.1) = .ok true ∧
    (v.authorize exEnv 9 [] { exReq with scope := str "s" }).map (·.1) = .ok false ∧
    (w.authorize exEnv 9 [] exReq).map (·.1) = .ok true ∧ (v.authorize exEnv 9 [] exReq).map (·.1) = .ok true ∧
    (w.can exEnv 9 [] exReq [str "q"]).map (·.1) = .ok false ∧ (v.can exEnv 9 [] exReq [str "q"]).map (·.1) = .ok true := by
  obtain ⟨w, h, h1, h2, h3, h4, h5⟩ := Out.chk_ok (x := V2Op.run {} exApart) (P := fun w =>
    (w.authorize exEnv 9 [] { exReq with scope := str "s" }).map (·.1) = .ok true ∧ (w.authorize exEnv 9 [] exReq).map (·.1) = .ok true ∧
    (w.can exEnv 9 [] exReq [str "q"]).map (·.1) = .ok false ∧ (∀ t ∈ w.tobjs, t.children = []) ∧
    (w.tAddChild 0 [1]).map (fun v => decide (v.tobjs.map (·.id) = [str "t", str "u"] ∧
      (v.authorize exEnv 9 [] { exReq with scope := str "s" }).map (·.1) = .ok false ∧
      (v.authorize exEnv 9 [] exReq).map (·.1) = .ok true ∧ (v.can exEnv 9 [] exReq [str "q"]).map (·.1) = .ok true)) = .ok true)
    (by decide +kernel)
  obtain ⟨v, g1, g2⟩ := Out.map_eq_ok.1 h5
  obtain ⟨g3, g4, g5, g6⟩ := of_decide_eq_true g2
  refine ⟨w, v, h, g1, fun t d dt c' k1 _ _ k2 => ?_, noTwins_of_distinct (fun c1 c2 t1 t2 k1 k2 k3 => ?_) _, h1, g4, h2, g5, h3, g6⟩
  · rw [h4 t (List.mem_of_getElem? k1)] at k2; cases k2
  · have l1 : (v.tobjs.map (·.id))[c1]? = some t1.id := by rw [List.getElem?_map, k1]; rfl
    have l2 : (v.tobjs.map (·.id))[c2]? = some t1.id := by rw [List.getElem?_map, k2, k3]; rfl
    rw [g3] at l1 l2
    have hd : [str "t", str "u"].Nodup := by decide
    exact (List.getElem?_inj (List.getElem?_eq_some_iff.1 l1).1 hd).1 (l1.trans l2.symm)

/-- C155. In this case no nil entry is in the list, and a small stack is enough for `C155_returns`. -/
theorem C155_returns_example : ∃ w, V2Op.run {} exApart = .ok w ∧ none ∉ w.userRoles ∧
    (w.tAddChild 0 [1]).map (fun v => decide (v.needs ≤ 30)) = .ok true := Out.chk_ok (by decide +kernel)

/-- C155. So the intended property fails. -/
theorem C155_full_false : ¬ C155_full := by
  intro hf
  obtain ⟨w, v, h1, h2, h3, h4, h5, h6, _⟩ := C155_counterexample
  obtain ⟨⟨b, x⟩, g1, g2⟩ := Out.map_eq_ok.1 h5
  obtain ⟨⟨b', y⟩, g3, g4⟩ := Out.map_eq_ok.1 h6
  simp only at g2 g4; subst g2; subst g4
  exact Bool.false_ne_true (hf _ w v _ _ exEnv 100 _ 9 [] _ x y h1 h2 h3 (steady_const fun _ => rfl) (fun c _ => h4 c) g1 g3)

end V2
end Verif
