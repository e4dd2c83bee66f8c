import Verif.Props.V2Repeat

/-!
# The order of grants (v2)
-/

namespace Verif
namespace Spec

/-- The calls that give a role permissions or child roles, or a principal a role. -/
def isGrant2 : V2Op → Bool
  | .addPermission .. | .addChildRole .. | .addPrincipalRole _ => true
  | _ => false

/-- An `AddChildRole` of the block makes `b` a child of `a`: it is not refused. -/
def LinkedBy (w : V2) (gs : List V2Op) (a b : Str) : Prop := ∃ pre n cs post u d, gs = pre ++ .addChildRole n a cs :: post ∧
  V2Op.run w pre = .ok u ∧ u.dag.addChildRole n a cs = .ok (false, d) ∧ b ∈ cs

/-- No `AddChildRole` of the block is refused. -/
def NoneRefused (w : V2) (gs : List V2Op) : Prop := ∀ pre n a cs post u b d, gs = pre ++ .addChildRole n a cs :: post →
  V2Op.run w pre = .ok u → u.dag.addChildRole n a cs = .ok (b, d) → b = false

/-- The block gives the role registered as `r` permission `x`. -/
def PermBy (w : V2) (gs : List V2Op) (r x : Str) : Prop := ∃ a ps, .addPermission a ps ∈ gs ∧ (r, a) ∈ w.dag.roles ∧
  ∃ p ∈ ps, x = p.string

/-- The block makes assignment `u`. -/
def AssignedBy (w : V2) (gs : List V2Op) (u : PR) : Prop := ∃ is i, .addPrincipalRole is ∈ gs ∧ i ∈ is ∧ w.prs[i]? = some u

end Spec

open Spec V2

namespace GrantOrder2
variable {w v : V2}

theorem linked_cons {op : V2Op} {gs : List V2Op} {u : V2} (h : op.apply w = .ok u) {a b : Str} :
    LinkedBy w (op :: gs) a b ↔
      (∃ n cs d, op = .addChildRole n a cs ∧ w.dag.addChildRole n a cs = .ok (false, d) ∧ b ∈ cs) ∨ LinkedBy u gs a b := by
  constructor
  · rintro ⟨pre, n, cs, post, u', d, h1, h2, h3, h4⟩
    cases pre with
    | nil =>
      obtain ⟨rfl, rfl⟩ := List.cons.inj h1
      cases h2
      exact .inl ⟨n, cs, d, rfl, h3, h4⟩
    | cons op' pre =>
      obtain ⟨rfl, rfl⟩ := List.cons.inj h1
      obtain ⟨u'', g1, g2⟩ := Out.bind_eq_ok.1 h2
      rw [h] at g1; cases g1
      exact .inr ⟨pre, n, cs, post, u', d, rfl, g2, h3, h4⟩
  · rintro (⟨n, cs, d, rfl, h3, h4⟩ | ⟨pre, n, cs, post, u', d, rfl, h2, h3, h4⟩)
    · exact ⟨[], n, cs, gs, w, d, rfl, rfl, h3, h4⟩
    · exact ⟨op :: pre, n, cs, post, u', d, rfl, Out.bind_eq_ok.2 ⟨u, h, h2⟩, h3, h4⟩

theorem perm_cons {op : V2Op} {gs : List V2Op} {u : V2} (h : u.dag.roles = w.dag.roles) {r x : Str} :
    PermBy w (op :: gs) r x ↔ (∃ a ps, op = .addPermission a ps ∧ (r, a) ∈ w.dag.roles ∧ ∃ p ∈ ps, x = p.string) ∨ PermBy u gs r x := by
  unfold PermBy
  rw [h]
  constructor
  · rintro ⟨a, ps, h1, h2, h3⟩
    rcases List.mem_cons.1 h1 with h1 | h1
    · exact .inl ⟨a, ps, h1.symm, h2, h3⟩
    · exact .inr ⟨a, ps, h1, h2, h3⟩
  · rintro (⟨a, ps, rfl, h2, h3⟩ | ⟨a, ps, h1, h2, h3⟩)
    · exact ⟨a, ps, List.mem_cons_self .., h2, h3⟩
    · exact ⟨a, ps, List.mem_cons_of_mem _ h1, h2, h3⟩

theorem assigned_cons {op : V2Op} {gs : List V2Op} {u : V2} (h : u.prs = w.prs) {x : PR} :
    AssignedBy w (op :: gs) x ↔ (∃ is i, op = .addPrincipalRole is ∧ i ∈ is ∧ w.prs[i]? = some x) ∨ AssignedBy u gs x := by
  unfold AssignedBy
  rw [h]
  constructor
  · rintro ⟨is, i, h1, h2⟩
    rcases List.mem_cons.1 h1 with h1 | h1
    · exact .inl ⟨is, i, h1.symm, h2⟩
    · exact .inr ⟨is, i, h1, h2⟩
  · rintro (⟨is, i, rfl, h2⟩ | ⟨is, i, h1, h2⟩)
    · exact ⟨is, i, List.mem_cons_self .., h2⟩
    · exact ⟨is, i, List.mem_cons_of_mem _ h1, h2⟩

/-- What stays. -/
structure Rest (w v : V2) : Prop where
  tobjs : v.tobjs = w.tobjs
  tenants : v.tenants = w.tenants
  default : v.defTenant = w.defTenant
  prs : v.prs = w.prs
  roles : v.dag.roles = w.dag.roles
  cache : v.dag.resolved = w.dag.resolved

theorem Rest.trans {u : V2} (h : Rest w u) (g : Rest u v) : Rest w v :=
  ⟨g.tobjs.trans h.tobjs, g.tenants.trans h.tenants, g.default.trans h.default, g.prs.trans h.prs, g.roles.trans h.roles,
    g.cache.trans h.cache⟩

theorem hasPerm_add {d d' : Dag} {a : Nat} {ps : List Perm2} (h : d.addPermission a ps = .ok d') {r x : Str} :
    HasPerm d' r x ↔ HasPerm d r x ∨ ((r, a) ∈ d.roles ∧ ∃ p ∈ ps, x = p.string) := by
  obtain ⟨o, ho, rfl⟩ := Dag.addPermission_eq h
  have hl := (List.getElem?_eq_some_iff.1 ho).1
  constructor
  · rintro ⟨a', o1, h1, h2, h3⟩
    by_cases e : a = a'
    · subst e
      simp [hl] at h2; subst h2
      rcases mem_addStrs.1 h3 with h3 | h3
      · exact .inl ⟨a, o, h1, ho, h3⟩
      · obtain ⟨p, hp, e⟩ := List.mem_map.1 h3
        exact .inr ⟨h1, p, hp, e.symm⟩
    · exact .inl ⟨a', o1, h1, by simpa [e] using h2, h3⟩
  · rintro (h | ⟨h1, p, hp, rfl⟩)
    · exact hasPerm_set ho (fun y hy => mem_addStrs.2 (.inl hy)) h
    · exact ⟨a, _, h1, by simp [hl]; rfl, mem_addStrs.2 (.inr (List.mem_map_of_mem hp))⟩

theorem edge_add {d d' : Dag} (inv : d.DInv) {n : Nat} {p : Str} {cs : List Str} {b : Bool} (h : d.addChildRole n p cs = .ok (b, d'))
    {x y : Str} : Edge d' x y ↔ Edge d x y ∨ (b = false ∧ x = p ∧ y ∈ cs) := by
  have inv' := Dag.dinv_addChildRole inv h
  rcases (Dag.addChildRole_cases h).2 with ⟨rfl, rfl⟩ | ⟨rfl, rfl⟩
  · exact ⟨.inl, fun h => h.elim id fun h => nomatch h.1⟩
  · rw [Dag.edge_iff inv'.edgesWF, Dag.edge_iff inv.edgesWF]
    unfold Dag.children
    simp only [GoMap.get_set]
    split
    · rename_i hx
      simp [hx]
    · rename_i hx
      have : x ≠ p := fun e => hx (by simp [e])
      simp [this]

theorem block : ∀ (gs : List V2Op) {w v : V2}, Inv w → (∀ g ∈ gs, isGrant2 g = true) → V2Op.run w gs = .ok v →
    Rest w v ∧ (∀ a b, Edge v.dag a b ↔ Edge w.dag a b ∨ LinkedBy w gs a b) ∧
    (∀ r x, HasPerm v.dag r x ↔ HasPerm w.dag r x ∨ PermBy w gs r x) ∧ ∀ u, Assigned v u ↔ Assigned w u ∨ AssignedBy w gs u := by
  intro gs
  induction gs with
  | nil =>
    intro w v _ _ h
    cases h
    refine ⟨⟨rfl, rfl, rfl, rfl, rfl, rfl⟩, fun a b => ⟨.inl, fun h => h.elim id ?_⟩, fun r x => ⟨.inl, fun h => h.elim id ?_⟩,
      fun u => ⟨.inl, fun h => h.elim id ?_⟩⟩
    · rintro ⟨pre, _, _, _, _, _, h, _⟩
      cases pre <;> cases h
    · rintro ⟨_, _, h, _⟩; cases h
    · rintro ⟨_, _, h, _⟩; cases h
  | cons op gs ih =>
    intro w v inv hg h
    obtain ⟨u, h1, h2⟩ := Out.bind_eq_ok.1 h
    have invu : Inv u := inv_apply inv h1
    obtain ⟨R, hE, hP, hA⟩ := ih invu (fun g hm => hg g (List.mem_cons_of_mem _ hm)) h2
    suffices H : Rest w u ∧
        (∀ a b, Edge u.dag a b ↔ Edge w.dag a b ∨ ∃ n cs d, op = .addChildRole n a cs ∧ w.dag.addChildRole n a cs = .ok (false, d) ∧ b ∈ cs) ∧
        (∀ r x, HasPerm u.dag r x ↔ HasPerm w.dag r x ∨ ∃ a ps, op = .addPermission a ps ∧ (r, a) ∈ w.dag.roles ∧ ∃ p ∈ ps, x = p.string) ∧
        ∀ x, Assigned u x ↔ Assigned w x ∨ ∃ is i, op = .addPrincipalRole is ∧ i ∈ is ∧ w.prs[i]? = some x by
      obtain ⟨R1, E1, P1, A1⟩ := H
      refine ⟨R1.trans R, fun a b => ?_, fun r x => ?_, fun x => ?_⟩
      · rw [hE, E1, linked_cons h1, or_assoc]
      · rw [hP, P1, perm_cons R1.roles, or_assoc]
      · rw [hA, A1, assigned_cons R1.prs, or_assoc]
    have hop := hg op (List.mem_cons_self ..)
    cases op with
    | addPermission a ps =>
      obtain ⟨d, g1, rfl⟩ := Out.map_eq_ok.1 h1
      obtain ⟨o, ho, e⟩ := Dag.addPermission_eq g1
      refine ⟨⟨rfl, rfl, rfl, rfl, by simp only [e], by simp only [e]⟩, fun a b => ?_, fun r x => ?_, fun x => ?_⟩
      · simp only [e]
        exact ⟨.inl, fun h => h.elim id fun ⟨_, _, _, h, _⟩ => nomatch h⟩
      · rw [hasPerm_add g1]
        refine or_congr .rfl ⟨fun h => ⟨a, ps, rfl, h⟩, ?_⟩
        rintro ⟨_, _, e, h⟩
        cases e; exact h
      · exact ⟨.inl, fun h => h.elim id fun ⟨_, _, h, _⟩ => nomatch h⟩
    | addChildRole n p cs =>
      obtain ⟨⟨b, d⟩, g1, rfl⟩ := Out.map_eq_ok.1 h1
      have hd : d.roles = w.dag.roles ∧ d.resolved = w.dag.resolved ∧ d.objs = w.dag.objs := by
        rcases (Dag.addChildRole_cases g1).2 with ⟨_, rfl⟩ | ⟨_, rfl⟩ <;> exact ⟨rfl, rfl, rfl⟩
      refine ⟨⟨rfl, rfl, rfl, rfl, hd.1, hd.2.1⟩, fun x y => ?_, fun r x => ?_, fun x => ?_⟩
      · rw [edge_add inv.dag g1]
        refine or_congr .rfl ⟨?_, ?_⟩
        · rintro ⟨rfl, rfl, hy⟩
          exact ⟨n, cs, d, rfl, g1, hy⟩
        · rintro ⟨_, _, d', e, g2, hy⟩
          cases e
          rw [g1] at g2; cases g2
          exact ⟨rfl, rfl, hy⟩
      · unfold HasPerm
        simp only [hd.1, hd.2.2]
        exact ⟨.inl, fun h => h.elim id fun ⟨_, _, h, _⟩ => nomatch h⟩
      · exact ⟨.inl, fun h => h.elim id fun ⟨_, _, h, _⟩ => nomatch h⟩
    | addPrincipalRole is =>
      obtain ⟨b1, b2, b3, b4, b5, b6⟩ := Rep2.assigned_add is h1
      refine ⟨⟨b2, b3, b4, b5, by rw [b1], by rw [b1]⟩, fun a b => ?_, fun r x => ?_, fun x => ?_⟩
      · rw [b1]
        exact ⟨.inl, fun h => h.elim id fun ⟨_, _, _, h, _⟩ => nomatch h⟩
      · rw [b1]
        exact ⟨.inl, fun h => h.elim id fun ⟨_, _, h, _⟩ => nomatch h⟩
      · rw [b6]
        refine or_congr .rfl ⟨fun ⟨i, hi, h⟩ => ⟨is, i, rfl, hi, h⟩, ?_⟩
        rintro ⟨_, i, e, hi, h⟩
        cases e; exact ⟨i, hi, h⟩
    | _ => cases hop

/-- The objects a grant names exist. -/
def Fine (w : V2) : V2Op → Prop
  | .addPermission a _ => a < w.dag.objs.length
  | .addPrincipalRole is => ∀ i ∈ is, i < w.prs.length
  | _ => False

theorem assign_ok (is : List Nat) : ∀ {w : V2}, (∃ v, w.addPrincipalRole is = .ok v) ↔ ∀ i ∈ is, i < w.prs.length := by
  induction is with
  | nil => intro w; exact ⟨fun _ _ h => (List.not_mem_nil h).elim, fun _ => ⟨w, rfl⟩⟩
  | cons i is ih =>
    intro w
    constructor
    · rintro ⟨v, h⟩
      obtain ⟨u, h1, h2⟩ := Out.bind_eq_ok.1 h
      obtain ⟨x, h3, h4⟩ := Out.bind_eq_ok.1 h1
      cases h4
      obtain ⟨j, hj, hx⟩ := prAt_eq_ok.1 h3
      cases hj
      intro k hk
      rcases List.mem_cons.1 hk with rfl | hk
      · exact (List.getElem?_eq_some_iff.1 hx).1
      · exact ih.1 ⟨v, h2⟩ k hk
    · intro h
      have hi := h i (List.mem_cons_self ..)
      have hx : w.prAt (some i) = .ok w.prs[i] := prAt_eq_ok.2 ⟨i, rfl, List.getElem?_eq_getElem hi⟩
      have hw : ∀ w' : V2, w'.prs = w.prs → ∃ v, w'.addPrincipalRole is = .ok v := fun w' e =>
        ih.2 fun k hk => by rw [e]; exact h k (List.mem_cons_of_mem _ hk)
      obtain ⟨v, hv⟩ := hw { w with
        userRoles := w.userRoles ++ [some i]
        index := w.index.set w.prs[i].principal (((w.index.get w.prs[i].principal).getD []).set w.prs[i].tenant
          ((((w.index.get w.prs[i].principal).getD []).get w.prs[i].tenant).getD [] ++ [i])) } rfl
      exact ⟨v, Out.bind_eq_ok.2 ⟨_, Out.bind_eq_ok.2 ⟨_, hx, rfl⟩, hv⟩⟩

theorem apply_fine {g : V2Op} (hg : isGrant2 g = true) (hc : ∀ n a cs, g ≠ .addChildRole n a cs) : (∃ v, g.apply w = .ok v) ↔ Fine w g := by
  cases g with
  | addPermission a ps =>
    constructor
    · rintro ⟨v, h⟩
      obtain ⟨d, g1, _⟩ := Out.map_eq_ok.1 h
      obtain ⟨o, ho, _⟩ := Dag.addPermission_eq g1
      exact (List.getElem?_eq_some_iff.1 ho).1
    · intro h
      have : w.dag.objs[a]? = some w.dag.objs[a] := List.getElem?_eq_getElem h
      exact ⟨_, by simp only [V2Op.apply, Dag.addPermission, this]; rfl⟩
  | addPrincipalRole is => exact assign_ok is
  | addChildRole n a cs => exact absurd rfl (hc n a cs)
  | _ => cases hg

theorem fine_after {g : V2Op} (hg : isGrant2 g = true) (h : g.apply w = .ok v) (op : V2Op) : Fine v op ↔ Fine w op := by
  suffices H : v.dag.objs.length = w.dag.objs.length ∧ v.prs = w.prs by
    unfold Fine
    rw [H.1, H.2]
  cases g with
  | addPermission a ps =>
    obtain ⟨d, g1, rfl⟩ := Out.map_eq_ok.1 h
    obtain ⟨o, ho, rfl⟩ := Dag.addPermission_eq g1
    exact ⟨by simp, rfl⟩
  | addPrincipalRole is =>
    obtain ⟨b1, _, _, _, b5, _⟩ := Rep2.assigned_add is h
    exact ⟨by rw [b1], b5⟩
  | addChildRole n a cs =>
    obtain ⟨⟨b, d⟩, g1, rfl⟩ := Out.map_eq_ok.1 h
    rcases (Dag.addChildRole_cases g1).2 with ⟨_, rfl⟩ | ⟨_, rfl⟩ <;> exact ⟨rfl, rfl⟩
  | _ => cases hg

theorem run_fine (gs : List V2Op) : ∀ {w : V2}, (∀ g ∈ gs, isGrant2 g = true) → (∀ n a cs, .addChildRole n a cs ∉ gs) →
    ((∃ v, V2Op.run w gs = .ok v) ↔ ∀ g ∈ gs, Fine w g) := by
  induction gs with
  | nil => intro w _ _; exact ⟨fun _ _ h => (List.not_mem_nil h).elim, fun _ => ⟨w, rfl⟩⟩
  | cons g gs ih =>
    intro w hg hc
    have hg0 := hg g (List.mem_cons_self ..)
    have hc0 : ∀ n a cs, g ≠ .addChildRole n a cs := fun n a cs e => hc n a cs (e ▸ List.mem_cons_self ..)
    have ih' := fun u : V2 => ih (w := u) (fun x hx => hg x (List.mem_cons_of_mem _ hx)) fun n a cs h => hc n a cs (List.mem_cons_of_mem _ h)
    constructor
    · rintro ⟨v, h⟩
      obtain ⟨u, h1, h2⟩ := Out.bind_eq_ok.1 h
      intro x hx
      rcases List.mem_cons.1 hx with rfl | hx
      · exact (apply_fine hg0 hc0).1 ⟨u, h1⟩
      · exact (fine_after hg0 h1 x).1 ((ih' u).1 ⟨v, h2⟩ x hx)
    · intro h
      obtain ⟨u, h1⟩ := (apply_fine hg0 hc0).2 (h g (List.mem_cons_self ..))
      obtain ⟨v, h2⟩ := (ih' u).2 fun x hx => (fine_after hg0 h1 x).2 (h x (List.mem_cons_of_mem _ hx))
      exact ⟨v, Out.bind_eq_ok.2 ⟨u, h1, h2⟩⟩

end GrantOrder2

namespace V2
open GrantOrder2

/-- C150. Without `AddChildRole` a block that goes through does so in every order. -/
theorem C150_completes {w v : V2} {gs gs' : List V2Op} (hg : ∀ g ∈ gs, isGrant2 g = true) (hp : gs.Perm gs')
    (hc : ∀ n a cs, .addChildRole n a cs ∉ gs) (h : V2Op.run w gs = .ok v) : ∃ v', V2Op.run w gs' = .ok v' :=
  (run_fine gs' (fun g hm => hg g (hp.mem_iff.2 hm)) fun n a cs hm => hc n a cs (hp.mem_iff.2 hm)).2 fun g hm =>
    (run_fine gs hg hc).1 ⟨v, h⟩ g (hp.mem_iff.2 hm)

/-- C150. What a block of grants does, call by call: every accepted link, every permission and every assignment of the block is
added, nothing else. -/
theorem C150_block {w v : V2} (inv : Inv w) {gs : List V2Op} (hg : ∀ g ∈ gs, isGrant2 g = true) (h : V2Op.run w gs = .ok v) :
    (∀ a b, Edge v.dag a b ↔ Edge w.dag a b ∨ LinkedBy w gs a b) ∧
    (∀ r x, HasPerm v.dag r x ↔ HasPerm w.dag r x ∨ PermBy w gs r x) ∧ ∀ u, Assigned v u ↔ Assigned w u ∨ AssignedBy w gs u :=
  (block gs inv hg h).2

/-- C150 as intended: a block of grants made in another order leads to the same answers. -/
def C150_full : Prop := ∀ (l : Bool) (ops gs gs' : List V2Op) (w v v' x x' : V2) (e : Env) (now : Int) (r : Req2) (fuel fuel' : Nat)
    (site site' : List Val) (b b' : Bool), V2Op.run { logger := l } ops = .ok w → (∀ g ∈ gs, isGrant2 g = true) → gs.Perm gs' →
  V2Op.run w gs = .ok v → V2Op.run w gs' = .ok v' → Steady v e now → (∀ c, Target v r c → NoTwins v r.principal c) →
  v.authorize e fuel site r = .ok (b, x) → v'.authorize e fuel' site' r = .ok (b', x') → b = b'

/-- C150, partial: it does if the same child roles are linked in both orders.  Missing: blocks of which more is refused in one
order than in the other (see the counterexample). -/
theorem C150_partial {w v v' : V2} (inv : Inv w) {gs gs' : List V2Op} (hg : ∀ g ∈ gs, isGrant2 g = true) (hp : gs.Perm gs')
    (h : V2Op.run w gs = .ok v) (h' : V2Op.run w gs' = .ok v') (hl : ∀ a b, LinkedBy w gs a b ↔ LinkedBy w gs' a b)
    {e : Env} {now : Int} (st : Steady v e now) {r : Req2} (tw : ∀ c, Target v r c → NoTwins v r.principal c)
    {fuel fuel' : Nat} {site site' : List Val} {b b' : Bool} {x x' : V2} :
    (v.authorize e fuel site r = .ok (b, x) → v'.authorize e fuel' site' r = .ok (b', x') → b = b') ∧
    ∀ roles, v.can e fuel site r roles = .ok (b, x) → v'.can e fuel' site' r roles = .ok (b', x') → b = b' := by
  obtain ⟨R, hE, hP, hA⟩ := block gs inv hg h
  obtain ⟨R', hE', hP', hA'⟩ := block gs' inv (fun g hm => hg g (hp.mem_iff.2 hm)) h'
  have invv : Inv v := Out.loop_inv (P := Inv) (fun _ _ _ _ hs hf => inv_apply hs hf) inv h
  have invv' : Inv v' := Out.loop_inv (P := Inv) (fun _ _ _ _ hs hf => inv_apply hs hf) inv h'
  have F : Fewer v.dag v'.dag := ⟨by rw [R.roles, R'.roles], by rw [R.cache, R'.cache],
    fun a b k => by rw [hE', ← hl, ← hE]; exact k, fun r x k => by
      rw [hP'] ; rw [hP] at k
      exact k.imp_right fun ⟨a, ps, k1, k2⟩ => ⟨a, ps, hp.mem_iff.1 k1, k2⟩⟩
  have F' : Fewer v'.dag v.dag := ⟨by rw [R.roles, R'.roles], by rw [R.cache, R'.cache],
    fun a b k => by rw [hE, hl, ← hE']; exact k, fun r x k => by
      rw [hP] ; rw [hP'] at k
      exact k.imp_right fun ⟨a, ps, k1, k2⟩ => ⟨a, ps, hp.mem_iff.2 k1, k2⟩⟩
  have L := F.less w now
  have L' := F'.less w now
  have hps : SamePerms v v' := fun r x => ⟨L.perm r x, L'.perm r x⟩
  have hbs : SameBelow v v' := fun r x => ⟨L.below r x, L'.below r x⟩
  have hs : ∀ p, SameFor p v v' := fun p => ⟨by rw [R.tobjs, R'.tobjs], by rw [R.tenants, R'.tenants], by rw [R.default, R'.default],
    fun u _ => by
      rw [hA, hA']
      exact or_congr .rfl ⟨fun ⟨is, i, k1, k2⟩ => ⟨is, i, hp.mem_iff.1 k1, k2⟩, fun ⟨is, i, k1, k2⟩ => ⟨is, i, hp.mem_iff.2 k1, k2⟩⟩⟩
  have st' : Steady v' e now := fun u hu => st u (((hs u.principal).own u rfl).2 hu)
  have tw' : ∀ c, Target v' r c → NoTwins v' r.principal c := fun c hc =>
    (hs r.principal).noTwins (tw c ((hs r.principal).symm.target hc))
  refine ⟨fun h1 h2 => ?_, fun roles h1 h2 => ?_⟩
  · rw [Bool.eq_iff_iff, V2.authorize_exact invv st tw h1, V2.authorize_exact invv' st' tw' h2]
    exact ⟨(hs _).grants hps, (hs _).symm.grants fun r x => (hps r x).symm⟩
  · rw [Bool.eq_iff_iff, V2.can_exact invv st tw h1, V2.can_exact invv' st' tw' h2]
    exact ⟨(hs _).can hbs, (hs _).symm.can fun r x => (hbs r x).symm⟩

/-- C150. If none of its links is refused a block makes all of them, so whether `C150_partial` applies to two orders is decided by
the refusals. -/
theorem C150_accepted {w v : V2} {gs : List V2Op} (h : V2Op.run w gs = .ok v) (hn : NoneRefused w gs) (a b : Str) :
    LinkedBy w gs a b ↔ ∃ n cs, .addChildRole n a cs ∈ gs ∧ b ∈ cs := by
  constructor
  · rintro ⟨pre, n, cs, post, u, d, rfl, _, _, h4⟩
    exact ⟨n, cs, by simp, h4⟩
  · rintro ⟨n, cs, h1, h2⟩
    obtain ⟨pre, post, rfl⟩ := List.append_of_mem h1
    obtain ⟨u, g1, g2⟩ := Out.bind_eq_ok.1 (Out.loop_append.symm.trans h)
    obtain ⟨u', g3, _⟩ := Out.bind_eq_ok.1 g2
    obtain ⟨⟨b', d⟩, g4, _⟩ := Out.map_eq_ok.1 g3
    have := hn pre n a cs post u b' d rfl g1 g4
    subst this
    exact ⟨pre, n, cs, post, u, d, rfl, g1, g4, h2⟩

/-- C150. So a block with no refusal in either order leads to the same answers. -/
theorem C150_none_refused {w v v' : V2} (inv : Inv w) {gs gs' : List V2Op} (hg : ∀ g ∈ gs, isGrant2 g = true) (hp : gs.Perm gs')
    (h : V2Op.run w gs = .ok v) (h' : V2Op.run w gs' = .ok v') (hn : NoneRefused w gs) (hn' : NoneRefused w gs')
    {e : Env} {now : Int} (st : Steady v e now) {r : Req2} (tw : ∀ c, Target v r c → NoTwins v r.principal c)
    {fuel fuel' : Nat} {site site' : List Val} {b b' : Bool} {x x' : V2} :
    (v.authorize e fuel site r = .ok (b, x) → v'.authorize e fuel' site' r = .ok (b', x') → b = b') ∧
    ∀ roles, v.can e fuel site r roles = .ok (b, x) → v'.can e fuel' site' r roles = .ok (b', x') → b = b' :=
  C150_partial inv hg hp h h' (fun a b => by
    rw [C150_accepted h hn, C150_accepted h' hn']
    exact ⟨fun ⟨n, cs, k1, k2⟩ => ⟨n, cs, hp.mem_iff.1 k1, k2⟩, fun ⟨n, cs, k1, k2⟩ => ⟨n, cs, hp.mem_iff.2 k1, k2⟩⟩) st tw

/-- Role "z" has child "q"; there is a role "y". -/
def exOrder : List V2Op := exRoles ++ exTenant ++ exUser ++ [.newRole (str "z"), .newRole (str "y"), .addRoles [2, 3],
  .addChildRole 9 (str "z") [str "q"]]

/-- C150. "r" gets the children "z" and "y", "y" gets "q": made in this order both are accepted and `p` may do what "q" may. In
the other order the first call for "r" meets "q" twice, takes it for a cycle and is refused, so `p` may not. -/
theorem C150_counterexample : ∃ w v v', V2Op.run {} exOrder = .ok w ∧
    V2Op.run w [.addChildRole 9 (str "r") [str "z", str "y"], .addChildRole 9 (str "y") [str "q"]] = .ok v ∧
    V2Op.run w [.addChildRole 9 (str "y") [str "q"], .addChildRole 9 (str "r") [str "z", str "y"]] = .ok v' ∧ v.tobjs.length = 1 ∧
    (v.authorize exEnv 9 [] { exReq with resource := str "y" }).map (·.1) = .ok true ∧
    (v'.authorize exEnv 9 [] { exReq with resource := str "y" }).map (·.1) = .ok false := by
  obtain ⟨w, h, h1, h2⟩ := Out.chk_ok (x := V2Op.run {} exOrder) (P := fun w =>
    (V2Op.run w [.addChildRole 9 (str "r") [str "z", str "y"], .addChildRole 9 (str "y") [str "q"]]).bind (fun v =>
      (v.authorize exEnv 9 [] { exReq with resource := str "y" }).map fun x => (x.1, v.tobjs.length)) = .ok (true, 1) ∧
    (V2Op.run w [.addChildRole 9 (str "y") [str "q"], .addChildRole 9 (str "r") [str "z", str "y"]]).bind (fun v =>
      (v.authorize exEnv 9 [] { exReq with resource := str "y" }).map (·.1)) = .ok false) (by decide +kernel)
  obtain ⟨v, g1, g2⟩ := Out.bind_eq_ok.1 h1
  obtain ⟨v', g3, g4⟩ := Out.bind_eq_ok.1 h2
  obtain ⟨x, g5, g6⟩ := Out.map_eq_ok.1 g2
  obtain ⟨g6, g7⟩ := Prod.mk.inj g6
  exact ⟨w, v, v', h, g1, g3, g7, by rw [g5]; exact congrArg _ g6, g4⟩

/-- C150. So the intended property fails. -/
theorem C150_full_false : ¬ C150_full := by
  intro hf
  obtain ⟨w, v, v', h1, h2, h3, h4, h5, h6⟩ := C150_counterexample
  obtain ⟨⟨b, x⟩, h7, h8⟩ := Out.map_eq_ok.1 h5
  obtain ⟨⟨b', y⟩, h9, h10⟩ := Out.map_eq_ok.1 h6
  simp only at h8 h10
  subst h8; subst h10
  cases hf false _ _ _ _ _ _ _ _ exEnv 100 _ 9 9 [] [] _ _ h1 (fun g hg => by
    simp only [List.mem_cons, List.not_mem_nil, or_false] at hg
    rcases hg with rfl | rfl <;> rfl) (List.Perm.swap _ _ _) h2 h3 (steady_const fun _ => rfl) (fun c _ => noTwins_single h4 _ c) h7 h9

/-- Whether a call is an `AddChildRole` that is refused. -/
def refused (w : V2) : V2Op → Bool
  | .addChildRole n a cs => (w.dag.addChildRole n a cs).map (·.1) = .ok true
  | _ => false

theorem noneRefused_cons {w u : V2} {op : V2Op} {gs : List V2Op} (h : op.apply w = .ok u) (hr : refused w op = false) (hn : NoneRefused u gs) :
    NoneRefused w (op :: gs) := by
  intro pre n a cs post u' b d h1 h2 h3
  cases pre with
  | nil =>
    obtain ⟨rfl, rfl⟩ := List.cons.inj h1
    cases h2
    simp only [refused, h3, Out.map, decide_eq_false_iff_not] at hr
    cases b
    · rfl
    · exact absurd rfl hr
  | cons op' pre =>
    obtain ⟨rfl, rfl⟩ := List.cons.inj h1
    obtain ⟨u'', g1, g2⟩ := Out.bind_eq_ok.1 h2
    rw [h] at g1; cases g1
    exact hn pre n a cs post u' b d rfl g2 h3

theorem noneRefused_nil (w : V2) : NoneRefused w [] := by
  intro pre _ _ _ _ _ _ _ h
  cases pre <;> cases h

/-- A block as in `C150_none_refused`: "p" gets role "r", "r" the child "q", and "q" another permission, in both orders. -/
example : ∃ w v v', V2Op.run {} (exRoles ++ exTenant ++ exUser.take 1) = .ok w ∧
    V2Op.run w [.addPrincipalRole [0], .addChildRole 9 (str "r") [str "q"], .addPermission 1 [⟨str "z", str "read", []⟩]] = .ok v ∧
    V2Op.run w [.addPermission 1 [⟨str "z", str "read", []⟩], .addChildRole 9 (str "r") [str "q"], .addPrincipalRole [0]] = .ok v' ∧
    NoneRefused w [.addPrincipalRole [0], .addChildRole 9 (str "r") [str "q"], .addPermission 1 [⟨str "z", str "read", []⟩]] ∧
    NoneRefused w [.addPermission 1 [⟨str "z", str "read", []⟩], .addChildRole 9 (str "r") [str "q"], .addPrincipalRole [0]] ∧
    (∀ c, NoTwins v (str "p") c) ∧ (w.authorize exEnv 9 [] { exReq with resource := str "z" }).map (·.1) = .ok false ∧
    (v.authorize exEnv 9 [] { exReq with resource := str "z" }).map (·.1) = .ok true ∧
    (v'.authorize exEnv 9 [] { exReq with resource := str "z" }).map (·.1) = .ok true := by
  obtain ⟨w, h, h1, h2, h3⟩ := Out.chk_ok (x := V2Op.run {} (exRoles ++ exTenant ++ exUser.take 1)) (P := fun w =>
    (w.authorize exEnv 9 [] { exReq with resource := str "z" }).map (·.1) = .ok false ∧
    ((V2Op.apply w (.addPrincipalRole [0])).Chk fun u => refused u (.addChildRole 9 (str "r") [str "q"]) = false ∧
      ((V2Op.apply u (.addChildRole 9 (str "r") [str "q"])).Chk fun u =>
        ((V2Op.apply u (.addPermission 1 [⟨str "z", str "read", []⟩])).Chk fun v => v.tobjs.length = 1 ∧
          (v.authorize exEnv 9 [] { exReq with resource := str "z" }).map (·.1) = .ok true))) ∧
    ((V2Op.apply w (.addPermission 1 [⟨str "z", str "read", []⟩])).Chk fun u => refused u (.addChildRole 9 (str "r") [str "q"]) = false ∧
      ((V2Op.apply u (.addChildRole 9 (str "r") [str "q"])).Chk fun u =>
        ((V2Op.apply u (.addPrincipalRole [0])).Chk fun v =>
          (v.authorize exEnv 9 [] { exReq with resource := str "z" }).map (·.1) = .ok true)))) (by decide +kernel)
  obtain ⟨u1, a1, a2, a3⟩ := Out.chk_ok h2
  obtain ⟨u2, a4, a5⟩ := Out.chk_ok a3
  obtain ⟨v, a6, a7, a8⟩ := Out.chk_ok a5
  obtain ⟨u3, b1, b2, b3⟩ := Out.chk_ok h3
  obtain ⟨u4, b4, b5⟩ := Out.chk_ok b3
  obtain ⟨v', b6, b7⟩ := Out.chk_ok b5
  exact ⟨w, v, v', h, Out.bind_eq_ok.2 ⟨u1, a1, Out.bind_eq_ok.2 ⟨u2, a4, Out.bind_eq_ok.2 ⟨v, a6, rfl⟩⟩⟩,
    Out.bind_eq_ok.2 ⟨u3, b1, Out.bind_eq_ok.2 ⟨u4, b4, Out.bind_eq_ok.2 ⟨v', b6, rfl⟩⟩⟩,
    noneRefused_cons a1 rfl (noneRefused_cons a4 a2 (noneRefused_cons a6 rfl (noneRefused_nil _))),
    noneRefused_cons b1 rfl (noneRefused_cons b4 b2 (noneRefused_cons b6 rfl (noneRefused_nil _))),
    fun c => noTwins_single a7 _ c, h1, a8, b7⟩

end V2
end Verif
